import Verif.Codec.Fits
import Verif.Codec.PeekLemmas

/-!
C46: the binary form of transactions and blocks is exact.
-/
set_option maxRecDepth 100000

namespace Verif.Codec

namespace Spec

/-- Reading is the exact inverse of writing: every value of the type is read back unchanged whatever
follows it, and whatever is read as a value of the type is the one binary form of this value. -/
def Exact {α : Type} (c : Codec α) (fits : α → Prop) : Prop :=
  (∀ a r, fits a → c.dec (c.enc a ++ r) = some (a, r)) ∧
  (∀ bs a r, c.dec bs = some (a, r) → fits a ∧ bs = c.enc a ++ r)

/-- A plain input: bytes are delivered in order, a request for more bytes than left fails, looking at the
next byte does not take it. -/
def serve : List ReadOp → Bytes → Option (List Bytes × Bytes)
  | [], bs => some ([], bs)
  | .peek :: _, [] => none
  | .peek :: ops, b :: bs => (serve ops (b :: bs)).map fun (xs, r) => ([b] :: xs, r)
  | .readByte :: _, [] => none
  | .readByte :: ops, b :: bs => (serve ops bs).map fun (xs, r) => ([b] :: xs, r)
  | .read n :: ops, bs =>
    if n ≤ bs.length then
      (serve ops (bs.drop n)).map fun (xs, r) => (bs.take n :: xs, r)
    else none

end Spec

open Spec

theorem exact_of {α : Type} {c : Codec α} {fits : α → Prop} (h : Lawful c)
    (hf : ∀ a, c.ok a ↔ fits a) : Exact c fits :=
  ⟨fun a r ha => h.round a r ((hf a).2 ha),
    fun bs a r hd => ⟨(hf a).1 (h.canon bs a r hd).1, (h.canon bs a r hd).2⟩⟩

/-! ### Exactness -/

/-- Transactions. -/
theorem C46_transaction (k : Crypto) : Exact (Transaction.codec k) (TransactionV1.Fits k) :=
  exact_of inferInstance (Transaction.ok_iff k)

/-- Signed transactions, including that the number of witnesses is that of the inputs. -/
theorem C46_signed_transaction (k : Crypto) :
    Exact (SignedTransaction.codec k) (SignedTransaction.Fits k) :=
  exact_of inferInstance (SignedTransaction.ok_iff k)

/-- Blocks. -/
theorem C46_block (k : Crypto) : Exact (Block.codec k) (BlockV1.Fits k) :=
  exact_of inferInstance (Block.ok_iff k)

/-- Block headers. -/
theorem C46_block_header (k : Crypto) : Exact (BlockHeader.codec k) (BlockHeader.Fits k) :=
  exact_of inferInstance (BlockHeader.ok_iff k)

/-- Signed block headers. -/
theorem C46_signed_block_header (k : Crypto) :
    Exact (SignedBlockHeader.codec k) (SignedBlockHeader.Fits k) :=
  exact_of inferInstance (SignedBlockHeader.ok_iff k)

/-- Inputs, which are database keys too. -/
theorem C46_input (k : Crypto) : Exact (TxInput.codec k) (TxInput.Fits k) :=
  exact_of inferInstance (TxInput.ok_iff k)

/-- Outputs, which are stored as unspent outputs too. -/
theorem C46_output (k : Crypto) : Exact (TxOutput.codec k) (TxOutput.Fits k) :=
  exact_of inferInstance (TxOutput.ok_iff k)

/-- Witnesses. -/
theorem C46_witness (k : Crypto) : Exact (InputWitness.codec k) (InputWitness.Fits k) :=
  exact_of inferInstance (InputWitness.ok_iff k)

/-- Destinations, which are what addresses stand for. -/
theorem C46_destination (k : Crypto) : Exact (Destination.codec k) (Destination.Fits k) :=
  exact_of inferInstance (Destination.ok_iff k)

/-- The genesis block. -/
theorem C46_genesis (k : Crypto) : Exact (Genesis.codec k) (Genesis.Fits k) :=
  exact_of inferInstance (Genesis.ok_iff k)

/-- Spends of hash time locked outputs. -/
theorem C46_htlc_spend (k : Crypto) : Exact (HtlcSpend.codec k) (HtlcSpend.Fits k) :=
  exact_of inferInstance (HtlcSpend.ok_iff k)

/-- Multisig challenges. -/
theorem C46_multisig_challenge (k : Crypto) :
    Exact (MultisigChallenge.codec k) (MultisigChallenge.Fits k) :=
  exact_of inferInstance (MultisigChallenge.ok_iff k)

/-! ### Consequences -/

/-- No binary form continues another one: a stream of exact values can be cut in one way only. -/
theorem C46_prefix_free {α : Type} {c : Codec α} {fits : α → Prop} (h : Exact c fits) {a b : α}
    {r s : Bytes} (ha : fits a) (hb : fits b) (he : c.enc a ++ r = c.enc b ++ s) : a = b ∧ r = s := by
  have h1 := h.1 a r ha
  rw [he, h.1 b s hb] at h1
  simp only [Option.some.injEq, Prod.mk.injEq] at h1
  exact ⟨h1.1.symm, h1.2.symm⟩

/-- Reading a whole byte string succeeds exactly on the binary forms. -/
theorem C46_decode_all {α : Type} {c : Codec α} {fits : α → Prop} (h : Exact c fits) (bs : Bytes)
    (a : α) : c.decodeAll bs = some a ↔ fits a ∧ bs = c.enc a := by
  constructor
  · intro hd
    unfold Codec.decodeAll at hd
    split at hd
    · rename_i x hx
      simp only [Option.some.injEq] at hd
      subst hd
      have := h.2 _ _ _ hx
      simpa using this
    · simp at hd
  · rintro ⟨ha, rfl⟩
    have := h.1 a [] ha
    simp only [List.append_nil] at this
    simp only [Codec.decodeAll, this]

/-- A signed transaction is never taken for a bare one and vice versa. -/
theorem C46_signed_or_bare (k : Crypto) (bs : Bytes) (tx : TransactionV1) (st : SignedTransaction)
    (h1 : (Transaction.codec k).decodeAll bs = some tx)
    (h2 : (SignedTransaction.codec k).decodeAll bs = some st) : False := by
  obtain ⟨f1, rfl⟩ := (C46_decode_all (C46_transaction k) _ _).1 h1
  obtain ⟨f2, he⟩ := (C46_decode_all (C46_signed_transaction k) _ _).1 h2
  have he' : (Transaction.codec k).enc tx ++ []
      = (Transaction.codec k).enc st.transaction ++ (vec (InputWitness.codec k)).enc st.signatures := by
    rw [List.append_nil, he]
    rfl
  obtain ⟨-, h3⟩ := C46_prefix_free (C46_transaction k) f1 f2.1 he'
  have hv : Lawful (vec (InputWitness.codec k)) := inferInstance
  have := hv.round st.signatures [] ((ok_vec _ _).2
    ⟨f2.2.1.1, fun y hy => (InputWitness.ok_iff k y).2 (f2.2.1.2 y hy)⟩)
  rw [← h3] at this
  simp [vec, compactDec] at this

/-- Two transactions with one identifier are equal, or a collision of the hash function is at hand. -/
theorem C46_transaction_id (H : Bytes → Bytes) (k : Crypto) (t u : TransactionV1) (ht : t.Fits k)
    (hu : u.Fits k) (h : txId H k t = txId H k u) : t = u ∨ ∃ x y, x ≠ y ∧ H x = H y := by
  by_cases he : (Transaction.codec k).enc t = (Transaction.codec k).enc u
  · left
    exact (C46_prefix_free (C46_transaction k) ht hu (r := []) (s := []) (by rw [he])).1
  · right
    exact ⟨_, _, he, h⟩

/-- Two blocks with one identifier have one unsigned header, or a collision of the hash function is at
hand. -/
theorem C46_block_id (H : Bytes → Bytes) (k : Crypto) (b c : BlockV1) (hb : b.Fits k) (hc : c.Fits k)
    (h : blockId H k b = blockId H k c) :
    b.header.header = c.header.header ∨ ∃ x y, x ≠ y ∧ H x = H y := by
  by_cases he : (BlockHeader.codec k).enc b.header.header = (BlockHeader.codec k).enc c.header.header
  · left
    exact (C46_prefix_free (C46_block_header k) hb.1.1 hc.1.1 (r := []) (s := []) (by rw [he])).1
  · right
    exact ⟨_, _, he, h⟩

/-! ### Multisig spends -/

/-- Signature sets of multisig spends are read back. -/
theorem C46_multisig_read_back (k : Crypto) (sigs : List (Nat × Bytes)) (ch : MultisigChallenge)
    (r : Bytes) (hs : (sigs.map (·.1)).Pairwise (· < ·))
    (hk : ∀ p ∈ sigs, p.1 < 2 ^ 8 ∧ p.2.length = 64) (hc : ch.Fits k) :
    (multisigSpend k).dec ((multisigSpend k).enc (sigs, ch) ++ r) = some ((sigs, ch), r) := by
  have hl : sigs.length < 256 ^ 4 := by
    have := sorted_length hs (fun p hp => (hk p hp).1)
    omega
  have hv : Lawful (vec (pair (uint 1) signatureC)) := inferInstance
  have h1 : ∀ r', sigMap.dec (sigMap.enc sigs ++ r') = some (sigs, r') := by
    intro r'
    simp only [sigMap]
    rw [hv.round sigs r' ⟨hl, fun p hp => ⟨(hk p hp).1, (hk p hp).2⟩⟩]
    simp [collectMap_sorted hs]
  have h2 := (C46_multisig_challenge k).1 ch r hc
  have h3 : (multisigSpend k).enc (sigs, ch) ++ r
      = sigMap.enc sigs ++ ((MultisigChallenge.codec k).enc ch ++ r) := List.append_assoc _ _ _
  rw [h3]
  simp only [multisigSpend, pair_dec, h1, h2]

/-- Finding: the signature set of a multisig spend can be rewritten by anybody into other bytes that are
read as the same spend, because entries are accepted in any order and a repeated entry overrides the
earlier one.  This holds for every spend with a signature: an arbitrary entry with the same key may be put
in front. -/
theorem C46_multisig_finding (k : Crypto) (i : Nat) (s t : Bytes) (l : List (Nat × Bytes))
    (ch : MultisigChallenge) (hl : (((i, s) :: l).map (·.1)).Pairwise (· < ·))
    (hk : ∀ p ∈ (i, s) :: l, p.1 < 2 ^ 8 ∧ p.2.length = 64) (ht : t.length = 64) (hc : ch.Fits k) :
    ∃ bs, bs ≠ (multisigSpend k).enc ((i, s) :: l, ch) ∧
      (multisigSpend k).decodeAll bs = some ((i, s) :: l, ch) := by
  have hv : Lawful (vec (pair (uint 1) signatureC)) := inferInstance
  have h2 := (C46_multisig_challenge k).1 ch [] hc
  have hlen := sorted_length hl (fun p hp => (hk p hp).1)
  have h1 := hv.round ((i, t) :: (i, s) :: l) ((MultisigChallenge.codec k).enc ch)
    ⟨by simp only [List.length_cons] at hlen ⊢; omega,
      by
        intro p hp
        rcases List.mem_cons.1 hp with rfl | hp
        · exact ⟨(hk (i, s) (by simp)).1, ht⟩
        · exact ⟨(hk p hp).1, (hk p hp).2⟩⟩
  have h3 : sigMap.dec ((vec (pair (uint 1) signatureC)).enc ((i, t) :: (i, s) :: l) ++
      (MultisigChallenge.codec k).enc ch) = some ((i, s) :: l, (MultisigChallenge.codec k).enc ch) := by
    have : collectMap ((i, t) :: (i, s) :: l) = (i, s) :: l := by
      have := collect_go l [(i, s)] hl
      simpa [collectMap, putSorted] using this
    simp only [sigMap, h1, Option.map_some, this]
  refine ⟨(vec (pair (uint 1) signatureC)).enc ((i, t) :: (i, s) :: l) ++
    (MultisigChallenge.codec k).enc ch, ?_, ?_⟩
  · intro h
    have h4 := congrArg sigMap.dec h
    have h5 : (multisigSpend k).enc ((i, s) :: l, ch)
        = (vec (pair (uint 1) signatureC)).enc ((i, s) :: l) ++ (MultisigChallenge.codec k).enc ch := rfl
    have h6 := hv.round ((i, s) :: l) ((MultisigChallenge.codec k).enc ch)
      ⟨by simp only [List.length_cons] at hlen ⊢; omega, fun p hp => ⟨(hk p hp).1, (hk p hp).2⟩⟩
    rw [← h5, ← h, h1] at h6
    simp at h6
  · simp only [List.append_nil] at h2
    simp only [Codec.decodeAll, multisigSpend, pair_dec, h3, h2]

/-! ### Lookahead -/

/-- The tag of a transaction or block is looked at before it is read.  Looking ahead does not change what
is delivered, as long as no empty read is requested. -/
theorem C46_lookahead (ops : List ReadOp) (h : .read 0 ∉ ops) (bs : Bytes) :
    (Peekable.run ops ⟨none, bs⟩).map (fun (xs, q) => (xs, q.init.toList ++ q.inner))
      = serve ops bs := by
  have key : ∀ (ops : List ReadOp) (p : Peekable), .read 0 ∉ ops →
      (Peekable.run ops p).map (fun (xs, q) => (xs, q.rest)) = serve ops p.rest := by
    intro ops
    induction ops with
    | nil => intro p _; rfl
    | cons op ops ih =>
      intro p hn
      simp only [List.mem_cons, not_or] at hn
      have hs := step_rest p op (fun e => hn.1 e.symm)
      simp only [Peekable.run]
      cases hp : p.step op with
      | none =>
        simp only [hp, Option.map_none] at hs ⊢
        cases op with
        | peek =>
          cases hr : p.rest with
          | nil => rfl
          | cons b r => simp [hr, plainStep, takeN] at hs
        | readByte =>
          cases hr : p.rest with
          | nil => rfl
          | cons b r => simp [hr, plainStep, takeN] at hs
        | read n =>
          simp only [plainStep, takeN] at hs
          split at hs
          · simp at hs
          · rename_i hlt
            simp only [serve]
            rw [if_neg hlt]
      | some x =>
        obtain ⟨x, q⟩ := x
        have hq := ih q hn.2
        simp only [hp, Option.map_some] at hs
        have e1 : (match Peekable.run ops q with
            | some (xs, q') => some (x :: xs, q')
            | none => none).map (fun (z : List Bytes × Peekable) => (z.1, z.2.rest))
            = (serve ops q.rest).map fun (xs, r) => (x :: xs, r) := by
          rw [← hq]
          cases Peekable.run ops q <;> rfl
        refine Eq.trans e1 ?_
        cases op with
        | peek =>
          cases hr : p.rest with
          | nil => simp [hr, plainStep, takeN] at hs
          | cons b r =>
            simp [hr, plainStep, takeN] at hs
            obtain ⟨rfl, hs⟩ := hs
            simp only [serve, hs]
        | readByte =>
          cases hr : p.rest with
          | nil => simp [hr, plainStep, takeN] at hs
          | cons b r =>
            simp [hr, plainStep, takeN] at hs
            obtain ⟨rfl, hs⟩ := hs
            simp only [serve, hs]
        | read n =>
          simp only [plainStep, takeN] at hs
          split at hs
          · rename_i hle
            simp only [Option.some.injEq, Prod.mk.injEq] at hs
            obtain ⟨rfl, hs⟩ := hs
            simp only [serve]
            rw [if_pos hle, hs]
          · simp at hs
  have := key ops ⟨none, bs⟩ h
  simpa [Peekable.rest] using this

/-- Finding: a read of no bytes after looking ahead loses the byte looked at.  No decoder of the code base
asks for an empty read at this place. -/
theorem C46_lookahead_finding :
    (Peekable.run [.peek, .read 0, .readByte] ⟨none, [1, 2]⟩).map (·.1) = some [[1], [], [2]] ∧
    (serve [.peek, .read 0, .readByte] [1, 2]).map (·.1) = some [[1], [], [1]] := by
  decide +kernel

end Verif.Codec
