import Verif.Sighash.Lemmas
import Verif.Codec.Vectors

/-!
C44: what a signature is about.
-/
set_option maxRecDepth 100000

namespace Verif.Sighash

open Verif Verif.Codec Verif.Sighash.Spec

/-! ### The signed message -/

/-- There is a message exactly for the inputs of the signable, with one commitment for each input and,
in the mode which signs the output beside the input, when that output exists. -/
theorem C44_exists (k : Crypto) (t : Signable) (cs : List InputCommitment) (mode : UInt8) (i : Nat) :
    (∃ bs, stream k t cs mode i = .ok bs) ↔
      (∃ ins, t.inputs = some ins ∧ i < ins.length ∧ cs.length = ins.length) ∧
      (mode.toNat % 128 = 3 → ∃ outs, t.outputs = some outs ∧ i < outs.length) := by
  have hout : (∃ outs, t.outputs = some outs ∧ i < outs.length) ↔ i < (t.outputs.getD []).length := by
    cases t.outputs <;> simp
  rw [hout]
  constructor
  · rintro ⟨bs, h⟩
    obtain ⟨h1, h2, _⟩ := stream_ok_iff.1 h
    exact ⟨h1, h2⟩
  · rintro ⟨h1, h2⟩
    exact ⟨_, stream_ok_iff.2 ⟨h1, h2, rfl⟩⟩

/-- The reasons to refuse. -/
theorem C44_errors (k : Crypto) (t : Signable) (cs : List InputCommitment) (mode : UInt8) (i : Nat) :
    (stream k t cs mode i = .error .withoutInputs ↔ t.inputs = none) ∧
    (∀ ins, t.inputs = some ins → ins.length ≤ i →
      stream k t cs mode i = .error (.invalidIndex i ins.length)) ∧
    (∀ ins, t.inputs = some ins → i < ins.length → cs.length ≠ ins.length →
      stream k t cs mode i = .error (.commitmentsCount cs.length ins.length)) ∧
    (∀ ins, t.inputs = some ins → i < ins.length → cs.length = ins.length → mode.toNat % 128 = 3 →
      (t.outputs.getD []).length ≤ i →
      stream k t cs mode i = .error (.invalidIndex i (t.outputs.getD []).length)) := by
  rw [stream_eq]
  refine ⟨?_, ?_, ?_, ?_⟩
  · cases t.inputs with
    | none => simp
    | some ins =>
      simp only [reduceCtorEq, iff_false]
      split <;> [skip; split <;> [skip; split]] <;> simp
  · intro ins h1 h2
    simp [h1, h2]
  · intro ins h1 h2 h3
    have : ¬ ins.length ≤ i := by omega
    simp [h1, this, h3]
  · intro ins h1 h2 h3 h4 h5
    have : ¬ ins.length ≤ i := by omega
    simp [h1, this, h3, h4, h5]

/-- The messages of two transactions, or of two block rewards, are the same exactly when the signers
agree to the same: neither can anything covered be changed nor does anything else matter. -/
theorem C44_binding (k : Crypto) (t u : Signable) (cs ds : List InputCommitment) (m n : UInt8)
    (i j : Nat) (a b : Bytes) (hk : SameKind t u) (ht : Fits k t cs) (hu : Fits k u ds)
    (ha : stream k t cs m i = .ok a) (hb : stream k u ds n j = .ok b) :
    a = b ↔ view t cs m i = view u ds n j :=
  message_inj hk ht hu ha hb

/-- Equal hashes mean equal content, or two different byte strings with one hash. -/
theorem C44_hash (H : Bytes → Bytes) (k : Crypto) (t u : Signable) (cs ds : List InputCommitment)
    (m n : UInt8) (i j : Nat) (a b : Bytes) (hk : SameKind t u) (ht : Fits k t cs) (hu : Fits k u ds)
    (ha : stream k t cs m i = .ok a) (hb : stream k u ds n j = .ok b) (he : H a = H b) :
    view t cs m i = view u ds n j ∨ (a ≠ b ∧ H a = H b) := by
  by_cases h : a = b
  · exact .inl ((message_inj hk ht hu ha hb).1 h)
  · exact .inr ⟨h, he⟩

theorem fits_ofTx {k : Crypto} {tx : TransactionV1} {cs : List InputCommitment} (h : tx.Fits k)
    (hc : ∀ c ∈ cs, c.Fits k) : Fits k (ofTx tx) cs := by
  obtain ⟨h1, h2, h3⟩ := h
  refine ⟨?_, ?_, ?_, hc⟩
  · rintro _ ⟨⟩; exact h2
  · rintro _ ⟨⟩; exact h3
  · rintro _ ⟨⟩; exact h1

theorem sameKind_ofTx (tx ux : TransactionV1) : SameKind (ofTx tx) (ofTx ux) := ⟨Iff.rfl, Iff.rfl⟩

/-- A signature of a transaction in the usual mode is about the whole transaction, and about everything
its inputs are worth. -/
theorem C44_all (k : Crypto) (tx ux : TransactionV1) (cs ds : List InputCommitment) (i j : Nat)
    (a b : Bytes) (ht : tx.Fits k) (hu : ux.Fits k) (hc : ∀ c ∈ cs, c.Fits k) (hd : ∀ d ∈ ds, d.Fits k)
    (ha : stream k (ofTx tx) cs 1 i = .ok a) (hb : stream k (ofTx ux) ds 1 j = .ok b) :
    a = b ↔ tx = ux ∧ cs = ds := by
  rw [C44_binding k _ _ _ _ _ _ _ _ _ _ (sameKind_ofTx tx ux) (fits_ofTx ht hc) (fits_ofTx hu hd) ha hb]
  obtain ⟨⟨ins, hi, _, l1⟩, _⟩ := stream_ok_iff.1 ha
  obtain ⟨⟨jns, hj, _, l2⟩, _⟩ := stream_ok_iff.1 hb
  obtain ⟨f, ti, to'⟩ := tx
  obtain ⟨g, ui, uo⟩ := ux
  simp only [ofTx, Option.some.injEq] at hi hj
  subst hi hj
  simp only [view, ofTx, View.mk.injEq, TransactionV1.mk.injEq, Option.some.injEq, Option.getD_some]
  have e1 : (1 : UInt8).toNat < 128 := by decide
  have e2 : ¬ (1 : UInt8).toNat % 128 = 2 := by decide
  have e3 : ¬ (1 : UInt8).toNat % 128 = 3 := by decide
  simp only [e1, e2, e3, if_true, if_false, true_and]
  rw [zip_inj (by omega) (by omega)]
  tauto

/-- The input which is signed matters only in so far as it selects what is signed: with all inputs
covered, a signature made for one input serves every other input in the modes for all or no
outputs.  (The code does not hash the position of the input.) -/
theorem C44_position_finding (k : Crypto) (t : Signable) (cs : List InputCommitment) (mode : UInt8)
    (i j : Nat) (hm : mode.toNat = 1 ∨ mode.toNat = 2) (ins : List TxInput) (h : t.inputs = some ins)
    (hi : i < ins.length) (hj : j < ins.length) :
    stream k t cs mode i = stream k t cs mode j := by
  rw [stream_eq, stream_eq, h]
  have n3 : ¬ mode.toNat % 128 = 3 := by omega
  have hlt : mode.toNat < 128 := by omega
  have hv : view t cs mode i = view t cs mode j := by
    simp [view, n3, hlt]
  have hi' : ¬ ins.length ≤ i := by omega
  have hj' : ¬ ins.length ≤ j := by omega
  simp [hi', hj', n3, hv]

/-- Nobody else's inputs are covered in the modes with the highest bit, and no outputs with mode 2: the
message only depends on the flags and on the signed input with its commitment. -/
theorem C44_anyone_none (k : Crypto) (tx ux : TransactionV1) (cs ds : List InputCommitment) (i j : Nat)
    (hf : tx.flags = ux.flags) (hi : i < tx.inputs.length) (hj : j < ux.inputs.length)
    (lc : cs.length = tx.inputs.length) (ld : ds.length = ux.inputs.length)
    (h1 : tx.inputs[i]? = ux.inputs[j]?) (h2 : cs[i]? = ds[j]?) :
    stream k (ofTx tx) cs 0x82 i = stream k (ofTx ux) ds 0x82 j := by
  have e1 : ¬ (0x82 : UInt8).toNat < 128 := by decide
  have e2 : (0x82 : UInt8).toNat % 128 = 2 := by decide
  have hv : view (ofTx tx) cs 0x82 i = view (ofTx ux) ds 0x82 j := by
    have hz : (tx.inputs.zip cs)[i]? = (ux.inputs.zip ds)[j]? := by
      rw [List.getElem?_eq_getElem hi, List.getElem?_eq_getElem hj] at h1
      rw [List.getElem?_eq_getElem (by omega), List.getElem?_eq_getElem (by omega)] at h2
      rw [List.getElem?_eq_getElem (by simp; omega), List.getElem?_eq_getElem (by simp; omega)]
      simp only [Option.some.injEq] at h1 h2
      simp [List.getElem_zip, h1, h2]
    simp only [view, ofTx, e1, e2, if_true, if_false, Option.getD_some, hf, hz]
  have hh : streamHead (ofTx tx) = streamHead (ofTx ux) := by simp [streamHead, ofTx, hf]
  rw [stream_eq, stream_eq]
  have hi' : ¬ tx.inputs.length ≤ i := by omega
  have hj' : ¬ ux.inputs.length ≤ j := by omega
  have n3 : ¬ (0x82 : UInt8).toNat % 128 = 3 := by decide
  have m1 : ∀ x : TransactionV1, (ofTx x).inputs = some x.inputs := fun _ => rfl
  simp only [m1, hi', hj', lc, ld, n3, if_false, ne_eq, not_true_eq_false, false_and, Except.ok.injEq]
  unfold message
  rw [hv, hh]

/-! ### Commitments -/

/-- Commitments can be made exactly when everything about the inputs is known, in both versions. -/
theorem C44_known (v : Info) (ver : Version) (xs : List TxInput) :
    (∃ cs, commitments v ver xs = .ok cs) ↔ ∀ x ∈ xs, Known v x := by
  have two : ∀ x i, (∃ c, commitV0 v x i = .ok c) ↔ ∃ c, commitV1 v x i = .ok c := by
    intro x i
    simp only [commitV0_ok]
    constructor
    · rintro ⟨c, h, _⟩; exact h
    · rintro ⟨d, hd⟩
      cases x with
      | utxo o =>
        obtain ⟨u, hu, _⟩ := commitV1_utxo.1 hd
        exact ⟨.utxo u, ⟨d, hd⟩, .inl ⟨o, u, rfl, hu, rfl⟩⟩
      | account a => exact ⟨.none, ⟨d, hd⟩, .inr ⟨by simp, rfl⟩⟩
      | accountCommand n c' => exact ⟨.none, ⟨d, hd⟩, .inr ⟨by simp, rfl⟩⟩
      | orderAccountCommand c' => exact ⟨.none, ⟨d, hd⟩, .inr ⟨by simp, rfl⟩⟩
  cases ver with
  | v0 =>
    simp only [commitments, commitAll_isOk, two, commitV1_known]
    exact List.forall_mem_iff_forall_getElem.symm
  | v1 =>
    simp only [commitments, commitAll_isOk, commitV1_known]
    exact List.forall_mem_iff_forall_getElem.symm

/-- There is one commitment for each input. -/
theorem C44_one_each (v : Info) (ver : Version) (xs : List TxInput) (cs : List InputCommitment)
    (h : commitments v ver xs = .ok cs) : cs.length = xs.length := by
  cases ver <;> exact (commitAll_get.1 h).1

/-- Two states of the chain lead to the same commitments exactly when they say the same about the
inputs: the spent outputs, the balance of a pool whose block reward position is spent, the initial
amounts of a filled order, and all amounts of a concluded order. -/
theorem C44_commitments (v w : Info) (xs : List TxInput) (cs ds : List InputCommitment)
    (hc : commitments v .v1 xs = .ok cs) (hd : commitments w .v1 xs = .ok ds) :
    cs = ds ↔ ∀ x ∈ xs, Agree v w x :=
  commitAll_eq hc hd fun _ _ _ _ _ h1 h2 => commitV1_agree h1 h2

/-- The first version only commits to the spent outputs. -/
theorem C44_commitments_v0 (v w : Info) (xs : List TxInput) (cs ds : List InputCommitment)
    (hc : commitments v .v0 xs = .ok cs) (hd : commitments w .v0 xs = .ok ds) :
    cs = ds ↔ ∀ x ∈ xs, AgreeUtxo v w x :=
  commitAll_eq hc hd fun _ _ _ _ _ h1 h2 => commitV0_agree h1 h2

/-- A signature outlives the change of the version exactly when no input is about a pool or an order. -/
theorem C44_upgrade (v : Info) (xs : List TxInput) (cs ds : List InputCommitment)
    (hc : commitments v .v0 xs = .ok cs) (hd : commitments v .v1 xs = .ok ds) :
    cs = ds ↔ ∀ x ∈ xs, Simple v x :=
  commitAll_eq hc hd fun _ _ _ _ _ h1 h2 => commit_simple h1 h2

/-- Whoever signs with a wrong idea of the chain makes no valid signature: in the usual mode the message
made from `w` is the one checked against `v` exactly when both say the same about every input. -/
theorem C44_offline (k : Crypto) (v w : Info) (tx : TransactionV1) (cs ds : List InputCommitment)
    (i : Nat) (a b : Bytes) (hv : InfoFits k v) (hw : InfoFits k w) (ht : tx.Fits k)
    (hc : commitments v .v1 tx.inputs = .ok cs) (hd : commitments w .v1 tx.inputs = .ok ds)
    (ha : stream k (ofTx tx) cs 1 i = .ok a) (hb : stream k (ofTx tx) ds 1 i = .ok b) :
    a = b ↔ ∀ x ∈ tx.inputs, Agree v w x := by
  rw [C44_all k tx tx cs ds i i a b ht ht (commitments_v1_fits hv hc) (commitments_v1_fits hw hd) ha hb,
    ← C44_commitments v w tx.inputs cs ds hc hd]
  simp

/-- A block reward commits to the outputs its inputs spend and accepts no other inputs. -/
theorem C44_kernel (v : Info) (xs : List TxInput) (cs : List InputCommitment) :
    kernelCommitments v xs = .ok cs ↔
      ∃ us : List (UtxoOutPoint × TxOutput), (∀ x ∈ us, v.utxo x.1 = some x.2) ∧
        xs = us.map (fun x => .utxo x.1) ∧ cs = us.map (fun x => .utxo x.2) := by
  unfold kernelCommitments
  generalize 0 = n
  induction xs generalizing n cs with
  | nil =>
    simp only [commitAll, pure, Except.pure, Except.ok.injEq]
    constructor
    · rintro rfl; exact ⟨[], by simp⟩
    · rintro ⟨us, _, h, rfl⟩
      have : us = [] := by simpa using h.symm
      simp [this]
  | cons x xs ih =>
    simp only [commitAll, bind_eq_ok, pure, Except.pure, Except.ok.injEq]
    constructor
    · rintro ⟨c, hc, ds, hd, rfl⟩
      obtain ⟨us, h1, rfl, rfl⟩ := (ih _ _).1 hd
      unfold commitKernel at hc
      split at hc
      · rename_i o
        simp only [bind_eq_ok, okOr_eq_ok, pure, Except.pure, Except.ok.injEq] at hc
        obtain ⟨u, hu, rfl⟩ := hc
        exact ⟨(o, u) :: us, by simpa using ⟨hu, fun a b h => h1 (a, b) h⟩, rfl, rfl⟩
      · exact absurd hc (by simp)
    · rintro ⟨us, h1, h2, rfl⟩
      cases us with
      | nil => simp at h2
      | cons y us =>
        simp only [List.map_cons, List.cons.injEq] at h2
        obtain ⟨rfl, rfl⟩ := h2
        refine ⟨.utxo y.2, ?_, us.map (fun x => .utxo x.2), ?_, rfl⟩
        · simp [commitKernel, h1 y (by simp), okOr, bind, Except.bind, pure, Except.pure]
        · exact (ih _ _).2 ⟨us, fun x hx => h1 x (by simp [hx]), rfl, rfl⟩

/-! ### Block rewards and transactions -/

namespace Case

def k : Crypto := Vectors.k

/-- The pool of the block producer. -/
def pool : Bytes :=
  [7, 7, 7, 7, 7, 7, 5, 0, 0, 0, 1, 0, 0, 0, 1, 0, 0, 4, 0, 4, 9, 0xb4] ++ List.replicate 10 7

/-- The transaction whose output the kernel spends. -/
def source : Bytes := List.replicate 11 9 ++ [1, 0, 0, 0, 0, 0] ++ List.replicate 15 8

def staked : TxOutput := .produceBlockFromStake .anyoneCanSpend pool

/-- The reward of a block. -/
def reward : Signable := ofReward (some [.utxo ⟨.transaction source, 3⟩]) (some [staked])

/-- A transaction spending some output. -/
def tx : TransactionV1 where
  flags := leNat ([0, 0, 0, 0, 0] ++ List.replicate 11 9)
  inputs := [.utxo ⟨.transaction
    (List.replicate 15 8 ++ [3, 0, 0, 0, 1, 0, 0, 0, 1, 4, 0] ++ List.replicate 6 7), 5⟩]
  outputs := [.dataDeposit (List.replicate 10 7 ++ [4, 4, 0] ++ pool)]

/-- The output it spends. -/
def spent : TxOutput := .transfer (.coin 1) .anyoneCanSpend

theorem fits_reward : Fits k reward [.utxo staked] := by
  refine ⟨?_, ?_, ?_, ?_⟩
  · rintro _ ⟨⟩
    refine ⟨by decide, ?_⟩
    intro x hx
    simp only [List.mem_singleton] at hx
    subst hx
    exact ⟨show List.length _ = 32 by decide, by decide⟩
  · rintro _ ⟨⟩
    refine ⟨by decide, ?_⟩
    intro x hx
    simp only [List.mem_singleton] at hx
    subst hx
    exact ⟨trivial, by decide⟩
  · rintro _ ⟨⟩
  · intro c hc
    simp only [List.mem_singleton] at hc
    subst hc
    exact ⟨trivial, by decide⟩

theorem fits_tx : tx.Fits k := by
  refine ⟨by decide, ⟨by decide, ?_⟩, by decide, ?_⟩
  · intro x hx
    simp only [tx, List.mem_singleton] at hx
    subst hx
    exact ⟨show List.length _ = 32 by decide, by decide⟩
  · intro x hx
    simp only [tx, List.mem_singleton] at hx
    subst hx
    show _ < _
    decide

theorem fits_spent : ∀ c ∈ [InputCommitment.utxo spent], c.Fits k := by
  intro c hc
  simp only [List.mem_singleton] at hc
  subst hc
  refine ⟨?_, trivial⟩
  show (1 : Nat) < 2 ^ 128
  decide

end Case

/-- A block reward and a transaction can have one and the same message: nothing in it tells them apart.
So the condition of `C44_binding` that both are of the same kind is needed. -/
theorem C44_kinds_finding : ∃ (k : Crypto) (ri : List TxInput) (ro : List TxOutput) (tx : TransactionV1)
    (cs ds : List InputCommitment) (a : Bytes),
    Fits k (ofReward (some ri) (some ro)) cs ∧ Fits k (ofTx tx) ds ∧
    stream k (ofReward (some ri) (some ro)) cs 1 0 = .ok a ∧ stream k (ofTx tx) ds 1 0 = .ok a := by
  have h : (stream Case.k Case.reward [.utxo Case.staked] 1 0).toOption =
      (stream Case.k (ofTx Case.tx) [.utxo Case.spent] 1 0).toOption ∧
      (stream Case.k Case.reward [.utxo Case.staked] 1 0).toOption.isSome = true := by
    decide +kernel
  obtain ⟨h1, h2⟩ := h
  cases ha : stream Case.k Case.reward [.utxo Case.staked] 1 0 with
  | error e => rw [ha] at h2; simp [Except.toOption] at h2
  | ok a =>
    cases hb : stream Case.k (ofTx Case.tx) [.utxo Case.spent] 1 0 with
    | error e => rw [ha, hb] at h1; simp [Except.toOption] at h1
    | ok b =>
      rw [ha, hb] at h1
      simp only [Except.toOption, Option.some.injEq] at h1
      subst h1
      exact ⟨Case.k, _, _, Case.tx, _, _, a, Case.fits_reward,
        fits_ofTx Case.fits_tx Case.fits_spent, ha, hb⟩

/-! ### Cases meeting the hypotheses -/

namespace Case

def pay (n : Nat) : TxOutput := .transfer (.coin n) .anyoneCanSpend

def out (n : Nat) : TxInput := .utxo ⟨.transaction (List.replicate 32 n.toUInt8), n⟩

def order : Bytes := List.replicate 32 1

/-- A transaction with an ordinary input, a pool reward and an order command. -/
def mixed : TransactionV1 :=
  ⟨0, [out 1, out 2, .orderAccountCommand (.concludeOrder order)], [pay 5, pay 6]⟩

def chain (balance ask : Nat) : Info where
  utxo o := if o.index = 1 then some (pay 11) else if o.index = 2 then some staked else none
  stakerBalance p := if p = pool then some balance else none
  order o := if o = order then some ⟨.coin 1, .tokenV1 order 2, ask, 4⟩ else none

def msg (v : Info) (ver : Version) (tx : TransactionV1) (mode : UInt8) (i : Nat) : Option Bytes :=
  ((commitments v ver tx.inputs).toOption).bind fun cs => (stream k (ofTx tx) cs mode i).toOption

/- everything is known and signed -/
example : (msg (chain 3 4) .v1 mixed 1 0).isSome = true := by decide +kernel
/- another balance of the pool, another amount of the order -/
example : msg (chain 3 4) .v1 mixed 1 0 ≠ msg (chain 2 4) .v1 mixed 1 0 := by decide +kernel
example : msg (chain 3 4) .v1 mixed 1 0 ≠ msg (chain 3 5) .v1 mixed 1 0 := by decide +kernel
/- not noticed with the first version -/
example : msg (chain 3 4) .v0 mixed 1 0 = msg (chain 2 5) .v0 mixed 1 0 := by decide +kernel
example : (msg (chain 3 4) .v0 mixed 1 0).isSome = true := by decide +kernel
/- the position -/
example : msg (chain 3 4) .v1 mixed 1 0 = msg (chain 3 4) .v1 mixed 1 2 := by decide +kernel
example : msg (chain 3 4) .v1 mixed 0x81 0 ≠ msg (chain 3 4) .v1 mixed 0x81 2 := by decide +kernel
/- the output beside the third input does not exist -/
example : (msg (chain 3 4) .v1 mixed 3 1).isSome = true ∧ msg (chain 3 4) .v1 mixed 3 2 = none := by
  decide +kernel
/- only the signed input is covered -/
example : msg (chain 3 4) .v1 mixed 0x82 1 = msg (chain 3 9) .v1 ⟨0, [out 2], []⟩ 0x82 0 := by
  decide +kernel
/- unknown outputs -/
example : msg (chain 3 4) .v1 ⟨0, [out 3], []⟩ 1 0 = none := by decide +kernel

end Case

end Verif.Sighash
