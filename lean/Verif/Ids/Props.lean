import Verif.Ids.Model
import Verif.Sighash.Lemmas
import Verif.Codec.Fits

/-!
# C50: what the ids of pools, delegations, orders, tokens and transactions say

The hash function is arbitrary. Where a theorem says that something is so unless hashes clash, the two byte strings that
clash are those hashed for the two ids in question, and they are different (`Clash`).
-/

set_option maxRecDepth 100000

namespace Verif.Ids
open Verif.Codec Verif.Sighash

/-! ### Specification -/

/-- the outputs spent by a list of inputs -/
def spent : List TxInput → List UtxoOutPoint
  | [] => []
  | .utxo o :: is => o :: spent is
  | _ :: is => spent is

/-- what is created -/
inductive Kind
  | pool
  | delegation
  | order
  | token
deriving DecidableEq, Repr

/-- the id made for a transaction with the given inputs; tokens by the rules in force today -/
def make (k : Crypto) (H : Bytes → Bytes) : Kind → List TxInput → Except Err Bytes
  | .pool => makePoolId k H
  | .delegation => makeDelegationId k H
  | .order => makeOrderId k H
  | .token => makeTokenId k H .v1

/-- what is missing if there is no output to make an id from -/
def missing : Kind → Err
  | .pool => .noUtxoForPool
  | .delegation => .noUtxoForDelegation
  | .order => .noUtxoForOrder
  | .token => .noUtxoForToken

/-- a reference to an output as bytes: whether it comes from a transaction or a block reward, whose id follows, and the
number of the output as 32 bits -/
def outpointBytes (o : UtxoOutPoint) : Bytes :=
  (match o.id with
    | .transaction h => (0 : UInt8) :: h
    | .blockReward h => 1 :: h) ++ leBytes 4 o.index

/-- the bytes whose hash is the id -/
def hashed : Kind → UtxoOutPoint → Bytes
  | .pool, o => outpointBytes o ++ [0, 0, 0, 0]
  | .delegation, o => outpointBytes o ++ [1, 0, 0, 0]
  | .order, o => outpointBytes o
  | .token, o => 0 :: outpointBytes o

/-- the two byte strings are different but have the same hash -/
def Clash (H : Bytes → Bytes) (x y : Bytes) : Prop := x ≠ y ∧ H x = H y

/-! ### Lemmas -/

theorem enc_outpoint (k : Crypto) (o : UtxoOutPoint) : (UtxoOutPoint.codec k).enc o = outpointBytes o := by
  obtain ⟨i, n⟩ := o
  cases i <;> rfl

theorem enc_utxo (k : Crypto) (o : UtxoOutPoint) : (TxInput.codec k).enc (.utxo o) = 0 :: (UtxoOutPoint.codec k).enc o := rfl

theorem findSome_spent (is : List TxInput) : is.findSome? utxoOutpoint = (spent is).head? := by
  induction is with
  | nil => rfl
  | cons i is ih => cases i <;> simp [spent, utxoOutpoint, List.findSome?_cons, ih]

theorem find_spent (is : List TxInput) : is.find? (fun i => (utxoOutpoint i).isSome) = (spent is).head?.map .utxo := by
  induction is with
  | nil => rfl
  | cons i is ih =>
    rw [List.find?_cons]
    cases i
    · rfl
    · exact ih
    · exact ih
    · exact ih

theorem make_eq (k : Crypto) (H : Bytes → Bytes) (c : Kind) (is : List TxInput) :
    make k H c is = match (spent is).head? with
      | some o => .ok (H (hashed c o))
      | none => .error (missing c) := by
  cases c
  · simp only [make, makePoolId, findSome_spent]; cases (spent is).head? <;> simp [poolIdFromUtxo, delegationIdFromUtxo, tokenIdFromInput, enc_utxo, enc_outpoint, hashed, missing, uint] <;> rfl
  · simp only [make, makeDelegationId, findSome_spent]; cases (spent is).head? <;> simp [poolIdFromUtxo, delegationIdFromUtxo, tokenIdFromInput, enc_utxo, enc_outpoint, hashed, missing, uint] <;> rfl
  · simp only [make, makeOrderId, findSome_spent]
    cases (spent is).head? <;> simp [orderIdFromUtxo, enc_outpoint, hashed, missing]
  · simp only [make, makeTokenId, find_spent]; cases (spent is).head? <;> simp [poolIdFromUtxo, delegationIdFromUtxo, tokenIdFromInput, enc_utxo, enc_outpoint, hashed, missing, uint] <;> rfl

theorem mem_spent {is : List TxInput} {o : UtxoOutPoint} : o ∈ spent is ↔ TxInput.utxo o ∈ is := by
  induction is with
  | nil => simp [spent]
  | cons i is ih => cases i <;> simp [spent, ih]

theorem spent_ok {k : Crypto} {is : List TxInput} (h : ∀ i ∈ is, i.Fits k) {o : UtxoOutPoint}
    (ho : (spent is).head? = some o) : (UtxoOutPoint.codec k).ok o := by
  have hm : o ∈ spent is := List.mem_of_mem_head? ho
  exact (UtxoOutPoint.ok_iff k o).2 (h _ (mem_spent.1 hm))

theorem enc_source_length {k : Crypto} {s : OutPointSourceId} (h : (OutPointSourceId.codec k).ok s) :
    ((OutPointSourceId.codec k).enc s).length = 33 := by
  have h := (OutPointSourceId.ok_iff k s).1 h
  cases s with
  | transaction a =>
    have e : (OutPointSourceId.codec k).enc (.transaction a) = 0 :: a := rfl
    have h' : a.length = 32 := h
    rw [e]; simp [h']
  | blockReward a =>
    have e : (OutPointSourceId.codec k).enc (.blockReward a) = 1 :: a := rfl
    have h' : a.length = 32 := h
    rw [e]; simp [h']

theorem enc_outpoint_length {k : Crypto} {o : UtxoOutPoint} (h : (UtxoOutPoint.codec k).ok o) :
    ((UtxoOutPoint.codec k).enc o).length = 37 := by
  have e : (UtxoOutPoint.codec k).enc o = (OutPointSourceId.codec k).enc o.id ++ leBytes 4 o.index := rfl
  rw [e, List.length_append, enc_source_length h.1, leBytes_length]

theorem hashed_inj {k : Crypto} {c c' : Kind} {o o' : UtxoOutPoint} (h : (UtxoOutPoint.codec k).ok o)
    (h' : (UtxoOutPoint.codec k).ok o') (e : hashed c o = hashed c' o') : c = c' ∧ o = o' := by
  have hl := congrArg List.length e
  have h1 := enc_outpoint_length h
  have h2 := enc_outpoint_length h'
  have hinj := fun {r s : Bytes} => (enc_inj (r := r) (s := s) (UtxoOutPoint.lawful k) h h').1
  rw [enc_outpoint] at h1 h2
  simp only [enc_outpoint] at hinj
  cases c <;> cases c' <;> simp only [hashed, List.length_append, List.length_cons, List.length_nil, h1, h2] at hl e
  all_goals first | omega | skip
  · exact ⟨rfl, (hinj e).1⟩
  · exact absurd (hinj e).2 (by decide)
  · exact absurd (hinj e).2 (by decide)
  · exact ⟨rfl, (hinj e).1⟩
  · refine ⟨rfl, (hinj (r := []) (s := []) ?_).1⟩
    simpa using e
  · refine ⟨rfl, (hinj (r := []) (s := []) ?_).1⟩
    simpa using e

theorem make_ok {k : Crypto} {H : Bytes → Bytes} {c : Kind} {is : List TxInput} {i : Bytes}
    (h : make k H c is = .ok i) : ∃ o, (spent is).head? = some o ∧ i = H (hashed c o) := by
  rw [make_eq] at h
  cases hs : (spent is).head? with
  | none => rw [hs] at h; cases h
  | some o => rw [hs] at h; cases h; exact ⟨o, rfl, rfl⟩

/-! ### The theorems -/

/-- **C50.** An id can be made exactly if the transaction spends an output, and it is the hash of the bytes of the first
one, marked by what is created. Other inputs and the rest of the transaction play no role. -/
theorem C50_id_made (k : Crypto) (H : Bytes → Bytes) (c : Kind) (is : List TxInput) :
    make k H c is = match (spent is).head? with
      | some o => .ok (H (hashed c o))
      | none => .error (missing c) := make_eq k H c is

/-- **C50.** Two ids are the same only if they are of the same kind and the transactions spend the same output first –
which no two transactions of a chain do (C51) – or the bytes hashed for them clash. -/
theorem C50_ids_apart (k : Crypto) (H : Bytes → Bytes) (c c' : Kind) (a b : List TxInput) (ha : ∀ i ∈ a, i.Fits k)
    (hb : ∀ i ∈ b, i.Fits k) (i : Bytes) (h1 : make k H c a = .ok i) (h2 : make k H c' b = .ok i) :
    (c = c' ∧ (spent a).head? = (spent b).head?) ∨
    ∃ o o', (spent a).head? = some o ∧ (spent b).head? = some o' ∧ Clash H (hashed c o) (hashed c' o') := by
  obtain ⟨o, e1, e2⟩ := make_ok h1
  obtain ⟨o', e3, e4⟩ := make_ok h2
  by_cases e : hashed c o = hashed c' o'
  · obtain ⟨r1, r2⟩ := hashed_inj (spent_ok ha e1) (spent_ok hb e3) e
    exact .inl ⟨r1, by rw [e1, e3, r2]⟩
  · exact .inr ⟨o, o', e1, e3, e, by rw [← e2, ← e4]⟩

/-- **C50.** By the first rules for tokens, the id is the hash of the first input, of whatever kind; two token ids are the
same only if the first inputs are the same or clash. -/
theorem C50_token_v0 (k : Crypto) (H : Bytes → Bytes) (a b : List TxInput) (ha : ∀ i ∈ a, i.Fits k)
    (hb : ∀ i ∈ b, i.Fits k) :
    (a = [] → makeTokenId k H .v0 a = .error .noInputsForToken) ∧
    ∀ i, makeTokenId k H .v0 a = .ok i → makeTokenId k H .v0 b = .ok i →
      a.head? = b.head? ∨ ∃ x y, a.head? = some x ∧ b.head? = some y ∧
        Clash H ((TxInput.codec k).enc x) ((TxInput.codec k).enc y) := by
  refine ⟨by rintro rfl; rfl, fun i h1 h2 => ?_⟩
  match a, b, h1, h2 with
  | x :: a, y :: b, h1, h2 =>
    by_cases e : (TxInput.codec k).enc x = (TxInput.codec k).enc y
    · refine .inl ?_
      have := (enc_inj (r := []) (s := []) (TxInput.lawful k) ((TxInput.ok_iff k x).2 (ha x (by simp)))
        ((TxInput.ok_iff k y).2 (hb y (by simp)))).1 (by rw [e])
      simp [this.1]
    · refine .inr ⟨x, y, rfl, rfl, e, ?_⟩
      have h1 : Except.ok (H ((TxInput.codec k).enc x)) = (Except.ok i : Except Err Bytes) := h1
      have h2 : Except.ok (H ((TxInput.codec k).enc y)) = (Except.ok i : Except Err Bytes) := h2
      rw [Except.ok.inj h1, Except.ok.inj h2]
  | [], _, h1, _ => cases h1
  | _ :: _, [], _, h2 => cases h2

/-- **C50.** If the first input spends an output, both rules for tokens give the same id. -/
theorem C50_token_versions_agree (k : Crypto) (H : Bytes → Bytes) (o : UtxoOutPoint) (is : List TxInput) :
    makeTokenId k H .v0 (.utxo o :: is) = makeTokenId k H .v1 (.utxo o :: is) := rfl

/-- **C50.** Transactions with the same id are the same, or their bytes clash. The signatures are not part of the id. -/
theorem C50_transaction_id (k : Crypto) (H : Bytes → Bytes) (t u : TransactionV1) (ht : t.Fits k) (hu : u.Fits k)
    (h : transactionId k H t = transactionId k H u) :
    t = u ∨ Clash H ((TransactionV1.codec k).enc t) ((TransactionV1.codec k).enc u) := by
  by_cases e : (TransactionV1.codec k).enc t = (TransactionV1.codec k).enc u
  · exact .inl ((enc_inj (r := []) (s := []) (TransactionV1.lawful k) ((TransactionV1.ok_iff k t).2 ht)
      ((TransactionV1.ok_iff k u).2 hu)).1 (by rw [e])).1
  · exact .inr ⟨e, h⟩

/-! ### Concrete cases and findings -/

section Example

def exCrypto : Crypto := ⟨fun _ => true, fun _ => true, fun _ => true, fun _ => true, fun _ => true⟩
def hash0 : Bytes := List.replicate 32 7
def exOut : UtxoOutPoint := ⟨.transaction hash0, 3⟩
def exIns : List TxInput :=
  [.account ⟨5, .delegationBalance hash0 100⟩, .utxo exOut, .utxo ⟨.blockReward hash0, 0⟩]

-- the hypotheses of the theorems hold, and all four ids can be made
example : ∀ i ∈ exIns, i.Fits exCrypto := by
  simp [exIns, TxInput.Fits, UtxoOutPoint.Fits, OutPointSourceId.Fits, AccountOutPoint.Fits, AccountSpending.Fits, exOut, hash0]
example : (spent exIns).head? = some exOut ∧
    (make exCrypto (fun x => x.reverse) .pool exIns).toOption = some (outpointBytes exOut ++ [0, 0, 0, 0]).reverse ∧
    (make exCrypto (fun x => x.reverse) .token exIns).toOption = some (0 :: outpointBytes exOut).reverse := by decide +kernel

/-- an id of a delegation -/
def idD : Bytes := List.replicate 32 9
def viaAccount : List TxInput := [.account ⟨5, .delegationBalance idD 100⟩]
def viaReward : List TxInput := [.utxo ⟨.blockReward ([20, 0] ++ List.replicate 30 9), 0x01910909⟩]

/-- **C50 (finding).** The claim that the ids of different kinds are distinct unless hashes clash does not hold for the first
rules for tokens: if the first input takes from a delegation, the very same bytes can be hashed for a token and for an
order. -/
theorem C50_token_v0_finding : ∃ a b : List TxInput, (∀ i ∈ a, i.Fits exCrypto) ∧ (∀ i ∈ b, i.Fits exCrypto) ∧
    ∀ H, makeTokenId exCrypto H .v0 a = makeOrderId exCrypto H b ∧ (makeOrderId exCrypto H b).isOk = true := by
  refine ⟨viaAccount, viaReward, ?_, ?_, fun H => ⟨?_, rfl⟩⟩
  · simp [viaAccount, TxInput.Fits, AccountOutPoint.Fits, AccountSpending.Fits, idD]
  · simp [viaReward, TxInput.Fits, UtxoOutPoint.Fits, OutPointSourceId.Fits]
  · have e : (TxInput.codec exCrypto).enc (.account ⟨5, .delegationBalance idD 100⟩) =
        (UtxoOutPoint.codec exCrypto).enc ⟨.blockReward ([20, 0] ++ List.replicate 30 9), 0x01910909⟩ := by decide +kernel
    change Except.ok (H _) = Except.ok (H _)
    rw [e]

/-- **C50.** With any other first input it holds for them too. -/
theorem C50_token_v0_apart (k : Crypto) (H : Bytes → Bytes) (c : Kind) (hc : c ≠ .token) (x : TxInput) (a b : List TxInput)
    (hx : x.Fits k) (hb : ∀ i ∈ b, i.Fits k) (hacc : ∀ o, x ≠ .account o) (i : Bytes)
    (h1 : makeTokenId k H .v0 (x :: a) = .ok i) (h2 : make k H c b = .ok i) :
    ∃ o, (spent b).head? = some o ∧ Clash H ((TxInput.codec k).enc x) (hashed c o) := by
  obtain ⟨o, e1, e2⟩ := make_ok h2
  have h1 : Except.ok (H ((TxInput.codec k).enc x)) = (Except.ok i : Except Err Bytes) := h1
  refine ⟨o, e1, ?_, by rw [Except.ok.inj h1, e2]⟩
  intro e
  have hok := spent_ok hb e1
  cases x with
  | account o => exact hacc o rfl
  | utxo o' =>
    rw [enc_utxo, enc_outpoint] at e
    exact hc (hashed_inj (c := .token) ((UtxoOutPoint.ok_iff k o').2 hx) hok e).1.symm
  | accountCommand n cmd =>
    have e3 : (TxInput.codec k).enc (.accountCommand n cmd) = 2 :: (pair (compact 8) (AccountCommand.codec k)).enc (n, cmd) := rfl
    rw [e3] at e
    obtain ⟨s, n⟩ := o
    cases c <;> cases s <;> simp [hashed, outpointBytes] at e hc
  | orderAccountCommand cmd =>
    have e3 : (TxInput.codec k).enc (.orderAccountCommand cmd) = 3 :: (OrderAccountCommand.codec k).enc cmd := rfl
    rw [e3] at e
    obtain ⟨s, n⟩ := o
    cases c <;> cases s <;> simp [hashed, outpointBytes] at e hc

end Example

end Verif.Ids
