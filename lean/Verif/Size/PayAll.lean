import Verif.Size.Props
import Verif.FeeRate.Lemmas

/-!
# Transactions that pay their fee out of the only output

Decommissioning a pool and emptying a delegation: the size is estimated with the whole amount in the output, and the fee is
taken off that amount afterwards, which may make the output shorter.
-/

set_option maxRecDepth 100000

namespace Verif.Size
open Verif Verif.Codec

/-- Why no transaction is made. -/
inductive PayErr
  | size (e : Err)
  | fee
  | insufficient
deriving DecidableEq

/-- `make_decommission_stake_pool_output` and `make_address_output_from_delegation` – wallet/src/send_request/mod.rs
105-119, 121-135 -/
def lockedOutput (target : Destination) (lock amount : Nat) : TxOutput :=
  .lockThenTransfer (.coin amount) target (.forBlockCount lock)

/-- `decommission_stake_pool_impl` – wallet/src/account/mod.rs 732-785 (the input is the output of the pool, `key` the
decommission key, `value` the balance of the pool) and `sweep_delegation` – 641-700 (the input is the withdrawal from the
delegation, `key` its owner, `value` the share of the wallet). The transaction and the fee; looking up the pool or the
delegation is left out, and so are the request's other fields. -/
def payAll (k : Crypto) (info : Destination → Option (Nat × Nat)) (rate : Nat) (input : TxInput) (key : Destination)
    (target : Destination) (lock value : Nat) : Except PayErr (TransactionV1 × Nat) :=
  match estimate k info [input] [lockedOutput target lock value] [(key, none)] with
  | .error e => .error (.size e)
  | .ok size =>
    match FeeRate.computeFee rate size with
    | .error _ => .error .fee
    | .ok fee =>
      if fee ≤ value then .ok (⟨0, [input], [lockedOutput target lock (value - fee)]⟩, fee)
      else .error .insufficient

theorem compactEnc_mono {a b : Nat} (h : a ≤ b) : (compactEnc a).length ≤ (compactEnc b).length := by
  have hb : ∀ n, 2 ^ 30 ≤ n → 3 ≤ Nat.log2 n / 8 := by
    intro n hn
    have : 30 ≤ Nat.log2 n := (Nat.le_log2 (by omega)).2 hn
    omega
  unfold compactEnc
  split
  · split
    · simp [leBytes_length]
    split
    · simp [leBytes_length]
    split <;> simp [leBytes_length]
  split
  · rw [if_neg (show ¬ b < 2 ^ 6 by omega)]
    split
    · simp [leBytes_length]
    split
    · simp [leBytes_length]
    · have := hb b (by omega)
      simp only [List.length_cons, leBytes_length, byteLen]
      omega
  split
  · rw [if_neg (show ¬ b < 2 ^ 6 by omega), if_neg (show ¬ b < 2 ^ 14 by omega)]
    split
    · simp [leBytes_length]
    · have := hb b (by omega)
      simp only [List.length_cons, leBytes_length, byteLen]
      omega
  · rw [if_neg (show ¬ b < 2 ^ 6 by omega), if_neg (show ¬ b < 2 ^ 14 by omega), if_neg (show ¬ b < 2 ^ 30 by omega)]
    have hl : Nat.log2 a ≤ Nat.log2 b :=
      (Nat.le_log2 (by omega)).2 (le_trans (Nat.log2_self_le (by omega)) h)
    simp only [List.length_cons, leBytes_length, byteLen]
    have := Nat.div_le_div_right (c := 8) hl
    omega

theorem lockedOutput_size (k : Crypto) (target : Destination) (lock a : Nat) :
    outputsSize k [lockedOutput target lock a] = 2 + (compactEnc a).length +
      (((Destination.codec k).enc target).length + ((OutputTimeLock.codec k).enc (.forBlockCount lock)).length) := by
  show (1 :: ((0 :: compactEnc a) ++ ((Destination.codec k).enc target ++
    (OutputTimeLock.codec k).enc (.forBlockCount lock)))).length + 0 = _
  simp only [List.length_cons, List.length_append]
  omega

/-- **C90**: a transaction which pays its fee out of its only output hands over everything it takes in, and the fee is at
least the fee for its number of bytes when signed at the rate asked for. It is larger only by what the amount of the output
got shorter. -/
theorem C90_pay_all {k : Crypto} {info : Destination → Option (Nat × Nat)} {rate : Nat} {input : TxInput}
    {key target : Destination} {lock value fee : Nat} {tx : TransactionV1} {w : InputWitness}
    (h : payAll k info rate input key target lock value = .ok (tx, fee)) (hw : Signs info key none w) :
    (∃ amount, tx = ⟨0, [input], [.lockThenTransfer (.coin amount) target (.forBlockCount lock)]⟩ ∧
      amount + fee = value ∧
      FeeRate.computeFee rate (((SignedTransaction.codec k).enc ⟨tx, [w]⟩).length +
        ((compactEnc value).length - (compactEnc amount).length)) = .ok fee) ∧
    ∃ needed, FeeRate.computeFee rate ((SignedTransaction.codec k).enc ⟨tx, [w]⟩).length = .ok needed ∧ needed ≤ fee := by
  unfold payAll at h
  have key1 := fun a => C90_estimate (k := k) (info := info)
    (t := ⟨⟨0, [input], [lockedOutput target lock a]⟩, [w]⟩) (ds := [(key, none)])
    (show (0 : Nat) < 64 by omega) rfl (.cons hw .nil) (show (1 : Nat) < 2 ^ 32 by omega) (show (1 : Nat) < 2 ^ 32 by omega)
  have hv := key1 value
  simp only at hv
  rw [hv] at h
  simp only at h
  split at h
  · exact absurd h (by simp)
  rename_i f hf
  split at h
  · rename_i hle
    simp only [Except.ok.injEq, Prod.mk.injEq] at h
    obtain ⟨rfl, rfl⟩ := h
    have hsz : ((SignedTransaction.codec k).enc ⟨⟨0, [input], [lockedOutput target lock value]⟩, [w]⟩).length =
        ((SignedTransaction.codec k).enc ⟨⟨0, [input], [lockedOutput target lock (value - f)]⟩, [w]⟩).length +
          ((compactEnc value).length - (compactEnc (value - f)).length) := by
      have e1 := txBytes_eq k ⟨⟨0, [input], [lockedOutput target lock value]⟩, [w]⟩ (show (0 : Nat) < 64 by omega)
      have e2 := txBytes_eq k ⟨⟨0, [input], [lockedOutput target lock (value - f)]⟩, [w]⟩ (show (0 : Nat) < 64 by omega)
      unfold txBytes at e1 e2
      rw [e1, e2]
      simp only [lockedOutput_size, List.length_cons, List.length_nil]
      have := compactEnc_mono (show value - f ≤ value by omega)
      omega
    rw [hsz] at hf
    refine ⟨⟨value - f, rfl, by omega, hf⟩, ?_⟩
    obtain ⟨h1, h2⟩ := (FeeRate.computeFee_ok _ _ _).1 hf
    generalize ((SignedTransaction.codec k).enc ⟨⟨0, [input], [lockedOutput target lock (value - f)]⟩, [w]⟩).length = n at *
    generalize ((compactEnc value).length - (compactEnc (value - f)).length) = m at *
    have hm : rate * n ≤ rate * (n + m) := Nat.mul_le_mul_left _ (by omega)
    refine ⟨(rate * n + 999) / 1000, (FeeRate.computeFee_ok _ _ _).2 ⟨by omega, rfl⟩, ?_⟩
    rw [h2]
    exact Nat.div_le_div_right (by omega)
  · exact absurd h (by simp)

/-- A pool with 2^30 atoms, at a rate of 1000 atoms for 1000 bytes: the size is estimated as 143 bytes with the amount in
five bytes, and the amount left takes four; 143 atoms are paid for 142 bytes. -/
theorem example_pay_all (k : Crypto) :
    payAll k exInfo 1000 (.utxo ⟨.transaction (List.replicate 32 3), 1⟩) (.publicKey (List.replicate 33 2))
        (.publicKeyHash (List.replicate 20 4)) 7200 (2 ^ 30) =
      .ok (⟨0, [.utxo ⟨.transaction (List.replicate 32 3), 1⟩],
        [lockedOutput (.publicKeyHash (List.replicate 20 4)) 7200 (2 ^ 30 - 143)]⟩, 143) := by
  unfold payAll
  have hv := C90_estimate (k := k) (info := exInfo)
    (t := ⟨⟨0, [.utxo ⟨.transaction (List.replicate 32 3), 1⟩],
      [lockedOutput (.publicKeyHash (List.replicate 20 4)) 7200 (2 ^ 30)]⟩, [.standard ⟨1, 0 :: List.replicate 64 5⟩]⟩)
    (ds := [(.publicKey (List.replicate 33 2), none)])
    (show (0 : Nat) < 64 by omega) rfl (.cons (.plain (.key (by simp [IsSig]))) .nil) (by simp) (by simp)
  simp only at hv
  have hl : ((SignedTransaction.codec k).enc ⟨⟨0, [.utxo ⟨.transaction (List.replicate 32 3), 1⟩],
      [lockedOutput (.publicKeyHash (List.replicate 20 4)) 7200 (2 ^ 30)]⟩,
      [.standard ⟨1, 0 :: List.replicate 64 5⟩]⟩).length = 143 := by
    have e := txBytes_eq k ⟨⟨0, [.utxo ⟨.transaction (List.replicate 32 3), 1⟩],
      [lockedOutput (.publicKeyHash (List.replicate 20 4)) 7200 (2 ^ 30)]⟩,
      [.standard ⟨1, 0 :: List.replicate 64 5⟩]⟩ (show (0 : Nat) < 64 by omega)
    unfold txBytes at e
    rw [e]
    simp only [lockedOutput_size, compactEnc_length (2 ^ 30) (by omega)]
    rfl
  rw [hv, hl]
  rfl

end Verif.Size
