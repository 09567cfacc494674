import Verif.Size.PayAll

/-!
# Sweeping addresses

All inputs are moved to one destination: an output for each token, and an output for the coins, which pays the fee. The size
is estimated with the coins less the fee for the inputs alone; the whole fee is taken off afterwards.
-/

set_option maxRecDepth 100000

namespace Verif.Size
open Verif Verif.Codec

/-- `total_input_sizes` of `group_preselected_inputs` – wallet/src/account/mod.rs 2770-2781 -/
def totalInputSizes (k : Crypto) (info : Destination → Option (Nat × Nat)) :
    List (TxInput × Destination × Option HtlcTag) → Except Err Nat
  | [] => .ok 0
  | (i, d, tag) :: l => do
    let s ← signatureSize k info d tag
    let r ← totalInputSizes k info l
    pure (((TxInput.codec k).enc i).length + s + r)

/-- `sweep_addresses` – wallet/src/account/mod.rs 575-639. `value` is the sum of coins in the inputs, `tokens` the outputs
made for the tokens (600-611). The transaction and its fee; the grouping of amounts (C66) is left out. -/
def sweep (k : Crypto) (info : Destination → Option (Nat × Nat)) (rate : Nat)
    (inputs : List (TxInput × Destination × Option HtlcTag)) (tokens : List TxOutput) (target : Destination) (value : Nat) :
    Except PayErr (TransactionV1 × Nat) :=
  match totalInputSizes k info inputs with
  | .error e => .error (.size e)
  | .ok inSizes =>
    match FeeRate.computeFee rate inSizes with
    | .error _ => .error .fee
    | .ok inFees =>
      if inFees ≤ value then
        let outs := tokens ++ [TxOutput.transfer (.coin (value - inFees)) target]
        match txSize k outs.length inputs.length with
        | .error e => .error (.size e)
        | .ok base =>
          match FeeRate.computeFee rate (base + outputsSize k outs + inSizes) with
          | .error _ => .error .fee
          | .ok fee =>
            if fee ≤ value then
              .ok (⟨0, inputs.map (·.1), tokens ++ [TxOutput.transfer (.coin (value - fee)) target]⟩, fee)
            else .error .insufficient
      else .error .insufficient

theorem totalInputSizes_eq {k : Crypto} {info : Destination → Option (Nat × Nat)}
    (inputs : List (TxInput × Destination × Option HtlcTag)) (ws : List InputWitness)
    (h : AllSign info (inputs.map (·.2)) ws) :
    totalInputSizes k info inputs = .ok (inputsSize k (inputs.map (·.1)) + (ws.map (witnessSize k)).sum) ∧
      ws.length = inputs.length := by
  induction inputs generalizing ws with
  | nil =>
    cases h
    exact ⟨rfl, rfl⟩
  | cons x l ih =>
    obtain ⟨i, d, tag⟩ := x
    cases h with
    | @cons _ _ w _ ws' hs hl =>
      obtain ⟨e1, e2⟩ := ih ws' hl
      refine ⟨?_, by simp [e2]⟩
      have e3 : signatureSize k info d tag = .ok (witnessSize k w) := C90_signature hs
      simp only [totalInputSizes, e3, e1, bind, Except.bind, pure, Except.pure, inputsSize, List.map_cons, List.sum_cons]
      congr 1
      omega

theorem transfer_size (k : Crypto) (tokens : List TxOutput) (target : Destination) (a : Nat) :
    outputsSize k (tokens ++ [TxOutput.transfer (.coin a) target]) = outputsSize k tokens + (2 + (compactEnc a).length +
      ((Destination.codec k).enc target).length) := by
  have : ((TxOutput.codec k).enc (.transfer (.coin a) target)).length = 2 + (compactEnc a).length +
      ((Destination.codec k).enc target).length := by
    show (0 :: ((0 :: compactEnc a) ++ (Destination.codec k).enc target)).length = _
    simp only [List.length_cons, List.length_append]
    omega
  simp [outputsSize, this]

/-- **C90**: a sweep moves all coins but the fee, next to the outputs of the tokens, and the fee is at least the fee for
the number of bytes of the transaction when signed, at the rate asked for. -/
theorem C90_sweep {k : Crypto} {info : Destination → Option (Nat × Nat)} {rate : Nat}
    {inputs : List (TxInput × Destination × Option HtlcTag)} {tokens : List TxOutput} {target : Destination} {value fee : Nat}
    {tx : TransactionV1} {ws : List InputWitness}
    (h : sweep k info rate inputs tokens target value = .ok (tx, fee)) (hw : AllSign info (inputs.map (·.2)) ws) :
    (∃ amount, tx = ⟨0, inputs.map (·.1), tokens ++ [.transfer (.coin amount) target]⟩ ∧ amount + fee = value) ∧
    ∃ needed, FeeRate.computeFee rate ((SignedTransaction.codec k).enc ⟨tx, ws⟩).length = .ok needed ∧ needed ≤ fee := by
  obtain ⟨hin, hlen⟩ := totalInputSizes_eq (k := k) inputs ws hw
  unfold sweep at h
  rw [hin] at h
  simp only at h
  split at h
  · exact absurd h (by simp)
  rename_i f0 hf0
  split at h
  · rename_i hle0
    split at h
    · exact absurd h (by simp)
    rename_i base hbase
    split at h
    · exact absurd h (by simp)
    rename_i f hf
    split at h
    · rename_i hle
      simp only [Except.ok.injEq, Prod.mk.injEq] at h
      obtain ⟨rfl, rfl⟩ := h
      refine ⟨⟨value - f, rfl, by omega⟩, ?_⟩
      obtain ⟨a1, a2⟩ := (FeeRate.computeFee_ok _ _ _).1 hf0
      obtain ⟨b1, b2⟩ := (FeeRate.computeFee_ok _ _ _).1 hf
      have hff : f0 ≤ f := by
        rw [a2, b2]
        refine Nat.div_le_div_right ?_
        have := Nat.mul_le_mul_left rate (Nat.le_add_left
          (inputsSize k (inputs.map (·.1)) + (ws.map (witnessSize k)).sum)
          (base + outputsSize k (tokens ++ [TxOutput.transfer (.coin (value - f0)) target])))
        omega
      have hsz := C90_transaction (k := k)
        (t := ⟨⟨0, inputs.map (·.1), tokens ++ [TxOutput.transfer (.coin (value - f)) target]⟩, ws⟩) (n := base)
        (show (0 : Nat) < 64 by omega) (by simpa using hlen) (by simpa using hbase)
      rw [hsz]
      simp only [transfer_size] at b1 b2 ⊢
      have hm := compactEnc_mono (show value - f ≤ value - f0 by omega)
      have hs : base + inputsSize k (inputs.map (·.1)) + (outputsSize k tokens + (2 + (compactEnc (value - f)).length +
          ((Destination.codec k).enc target).length)) + (ws.map fun w => ((InputWitness.codec k).enc w).length).sum ≤
          base + (outputsSize k tokens + (2 + (compactEnc (value - f0)).length +
          ((Destination.codec k).enc target).length)) + (inputsSize k (inputs.map (·.1)) +
            (ws.map (witnessSize k)).sum) := by
        show _ + (ws.map (witnessSize k)).sum ≤ _
        omega
      have := Nat.mul_le_mul_left rate hs
      refine ⟨_, (FeeRate.computeFee_ok _ _ _).2 ⟨lt_of_le_of_lt (Nat.add_le_add_right this 999) b1, rfl⟩, ?_⟩
      exact le_trans (Nat.div_le_div_right (Nat.add_le_add_right this 999)) (le_of_eq b2.symm)
    · exact absurd h (by simp)
  · exact absurd h (by simp)

/-- Two inputs of a key with 10000 atoms, at a rate of 1000 atoms for 1000 bytes: 5 bytes for the transaction, 107 for each
input with its signature, and 25 for the output. -/
theorem example_sweep (k : Crypto) :
    sweep k exInfo 1000 (List.replicate 2 (.utxo ⟨.transaction (List.replicate 32 3), 1⟩, .publicKey (List.replicate 33 2), none))
        [] (.publicKeyHash (List.replicate 20 4)) 10000 =
      .ok (⟨0, List.replicate 2 (.utxo ⟨.transaction (List.replicate 32 3), 1⟩),
        [.transfer (.coin 9756) (.publicKeyHash (List.replicate 20 4))]⟩, 244) := by
  have hs : AllSign exInfo ((List.replicate 2 (TxInput.utxo ⟨.transaction (List.replicate 32 3), 1⟩,
      Destination.publicKey (List.replicate 33 2), (none : Option HtlcTag))).map (·.2))
      (List.replicate 2 (.standard ⟨1, 0 :: List.replicate 64 5⟩)) :=
    .cons (.plain (.key (by simp [IsSig]))) (.cons (.plain (.key (by simp [IsSig]))) .nil)
  have h1 : totalInputSizes k exInfo (List.replicate 2 (.utxo ⟨.transaction (List.replicate 32 3), 1⟩,
      .publicKey (List.replicate 33 2), none)) = .ok 214 := by
    rw [(totalInputSizes_eq (k := k) _ _ hs).1]
    rfl
  have h2 : outputsSize k ([] ++ [TxOutput.transfer (.coin (10000 - 214)) (.publicKeyHash (List.replicate 20 4))]) = 25 := by
    rw [transfer_size]
    rfl
  have h3 : txSize k 1 2 = .ok 5 := rfl
  have h4 : FeeRate.computeFee 1000 214 = .ok 214 := by decide +kernel
  have h5 : FeeRate.computeFee 1000 (5 + 25 + 214) = .ok 244 := by decide +kernel
  unfold sweep
  simp only [h1, h4]
  rw [if_pos (by omega)]
  simp only [h2, List.nil_append, List.length_cons, List.length_nil, List.length_replicate, Nat.zero_add, h3] at *
  rw [h5]
  rfl

end Verif.Size
