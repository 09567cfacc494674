import Verif.Policy.PolicySpec
import Verif.Policy.CheckTxProps
import Verif.Accumulator.Props

/-!
# C54: the input/output policy
-/

set_option maxRecDepth 100000

namespace Verif.Policy
open Verif
open Verif.Codec

/-! ### The pieces -/

theorem okOr_eq_error {E A : Type} {x : Option A} {e e' : E} : okOr x e = .error e' ↔ x = none ∧ e = e' := by
  cases x <;> simp [okOr]

theorem collect_ok {utxo : UtxoOutPoint → Option TxOutput} : ∀ {is : List TxInput} {us : List TxOutput}, collectUtxos utxo is = .ok us →
    (∀ o, TxInput.utxo o ∈ is → ∃ u ∈ us, utxo o = some u) ∧ (∀ u ∈ us, ∃ o, TxInput.utxo o ∈ is ∧ utxo o = some u) ∧
    is.mapM (spentBy utxo) = .ok (is.map (spends utxo))
  | [], us, h => by
    simp only [collectUtxos, Except.ok.injEq] at h; subst h; simp [pure, Except.pure]
  | .utxo o :: is, us, h => by
    simp only [collectUtxos, bind_eq_ok, okOr_eq_ok, pure_eq_ok] at h
    obtain ⟨u, hu, us', hus, rfl⟩ := h
    obtain ⟨h1, h2, h3⟩ := collect_ok hus
    refine ⟨?_, ?_, ?_⟩
    · intro o' ho'
      rcases List.mem_cons.1 ho' with he | he
      · cases he; exact ⟨u, by simp, hu⟩
      · obtain ⟨u', hu', he'⟩ := h1 o' he; exact ⟨u', by simp [hu'], he'⟩
    · intro u' hu'
      rcases List.mem_cons.1 hu' with he | he
      · subst he; exact ⟨o, by simp, hu⟩
      · obtain ⟨o', ho', he'⟩ := h2 u' he; exact ⟨o', by simp [ho'], he'⟩
    · simp [List.mapM_cons, spentBy, hu, okOr, Except.map, h3, spends, bind, Except.bind, pure, Except.pure]
  | .account a :: is, us, h => by
    obtain ⟨h1, h2, h3⟩ := collect_ok (is := is) h
    exact ⟨by simpa using h1, by simpa using h2, by simp [List.mapM_cons, spentBy, h3, spends, bind, Except.bind, pure, Except.pure]⟩
  | .accountCommand n a :: is, us, h => by
    obtain ⟨h1, h2, h3⟩ := collect_ok (is := is) h
    exact ⟨by simpa using h1, by simpa using h2, by simp [List.mapM_cons, spentBy, h3, spends, bind, Except.bind, pure, Except.pure]⟩
  | .orderAccountCommand a :: is, us, h => by
    obtain ⟨h1, h2, h3⟩ := collect_ok (is := is) h
    exact ⟨by simpa using h1, by simpa using h2, by simp [List.mapM_cons, spentBy, h3, spends, bind, Except.bind, pure, Except.pure]⟩

theorem collect_error {utxo : UtxoOutPoint → Option TxOutput} {e : PolicyErr} : ∀ {is : List TxInput}, collectUtxos utxo is = .error e →
    e = .missingOutputOrSpent ∧ ∃ o, TxInput.utxo o ∈ is ∧ utxo o = none
  | [], h => by cases h
  | .utxo o :: is, h => by
    simp only [collectUtxos, bind_eq_error, okOr_eq_error, pure, Except.pure, reduceCtorEq, and_false, exists_false, or_false] at h
    rcases h with ⟨h, he⟩ | ⟨u, hu, h⟩
    · exact ⟨he.symm, o, by simp, h⟩
    · obtain ⟨he, o', ho, hn⟩ := collect_error h
      exact ⟨he, o', by simp [ho], hn⟩
  | .account a :: is, h => by
    obtain ⟨he, o', ho, hn⟩ := collect_error (is := is) h; exact ⟨he, o', by simp [ho], hn⟩
  | .accountCommand n a :: is, h => by
    obtain ⟨he, o', ho, hn⟩ := collect_error (is := is) h; exact ⟨he, o', by simp [ho], hn⟩
  | .orderAccountCommand a :: is, h => by
    obtain ⟨he, o', ho, hn⟩ := collect_error (is := is) h; exact ⟨he, o', by simp [ho], hn⟩

theorem spendable_iff (o : TxOutput) : spendable o = true ↔ CanBeSpent o := by
  constructor
  · intro h
    cases o <;> first | constructor | simp [spendable] at h
  · intro h; cases h <;> rfl

theorem isCommand_iff (i : TxInput) : isCommand i = true ↔ Commands i := by
  constructor
  · intro h
    cases i <;> first | constructor | simp [isCommand] at h
  · intro h; cases h <;> rfl

theorem isPool_iff (o : TxOutput) : isPool o = true ↔ ∃ p d, o = .createStakePool p d := by
  cases o <;> simp [isPool]

theorem isDelegation_iff (o : TxOutput) : isDelegation o = true ↔ ∃ d p, o = .createDelegationId d p := by
  cases o <;> simp [isDelegation]

theorem isOrder_iff (o : TxOutput) : isOrder o = true ↔ ∃ d, o = .createOrder d := by
  cases o <;> simp [isOrder]

theorem two_filter {α : Type} (p : α → Bool) {P : α → Prop} (h : ∀ a, p a = true ↔ P a) (l : List α) :
    ¬ (l.filter p).length ≤ 1 ↔ Two P l := by
  rw [two_iff]; simp only [h, Two]

theorem noProduce_iff (os : List TxOutput) : ¬ (os.filter isProduceBlock).length = 0 ↔ ∃ d p, TxOutput.produceBlockFromStake d p ∈ os := by
  rw [List.length_eq_zero_iff, List.filter_eq_nil_iff]
  push Not
  constructor
  · rintro ⟨o, ho, h⟩
    cases o <;> simp [isProduceBlock] at h
    exact ⟨_, _, ho⟩
  · rintro ⟨d, p, h⟩; exact ⟨_, h, rfl⟩

theorem purposes_error {t : TransactionV1} {us : List TxOutput} {e : PolicyErr} {k r cfg} {w : Chain}
    (hus : ∀ u ∈ us, ∃ o, TxInput.utxo o ∈ t.inputs ∧ w.utxo o = some u)
    (h : checkTxPurposes t us = .error e) : TxFault k r cfg w t e := by
  simp only [checkTxPurposes, bind_eq_error, ensure_eq_error] at h
  rcases h with ⟨h, rfl⟩ | ⟨_, _, ⟨h, rfl⟩ | ⟨_, _, ⟨h, rfl⟩ | ⟨_, _, ⟨h, rfl⟩ | ⟨_, _, ⟨h, rfl⟩ | ⟨_, _, h, rfl⟩⟩⟩⟩⟩
  · simp only [List.all_eq_true, not_forall] at h
    obtain ⟨u, hu, h⟩ := h
    obtain ⟨o, ho, he⟩ := hus u hu
    exact ⟨o, u, ho, he, fun hc => h ((spendable_iff u).2 hc)⟩
  · exact (two_filter _ isCommand_iff _).1 h
  · exact (noProduce_iff _).1 h
  · exact (two_filter _ isPool_iff _).1 h
  · exact (two_filter _ isDelegation_iff _).1 h
  · exact (two_filter _ isOrder_iff _).1 h

theorem purposes_ok {t : TransactionV1} {us : List TxOutput} {a : Unit} : checkTxPurposes t us = .ok a ↔
    (∀ u ∈ us, CanBeSpent u) ∧ ¬ Two Commands t.inputs ∧ (¬ ∃ d p, TxOutput.produceBlockFromStake d p ∈ t.outputs) ∧
    ¬ Two (fun o => ∃ p d, o = TxOutput.createStakePool p d) t.outputs ∧
    ¬ Two (fun o => ∃ d p, o = TxOutput.createDelegationId d p) t.outputs ∧
    ¬ Two (fun o => ∃ d, o = TxOutput.createOrder d) t.outputs := by
  rw [← two_filter _ isCommand_iff, ← two_filter _ isPool_iff, ← two_filter _ isDelegation_iff, ← two_filter _ isOrder_iff,
    ← noProduce_iff]
  simp only [checkTxPurposes, bind_eq_ok, ensure_eq_ok, not_not, List.all_eq_true, spendable_iff, exists_const]

theorem sum_none : ∀ (l : List Nat) (z : Nat), z < U128 → (l.foldlM Amt.add z = none ↔ U128 ≤ z + l.sum)
  | [], z, h => by simp [pure]; omega
  | x :: l, z, h => by
    simp only [List.foldlM_cons, Amt.add, List.sum_cons, bind, Option.bind]
    by_cases hx : z + x < U128
    · rw [if_pos hx]
      show l.foldlM Amt.add (z + x) = none ↔ _
      rw [sum_none l (z + x) hx]
      generalize U128 = U at *
      omega
    · rw [if_neg hx]
      generalize U128 = U at *
      simp; omega

theorem burned_sum : ∀ (os : List TxOutput), (os.filterMap burnedCoins).sum = coinsBurned os
  | [] => rfl
  | o :: os => by
    have ih := burned_sum os
    cases o with
    | burn v => cases v <;> simp [burnedCoins, coinsBurned, List.filterMap_cons, ih]
    | _ => simp [burnedCoins, coinsBurned, List.filterMap_cons, ih]

theorem issued_iff (os : List TxOutput) : (os.filter isIssuance).length > 0 ↔ ∃ o ∈ os, Issues o := by
  rw [gt_iff_lt, List.length_pos_iff_exists_mem]
  simp only [List.mem_filter, issues_iff]

theorem feeBurn_error {t : TransactionV1} {e : PolicyErr} {k r cfg} {w : Chain}
    (h : checkFeeBurn r cfg t = .error e) : TxFault k r cfg w t e := by
  unfold checkFeeBurn at h
  split at h
  · cases h
  rename_i hr
  unfold checkFeeBurnV0 at h
  split at h
  · rename_i hi
    rw [issued_iff] at hi
    simp only [bind_eq_error, okOr_eq_error, okOr_eq_ok, ensure_eq_error] at h
    rcases h with ⟨h, rfl⟩ | ⟨n, hn, h, rfl⟩
    · refine ⟨by simpa using hr, hi, ?_⟩
      have := (sum_none _ 0 (by decide)).1 h
      rw [burned_sum] at this
      have h2 : U128 = 2 ^ 128 := by decide
      omega
    · refine ⟨by simpa using hr, hi, ?_⟩
      have := Accumulator.sumAmounts_ok hn
      rw [burned_sum] at this
      omega
  · cases h

theorem feeBurn_ok {t : TransactionV1} {a : Unit} {r cfg} (h : checkFeeBurn r cfg t = .ok a) :
    r.tokensV1 = false → (∃ o ∈ t.outputs, Issues o) → coinsBurned t.outputs < 2 ^ 128 ∧ cfg.ftIssuanceFee ≤ coinsBurned t.outputs := by
  intro hr hi
  unfold checkFeeBurn at h
  rw [hr] at h
  simp only [Bool.false_eq_true, if_false, checkFeeBurnV0] at h
  rw [if_pos ((issued_iff _).2 hi)] at h
  simp only [bind_eq_ok, okOr_eq_ok, ensure_eq_ok] at h
  obtain ⟨n, hn, h⟩ := h
  have h1 := Accumulator.sumAmounts_ok hn
  have h2 := (not_congr (sum_none (t.outputs.filterMap burnedCoins) 0 (by decide))).1 (by
    intro hc
    have : Accumulator.sumAmounts (t.outputs.filterMap burnedCoins) = none := hc
    rw [this] at hn; cases hn)
  rw [burned_sum] at h1 h2
  have h3 : U128 = 2 ^ 128 := by decide
  omega

theorem zero_error {o : TxOutput} {e : PolicyErr} (h : checkZeroTransfer o = .error e) : ∃ id, e = .zeroTokenTransfer id ∧ Moves id 0 o := by
  unfold checkZeroTransfer at h
  split at h <;> first
    | (rw [ensure_eq_error] at h; obtain ⟨h, rfl⟩ := h; simp only [not_not] at h; subst h; exact ⟨_, rfl, by constructor⟩)
    | cases h

theorem zero_ok {o : TxOutput} {a : Unit} (h : checkZeroTransfer o = .ok a) (id : Bytes) : ¬ Moves id 0 o := by
  intro hm
  cases hm <;> simp [checkZeroTransfer, ensure] at h

theorem zeros_error {t : TransactionV1} {e : PolicyErr} {k r cfg} {w : Chain}
    (h : checkZeroTransfers r t = .error e) : TxFault k r cfg w t e := by
  unfold checkZeroTransfers at h
  split at h
  · rename_i hr
    replace h := forEach_error h
    obtain ⟨o, ho, h⟩ := h
    obtain ⟨id, rfl, hm⟩ := zero_error h
    exact ⟨hr, o, ho, hm⟩
  · cases h

theorem zeros_ok {t : TransactionV1} {a : Unit} {r} (h : checkZeroTransfers r t = .ok a) (hr : r.zeroTokenTransferForbidden = true) :
    ∀ id, ∀ o ∈ t.outputs, ¬ Moves id 0 o := by
  unfold checkZeroTransfers at h
  rw [hr] at h
  simp only [if_true, forEach_ok] at h
  exact fun id o ho => zero_ok (h o ho) id

/-! ### Transactions -/

variable {k : Crypto} {r : Rules} {cfg : Accumulator.Config} {w : Chain} {t : TransactionV1}

/-- **C54.** When the policy refuses a transaction, the fault it names is there. -/
theorem C54_transaction_error {e : PolicyErr} (h : checkTxPolicy k r cfg w t = .error e) : TxFault k r cfg w t e := by
  unfold checkTxPolicy at h
  rw [bind_eq_error] at h
  rcases h with h | ⟨us, hus, h⟩
  · obtain ⟨rfl, h'⟩ := collect_error h
    exact h'
  obtain ⟨-, h2, h3⟩ := collect_ok hus
  rw [bind_eq_error] at h
  rcases h with h | ⟨_, -, h⟩
  · exact purposes_error h2 h
  rw [bind_eq_error] at h
  rcases h with h | ⟨_, -, h⟩
  · exact feeBurn_error h
  rw [h3] at h
  simp only [bind_eq_error, reduceCtorEq, false_or, Except.ok.injEq, exists_eq_left', mapError_eq_error, mapError_eq_ok', List.map_map,
    pure, Except.pure, and_false, exists_false, or_false] at h
  rcases h with ⟨e, h, rfl⟩ | ⟨i, hi, ⟨e, h, rfl⟩ | ⟨o, ho, ⟨e, h, rfl⟩ | ⟨f, hf, h⟩⟩⟩
  · exact .inl h
  · exact .inr (.inl h)
  · exact .inr (.inr ⟨i, o, hi, ho, h⟩)
  · exact zeros_error h

theorem policy_ok {fee : Accumulator.Acc} (h : checkTxPolicy k r cfg w t = .ok fee) :
    (∀ o, TxInput.utxo o ∈ t.inputs → ∃ u, w.utxo o = some u ∧ CanBeSpent u) ∧ ¬ Two Commands t.inputs ∧
    (¬ ∃ d p, TxOutput.produceBlockFromStake d p ∈ t.outputs) ∧
    ¬ Two (fun o => ∃ p d, o = TxOutput.createStakePool p d) t.outputs ∧
    ¬ Two (fun o => ∃ d p, o = TxOutput.createDelegationId d p) t.outputs ∧
    ¬ Two (fun o => ∃ d, o = TxOutput.createOrder d) t.outputs ∧
    (r.tokensV1 = false → (∃ o ∈ t.outputs, Issues o) → coinsBurned t.outputs < 2 ^ 128 ∧ cfg.ftIssuanceFee ≤ coinsBurned t.outputs) ∧
    (∃ i o, inputsWorth k cfg w t = .ok i ∧ outputsWorth k cfg t.outputs = .ok o ∧ Accumulator.satisfyWith i o = .ok fee) ∧
    (r.zeroTokenTransferForbidden = true → ∀ id, ∀ o ∈ t.outputs, ¬ Moves id 0 o) := by
  unfold checkTxPolicy at h
  rw [bind_eq_ok] at h
  obtain ⟨us, hus, h⟩ := h
  obtain ⟨h1, h2, h3⟩ := collect_ok hus
  rw [h3] at h
  simp only [bind_eq_ok, purposes_ok, Except.ok.injEq, exists_eq_left', mapError_eq_ok', pure_eq_ok, List.map_map, exists_const] at h
  obtain ⟨⟨p1, p2, p3, p4, p5, p6⟩, _, hb, i, hi, o, ho, f, hf, _, hz, rfl⟩ := h
  refine ⟨fun x hx => ?_, p2, p3, p4, p5, p6, feeBurn_ok hb, ⟨i, o, hi, ho, hf⟩, fun hr => zeros_ok hz hr⟩
  obtain ⟨u, hu, he⟩ := h1 x hx
  exact ⟨u, he, p1 u hu⟩

/-- **C54.** The fee of an accepted transaction is what is left of its inputs once the outputs are paid for. -/
theorem C54_transaction_fee {fee : Accumulator.Acc} (h : checkTxPolicy k r cfg w t = .ok fee) :
    ∃ i o, inputsWorth k cfg w t = .ok i ∧ outputsWorth k cfg t.outputs = .ok o ∧ Accumulator.satisfyWith i o = .ok fee :=
  (policy_ok h).2.2.2.2.2.2.2.1

/-- **C54.** The policy accepts a transaction exactly if there is no fault. -/
theorem C54_transaction_accepted : (∃ fee, checkTxPolicy k r cfg w t = .ok fee) ↔ ∀ e, ¬ TxFault k r cfg w t e := by
  constructor
  · rintro ⟨fee, h⟩ e hf
    obtain ⟨h1, h2, h3, h4, h5, h6, h7, ⟨i, o, hi, ho, hs⟩, h9⟩ := policy_ok h
    cases e <;> simp only [TxFault] at hf
    · obtain ⟨o, ho, hn⟩ := hf
      obtain ⟨u, hu, -⟩ := h1 o ho
      simp [hu] at hn
    · obtain ⟨o, u, ho, hu, hn⟩ := hf
      obtain ⟨u', hu', hc⟩ := h1 o ho
      rw [hu] at hu'; cases hu'
      exact hn hc
    · exact h2 hf
    · exact h3 hf
    · exact h4 hf
    · exact h5 hf
    · exact h6 hf
    · obtain ⟨a, b, c⟩ := hf
      have := (h7 a b).1
      omega
    · obtain ⟨a, b, c⟩ := hf
      have := (h7 a b).2
      omega
    · rcases hf with hf | hf | ⟨i', o', hi', ho', hf⟩
      · rw [hi] at hf; cases hf
      · rw [ho] at hf; cases hf
      · rw [hi] at hi'; rw [ho] at ho'; cases hi'; cases ho'
        rw [hs] at hf; cases hf
    · obtain ⟨a, x, hx, hm⟩ := hf
      exact h9 a _ x hx hm
  · intro h
    cases hc : checkTxPolicy k r cfg w t with
    | ok fee => exact ⟨fee, rfl⟩
    | error e => exact absurd (C54_transaction_error hc) (h e)

/-! ### Block rewards -/

theorem kernel_of {us : List TxOutput} {p : Bytes} {d : Destination} (h : kernelPool us = .ok (p, d)) : ∃ u, us = [u] ∧ Stake p d u := by
  unfold kernelPool at h
  split at h
  · cases h
  · cases h; exact ⟨_, rfl, .pool _ rfl⟩
  · cases h; exact ⟨_, rfl, .produced⟩
  · cases h
  · cases h

theorem kernel_error {us : List TxOutput} {e : PolicyErr} (h : kernelPool us = .error e) :
    (us = [] ∧ e = .noKernel) ∨ (1 < us.length ∧ e = .multipleKernels) ∨
    ∃ u, us = [u] ∧ e = .invalidInputTypeInReward ∧ ∀ p d, ¬ Stake p d u := by
  unfold kernelPool at h
  split at h
  · cases h; exact .inl ⟨rfl, rfl⟩
  · cases h
  · cases h
  · rename_i u h1 h2
    cases h
    refine .inr (.inr ⟨_, rfl, rfl, ?_⟩)
    intro p d hs
    cases hs with
    | pool d' _ => exact h1 _ _ rfl
    | produced => exact h2 _ _ rfl
  · rename_i h0 h1 h2 h3
    cases h
    refine .inr (.inl ⟨?_, rfl⟩)
    match us with
    | [] => exact absurd rfl h0
    | [a] => exact absurd rfl (h3 a)
    | a :: b :: l => simp

theorem rewardPool_of {os : List TxOutput} {p : Bytes} {d : Destination} (h : rewardPool os = .ok (p, d)) :
    os = [.produceBlockFromStake d p] := by
  unfold rewardPool at h
  split at h <;> cases h
  rfl

theorem rewardPool_error {os : List TxOutput} {e : PolicyErr} (h : rewardPool os = .error e) :
    (os = [] ∧ e = .noRewardOutputs) ∨ (1 < os.length ∧ e = .multipleRewardOutputs) ∨
    ∃ o, os = [o] ∧ e = .invalidOutputTypeInReward ∧ ∀ d p, o ≠ .produceBlockFromStake d p := by
  unfold rewardPool at h
  split at h
  · cases h; exact .inl ⟨rfl, rfl⟩
  · cases h
  · rename_i o h1
    cases h
    exact .inr (.inr ⟨_, rfl, rfl, h1⟩)
  · rename_i h0 h1 h3
    cases h
    refine .inr (.inl ⟨?_, rfl⟩)
    match os with
    | [] => exact absurd rfl h0
    | [a] => exact absurd rfl (h3 a)
    | a :: b :: l => simp

/-- how many outputs are collected -/
theorem collect_utxos {utxo : UtxoOutPoint → Option TxOutput} : ∀ {is : List TxInput} {us : List TxOutput},
    (∀ i ∈ is, ∃ o, i = .utxo o) → collectUtxos utxo is = .ok us →
    ∃ os : List UtxoOutPoint, is = os.map .utxo ∧ os.map utxo = us.map some
  | [], us, _, h => by
    simp only [collectUtxos, Except.ok.injEq] at h; subst h; exact ⟨[], rfl, rfl⟩
  | i :: is, us, hi, h => by
    obtain ⟨o, rfl⟩ := hi i (by simp)
    simp only [collectUtxos, bind_eq_ok, okOr_eq_ok, pure_eq_ok] at h
    obtain ⟨u, hu, us', hus, rfl⟩ := h
    obtain ⟨os, rfl, ho⟩ := collect_utxos (fun i hi' => hi i (by simp [hi'])) hus
    exact ⟨o :: os, rfl, by simp [hu, ho]⟩

theorem inputs_error {is : List TxInput} {e : PolicyErr} (h : forEach checkRewardInput is = .error e) :
    e = .accountInReward ∧ ∃ i ∈ is, ∀ o, i ≠ .utxo o := by
  replace h := forEach_error h
  obtain ⟨i, hi, h⟩ := h
  cases i <;> simp [checkRewardInput] at h
  all_goals exact ⟨h.symm, _, hi, by simp⟩

theorem inputs_ok {is : List TxInput} {a : Unit} (h : forEach checkRewardInput is = .ok a) : ∀ i ∈ is, ∃ o, i = .utxo o := by
  rw [forEach_ok] at h
  intro i hi
  have := h i hi
  cases i <;> simp [checkRewardInput] at this
  exact ⟨_, rfl⟩

theorem isLock_iff (o : TxOutput) : isLockThenTransfer o = true ↔ ∃ v d l, o = .lockThenTransfer v d l := by
  cases o <;> simp [isLockThenTransfer]

variable {utxo : UtxoOutPoint → Option TxOutput} {fees subsidy : Nat} {b : RewardTx}

theorem rewardPurposes_error {e : PolicyErr} (h : checkRewardPurposes r utxo b = .error e) :
    RewardFault k r cfg utxo fees subsidy b e := by
  unfold checkRewardPurposes at h
  split at h
  · rename_i is hb
    rw [bind_eq_error] at h
    rcases h with h | ⟨_, hu, h⟩
    · obtain ⟨rfl, i, hi, hn⟩ := inputs_error h
      exact ⟨is, i, hb, hi, hn⟩
    replace hu := inputs_ok hu
    rw [bind_eq_error] at h
    rcases h with h | ⟨us, hus, h⟩
    · obtain ⟨rfl, o, ho, hn⟩ := collect_error h
      exact ⟨is, o, hb, ho, hn⟩
    obtain ⟨os, rfl, hos⟩ := collect_utxos hu hus
    have hlen : os.length = us.length := by simpa using congrArg List.length hos
    rw [bind_eq_error] at h
    rcases h with h | ⟨⟨p, d⟩, hk, h⟩
    · rcases kernel_error h with ⟨rfl, rfl⟩ | ⟨hl, rfl⟩ | ⟨u, rfl, rfl, hn⟩
      · cases os with
        | nil => exact hb
        | cons _ _ => simp at hlen
      · exact ⟨_, hb, by simpa [hlen] using hl⟩
      · match os, hos with
        | [o], hos => exact ⟨o, u, hb, by simpa using hos, hn⟩
    obtain ⟨u, rfl, hst⟩ := kernel_of hk
    match os, hos with
    | [o], hos =>
      replace hos : utxo o = some u := by simpa using hos
      rw [bind_eq_error] at h
      rcases h with h | ⟨⟨p', d'⟩, hr, h⟩
      · rcases rewardPool_error h with ⟨ho, rfl⟩ | ⟨ho, rfl⟩ | ⟨x, ho, rfl, hn⟩
        · exact ⟨by simp [hb], ho⟩
        · exact ⟨by simp [hb], ho⟩
        · exact .inl ⟨by simp [hb], x, by simp [ho], hn⟩
      replace hr := rewardPool_of hr
      simp only [bind_eq_error, ensure_eq_error, ensure_eq_ok] at h
      rcases h with ⟨h, rfl⟩ | ⟨_, rfl, h, rfl⟩
      · exact ⟨o, u, p, d, p', d', hb, hos, hst, hr, h⟩
      · simp only [not_or, Bool.not_eq_false] at h
        exact ⟨h.1, o, u, p, d, d', hb, hos, hst, hr, fun he => h.2 he.symm⟩
  · rename_i hb
    simp only [ensure_eq_error, List.all_eq_true, not_forall, isLock_iff] at h
    obtain ⟨⟨o, ho, h⟩, rfl⟩ := h
    exact .inr ⟨hb, o, ho, fun v d l he => h ⟨v, d, l, he⟩⟩

/-- **C54.** When the policy refuses a block reward, the fault it names is there. -/
theorem C54_reward_error {e : PolicyErr} (h : checkRewardPolicy k r cfg utxo fees subsidy b = .error e) :
    RewardFault k r cfg utxo fees subsidy b e := by
  unfold checkRewardPolicy at h
  rw [bind_eq_error] at h
  rcases h with h | ⟨_, -, h⟩
  · exact rewardPurposes_error h
  split at h
  · rename_i hp
    have hn : b.inputs ≠ none := by intro hc; simp [hc] at hp
    unfold checkOneOutput at h
    split at h <;> cases h
    · exact ⟨hn, by assumption⟩
    · rename_i h0 h1
      refine ⟨hn, ?_⟩
      match hb : b.outputs with
      | [] => exact absurd hb h0
      | [a] => exact absurd hb (h1 a)
      | a :: c :: l => simp
  · rename_i hp
    have hn : b.inputs = none := by cases hb : b.inputs with | none => rfl | some _ => simp [hb] at hp
    simp only [checkRewardValue, bind_eq_error, okOr_eq_error, okOr_eq_ok, mapError_eq_error, mapError_eq_ok', pure, Except.pure,
      reduceCtorEq, and_false, exists_false, or_false] at h
    rcases h with ⟨h, rfl⟩ | ⟨i, hi, ⟨e, h, rfl⟩ | ⟨o, ho, e, h, rfl⟩⟩
    · refine ⟨hn, ?_⟩
      by_contra hc
      have h2 : U128 = 2 ^ 128 := by decide
      have hlt : fees + subsidy < U128 := by rw [h2]; omega
      simp [Accumulator.fromBlockReward, Amt.add, hlt] at h
    · exact ⟨hn, .inl h⟩
    · exact ⟨hn, .inr ⟨i, o, hi, ho, h⟩⟩

theorem stake_inj {p p' : Bytes} {d d' : Destination} {u : TxOutput} (h : Stake p d u) (h' : Stake p' d' u) : p = p' ∧ d = d' := by
  cases h <;> cases h' <;> simp_all

theorem reward_ok {a : Unit} (h : checkRewardPolicy k r cfg utxo fees subsidy b = .ok a) :
    (∃ o u p d d', b.inputs = some [.utxo o] ∧ utxo o = some u ∧ Stake p d u ∧ b.outputs = [.produceBlockFromStake d' p] ∧
      (r.stakerDestinationUpdateForbidden = true → d' = d)) ∨
    (b.inputs = none ∧ (∀ o ∈ b.outputs, ∃ v d l, o = .lockThenTransfer v d l) ∧ fees + subsidy < 2 ^ 128 ∧
      ∃ i o f, Accumulator.fromBlockReward fees subsidy = some i ∧ outputsWorth k cfg b.outputs = .ok o ∧
        Accumulator.satisfyWith i o = .ok f) := by
  unfold checkRewardPolicy at h
  rw [bind_eq_ok] at h
  obtain ⟨_, hp, h⟩ := h
  unfold checkRewardPurposes at hp
  split at hp
  · left
    rename_i is hb
    simp only [bind_eq_ok, Prod.exists, ensure_eq_ok, exists_const] at hp
    obtain ⟨_, hu, us, hus, p, d, hk, p', d', hr, rfl, hd⟩ := hp
    replace hu := inputs_ok hu
    obtain ⟨os, rfl, hos⟩ := collect_utxos hu hus
    obtain ⟨u, rfl, hst⟩ := kernel_of hk
    match os, hos, hb with
    | [], hos, _ => simp at hos
    | _ :: _ :: _, hos, _ => simp at hos
    | [o], hos, hb =>
      refine ⟨o, u, p, d, d', hb, by simpa using hos, hst, rewardPool_of hr, fun hf => ?_⟩
      rcases hd with hd | hd
      · rw [hf] at hd; cases hd
      · exact hd
  · right
    rename_i hb
    simp only [ensure_eq_ok, List.all_eq_true, isLock_iff] at hp
    simp only [hb, Option.isSome_none, Bool.false_eq_true, if_false, checkRewardValue, bind_eq_ok, okOr_eq_ok, mapError_eq_ok',
      pure_eq_ok] at h
    obtain ⟨i, hi, o, ho, f, hf, -⟩ := h
    refine ⟨hb, hp, ?_, i, o, f, hi, ho, hf⟩
    have h2 : U128 = 2 ^ 128 := by decide
    by_contra hc
    have hlt : ¬ fees + subsidy < U128 := by rw [h2]; omega
    simp [Accumulator.fromBlockReward, Amt.add, hlt] at hi

/-- **C54.** The policy accepts a block reward exactly if there is no fault. -/
theorem C54_reward_accepted : checkRewardPolicy k r cfg utxo fees subsidy b = .ok () ↔
    ∀ e, ¬ RewardFault k r cfg utxo fees subsidy b e := by
  constructor
  · intro h e hf
    rcases reward_ok h with ⟨o, u, p, d, d', hi, hu, hs, ho, hd⟩ | ⟨hi, ho, hv, i, o, f, h1, h2, h3⟩
    · have hone : ∀ {o' u'}, b.inputs = some [.utxo o'] → utxo o' = some u' → o' = o ∧ u' = u := by
        intro o' u' he hu'
        rw [hi] at he
        simp only [Option.some.injEq, List.cons.injEq, TxInput.utxo.injEq, and_true] at he
        subst he
        rw [hu] at hu'
        exact ⟨rfl, (Option.some.inj hu').symm⟩
      cases e with
      | missingOutputOrSpent =>
        obtain ⟨is, o', he, hm, hn⟩ := hf
        rw [hi] at he; cases he
        simp only [List.mem_singleton, TxInput.utxo.injEq] at hm
        subst hm; rw [hu] at hn; cases hn
      | accountInReward =>
        obtain ⟨is, i, he, hm, hn⟩ := hf
        rw [hi] at he; cases he
        simp only [List.mem_singleton] at hm
        exact hn o hm
      | noKernel => simp [RewardFault, hi] at hf
      | multipleKernels =>
        obtain ⟨is, he, hl⟩ := hf
        rw [hi] at he; cases he
        simp at hl
      | invalidInputTypeInReward =>
        obtain ⟨o', u', he, hu', hn⟩ := hf
        obtain ⟨rfl, rfl⟩ := hone he hu'
        exact hn _ _ hs
      | noRewardOutputs => simp [RewardFault, ho] at hf
      | multipleRewardOutputs => simp [RewardFault, ho] at hf
      | invalidOutputTypeInReward =>
        rcases hf with ⟨-, x, hx, hn⟩ | ⟨hn, -⟩
        · rw [ho] at hx
          exact hn _ _ (by simpa using hx)
        · rw [hi] at hn; cases hn
      | poolIdMismatch =>
        obtain ⟨o', u', p1, d1, p2, d2, he, hu', hs', he', hn⟩ := hf
        obtain ⟨rfl, rfl⟩ := hone he hu'
        rw [ho] at he'
        simp only [List.cons.injEq, TxOutput.produceBlockFromStake.injEq, and_true] at he'
        exact hn (by rw [(stake_inj hs' hs).1]; exact he'.2)
      | stakerDestinationChanged =>
        obtain ⟨hr, o', u', p1, d1, d2, he, hu', hs', he', hn⟩ := hf
        obtain ⟨rfl, rfl⟩ := hone he hu'
        rw [ho] at he'
        simp only [List.cons.injEq, TxOutput.produceBlockFromStake.injEq, and_true] at he'
        exact hn (by rw [(stake_inj hs' hs).2, ← he'.1]; exact (hd hr).symm)
      | rewardAddition => simp [RewardFault, hi] at hf
      | accumulator e => simp [RewardFault, hi] at hf
      | _ => exact hf
    · cases e with
      | accumulator e =>
        rcases hf with ⟨-, hf | ⟨i', o', h1', h2', hf⟩⟩
        · rw [h2] at hf; cases hf
        · rw [h1] at h1'; rw [h2] at h2'; cases h1'; cases h2'
          rw [h3] at hf; cases hf
      | invalidOutputTypeInReward =>
        rcases hf with ⟨hn, -⟩ | ⟨-, x, hx, hn⟩
        · exact hn hi
        · obtain ⟨v, d, l, he⟩ := ho x hx
          exact hn v d l he
      | rewardAddition => exact absurd hf.2 (by omega)
      | _ => simp [RewardFault, hi] at hf
  · intro h
    cases hc : checkRewardPolicy k r cfg utxo fees subsidy b with
    | ok a => rfl
    | error e => exact absurd (C54_reward_error hc) (h e)

/-! ### Concrete cases -/

section Example

def plCfg : Accumulator.Config := ⟨100, 50, 50, 20, 20, 10, 100, 5, .v1⟩

def h33 : Bytes := List.replicate 32 8

def plOut (i : Nat) : UtxoOutPoint := ⟨.transaction h32, i⟩

def plPool : StakePoolData := ⟨40, dest, [], dest, 10, 1⟩

/-- the state: some outputs, one token with supply 7, no pools or orders -/
def plChain : Chain where
  utxo o := if o.id = .transaction h32 then
      match o.index with
      | 0 => some (.transfer (.coin 1000) dest)
      | 1 => some (.burn (.coin 1000))
      | 2 => some (.transfer (.tokenV1 h33 3) dest)
      | 3 => some (.createStakePool h33 plPool)
      | 4 => some (.produceBlockFromStake dest h32)
      | _ => none
    else none
  orders := ⟨fun _ => .ok none, fun _ => .ok 0, fun _ => .ok 0⟩
  pos := ⟨fun _ => .ok 0, fun _ => .ok none, fun _ => .ok none, fun _ => .ok 0, fun _ => .ok none, fun _ => .ok 0⟩
  tokens := ⟨fun _ => .ok (some ⟨1, 2, 3, .unlimited, false, .no true, 4⟩), fun _ => .ok 7⟩

def policy (ins : List TxInput) (outs : List TxOutput) (r : Rules := exRules) : Except PolicyErr (Option Nat) :=
  (checkTxPolicy exCrypto r plCfg plChain ⟨0, ins, outs⟩).map fun a => (Accumulator.blockFees a 0).toOption

def mintIn : TxInput := .accountCommand 3 (.mintTokens h33 2)

/-- what happened: the fee in coins or the error -/
def resultOf {A : Type} : Except PolicyErr A → A ⊕ PolicyErr
  | .ok a => .inl a
  | .error e => .inr e

-- minting two units, moving five, 1000 coins in, 910 out, 50 for the change of the supply: 40 for the block
example : resultOf (policy [.utxo (plOut 0), .utxo (plOut 2), mintIn]
    [.transfer (.coin 910) dest, .lockThenTransfer (.tokenV1 h33 5) dest (.untilHeight 3)]) = .inl (some 40) := by decide +kernel

-- every error occurs
example : resultOf (policy [.utxo (plOut 9)] []) = .inr .missingOutputOrSpent := by decide +kernel
example : resultOf (policy [.utxo (plOut 1)] []) = .inr .invalidInputType := by decide +kernel
example : resultOf (policy [mintIn, .orderAccountCommand (.freezeOrder h32)] []) = .inr .multipleCommands := by decide +kernel
example : resultOf (policy [.utxo (plOut 0)] [.produceBlockFromStake dest h33]) = .inr .produceBlockInTx := by decide +kernel
example : resultOf (policy [.utxo (plOut 0)] [.createStakePool h33 plPool, .burn (.coin 1), .createStakePool h32 plPool]) =
    .inr .multiplePools := by decide +kernel
example : resultOf (policy [.utxo (plOut 0)] [.createDelegationId dest h33, .createDelegationId dest h32]) =
    .inr .multipleDelegations := by decide +kernel
example : resultOf (policy [.utxo (plOut 0)] [.createOrder (order (.coin 1) (.tokenV1 h33 1)), .createOrder (order (.coin 1) (.tokenV1 h33 1))]) =
    .inr .multipleOrders := by decide +kernel
example : resultOf (policy [.utxo (plOut 0)] [.issueNft h33 (.v0 ⟨nft⟩) dest, .burn (.coin (2 ^ 128 - 1)), .burn (.coin 1)]
    { exRules with tokensV1 := false }) = .inr .burnSum := by decide +kernel
example : resultOf (policy [.utxo (plOut 0)] [.issueNft h33 (.v0 ⟨nft⟩) dest, .burn (.coin 60), .burn (.coin 39)]
    { exRules with tokensV1 := false }) = .inr .insufficientTokenFees := by decide +kernel
example : resultOf (policy [.utxo (plOut 0)] [.transfer (.coin 1001) dest]) = .inr (.accumulator .attemptToPrintMoney) := by
  decide +kernel
example : resultOf (policy [.utxo (plOut 0)] [.burn (.tokenV1 h33 0)]) = .inr (.zeroTokenTransfer h33) := by decide +kernel

example : ∀ e, ¬ TxFault exCrypto exRules plCfg plChain ⟨0, [.utxo (plOut 0)], [.transfer (.coin 910) dest]⟩ e :=
  C54_transaction_accepted.1 (by
    cases h : checkTxPolicy exCrypto exRules plCfg plChain ⟨0, [.utxo (plOut 0)], [.transfer (.coin 910) dest]⟩ with
    | ok f => exact ⟨f, rfl⟩
    | error e =>
      have : (checkTxPolicy exCrypto exRules plCfg plChain ⟨0, [.utxo (plOut 0)], [.transfer (.coin 910) dest]⟩).isOk = true := by
        decide +kernel
      rw [h] at this; cases this)

def reward (ins : Option (List TxInput)) (outs : List TxOutput) (r : Rules := exRules) (fees : Nat := 30) : Unit ⊕ PolicyErr :=
  resultOf (checkRewardPolicy exCrypto r plCfg plChain.utxo fees 70 ⟨ins, outs⟩)

-- stakes of both kinds, and mined rewards of at most fees and subsidy
example : reward (some [.utxo (plOut 3)]) [.produceBlockFromStake dest h33] = .inl () := by decide +kernel
example : reward (some [.utxo (plOut 4)]) [.produceBlockFromStake dest h32] = .inl () := by decide +kernel
example : reward none [.lockThenTransfer (.coin 60) dest (.forBlockCount 5), .lockThenTransfer (.coin 40) dest (.untilTime 5)] =
    .inl () := by decide +kernel
-- every error occurs
example : reward (some [mintIn]) [] = .inr .accountInReward := by decide +kernel
example : reward (some [.utxo (plOut 9)]) [] = .inr .missingOutputOrSpent := by decide +kernel
example : reward (some []) [] = .inr .noKernel := by decide +kernel
example : reward (some [.utxo (plOut 3), .utxo (plOut 4)]) [] = .inr .multipleKernels := by decide +kernel
example : reward (some [.utxo (plOut 0)]) [] = .inr .invalidInputTypeInReward := by decide +kernel
example : reward (some [.utxo (plOut 3)]) [] = .inr .noRewardOutputs := by decide +kernel
example : reward (some [.utxo (plOut 3)]) [.produceBlockFromStake dest h33, .burn (.coin 1)] = .inr .multipleRewardOutputs := by
  decide +kernel
example : reward (some [.utxo (plOut 3)]) [.burn (.coin 1)] = .inr .invalidOutputTypeInReward := by decide +kernel
example : reward none [.burn (.coin 1)] = .inr .invalidOutputTypeInReward := by decide +kernel
example : reward (some [.utxo (plOut 3)]) [.produceBlockFromStake dest h32] = .inr .poolIdMismatch := by decide +kernel
example : reward (some [.utxo (plOut 3)]) [.produceBlockFromStake (.scriptHash h32) h33] = .inr .stakerDestinationChanged := by
  decide +kernel
example : reward (some [.utxo (plOut 3)]) [.produceBlockFromStake (.scriptHash h32) h33]
    { exRules with stakerDestinationUpdateForbidden := false } = .inl () := by decide +kernel
example : reward none [] exRules (2 ^ 128 - 70) = .inr .rewardAddition := by decide +kernel
example : reward none [.lockThenTransfer (.coin 101) dest (.forBlockCount 5)] = .inr (.accumulator .attemptToPrintMoney) := by
  decide +kernel
example : reward none [.lockThenTransfer (.tokenV1 h33 1) dest (.forBlockCount 5)] = .inr (.accumulator .attemptToPrintMoney) := by
  decide +kernel

end Example

end Verif.Policy
