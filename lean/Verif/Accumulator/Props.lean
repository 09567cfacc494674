import Verif.Accumulator.TxLemmas
import Verif.Tokens.Spec
import Verif.Pos.Spec

/-!
# C20, C21: value is conserved, locks are respected
-/

namespace Verif.Accumulator
open Verif Verif.Accounting

set_option maxRecDepth 100000

/-! ## C20 -/

/-- **C20** (accumulators).  If inputs satisfy outputs, then for every currency what the outputs hold plus what is left
over is exactly what the inputs held. -/
theorem C20_satisfy_conserves (i o fee : Acc) (h : satisfyWith i o = .ok fee) (c : Cur) :
    o.total c + fee.total c = i.total c := by
  simp only [satisfyWith, bind_eq_ok] at h
  obtain ⟨u, h1, h2⟩ := h
  have a1 := decreaseAll_ok h1 c
  rw [sumAt_entries] at a1
  obtain ⟨b1, b2, _⟩ := locked_fold h2
  by_cases hc : c = 0
  · subst hc
    have e : (o.locked.entries.map Prod.snd).sum = o.locked.sumV (fun _ v => v) := rfl
    rw [e, total_def { i with unc := u }] at b2
    simp only [coin, if_true] at b2
    rw [total_def o, total_def i]
    simp only [if_true]
    omega
  · have := b1 c hc
    rw [total_def, total_def, total_def, if_neg hc, if_neg hc, if_neg hc]
    simp only at this
    omega

/-- **C20** (exactly when it succeeds).  Inputs satisfy outputs if and only if every currency's unlocked outputs are
covered by unlocked inputs and, for every lock distance `d`, coins going to outputs locked for at most `d` are covered by
coins that need to be locked for at most `d`. -/
theorem C20_satisfiable_iff (i o : Acc) :
    (∃ fee, satisfyWith i o = .ok fee) ↔
      (∀ c, (o.unc.get c).getD 0 ≤ (i.unc.get c).getD 0) ∧ ∀ d, o.upTo d ≤ i.upTo d := by
  simp only [satisfyWith, bind_eq_ok]
  have key : ∀ u, (o.unc.entries.foldlM (fun m kv => decreaseOr m kv.1 kv.2 .attemptToPrintMoney) i.unc = .ok u) →
      ((∃ fee, o.locked.entries.foldlM (fun a kv => useCells a (a.cellsUpTo kv.1) kv.2) { i with unc := u } = .ok fee) ↔
        ∀ d, o.upTo d ≤ i.upTo d) := by
    intro u hu
    have a1 := decreaseAll_ok hu 0
    rw [sumAt_entries] at a1
    rw [locked_fold_isOk o.locked.sorted]
    simp only [Acc.upTo]
    unfold amt at a1
    apply forall_congr'
    intro d
    unfold BMap.sumV
    beta_reduce
    constructor <;> intro hh <;> omega
  constructor
  · rintro ⟨fee, u, h1, h2⟩
    refine ⟨fun c => ?_, (key u h1).1 ⟨fee, h2⟩⟩
    have := (decreaseAll_isOk (e := .attemptToPrintMoney)).1 ⟨u, h1⟩ c
    rw [sumAt_entries] at this
    exact this
  · rintro ⟨h1, h2⟩
    obtain ⟨u, hu⟩ := (decreaseAll_isOk (l := o.unc.entries) (m := i.unc) (e := .attemptToPrintMoney)).2
      (fun k => by rw [sumAt_entries]; exact h1 k)
    obtain ⟨fee, hf⟩ := (key u hu).2 h2
    exact ⟨fee, u, hu, hf⟩

/-- everything about a transaction's inputs -/
theorem fromInputs_ok {cfg : Config} {ov : Orders.View} {pv : Pos.View} {tv : Tokens.View} {inputs : List TxInput}
    {utxos : List (Option TxOutput)} {i : Acc} (hov : Orders.SoundView ov)
    (h : fromInputs cfg ov pv tv inputs utxos = .ok i) :
    inputs.length = utxos.length ∧
    (∀ d, i.lockedFrom d =
      if cfg.maturity ≠ 0 ∧ d ≤ cfg.maturity then ((inputs.zip utxos).map (unstaked pv)).sum else 0) ∧
    ∃ oc us, Orders.run (Orders.Cache.new ov) (inputs.flatMap (orderOps cfg)) = .ok (oc, us) ∧
      ∀ c S, (∀ x ∈ inputs, ∀ id, touches id x → id ∈ S) →
        (i.total c : Int) + heldBy oc.view c S + (inputs.map (fun x => (commandFee cfg c x : Int))).sum =
          ((inputs.zip utxos).map (fun x => (brought pv c x : Int))).sum + heldBy ov c S := by
  simp only [fromInputs, bind_eq_ok, ensure_eq_ok, pure_eq_ok] at h
  obtain ⟨_, hlen, s, h1, u, h2, rfl⟩ := h
  have hz : (inputs.zip utxos).map Prod.fst = inputs := List.map_fst_zip (by omega)
  have hg : Good pv ⟨Acc.empty, BMap.empty, Pos.Cache.new pv, Tokens.Cache.new tv, ⟨ov, Orders.Delta.empty⟩⟩ := by
    refine ⟨hov, ?_, fun p => rfl⟩
    have := Orders.new_view ov hov
    unfold Orders.Cache.new at this
    rw [this]; exact hov
  obtain ⟨⟨us, i1⟩, i2, i3⟩ := inputLoop_ok hg h1
  refine ⟨hlen, ?_, s.orders, us, ?_, ?_⟩
  · intro d
    have := i3 d
    unfold Acc.lockedFrom at this ⊢
    rw [this]
    simp [Acc.empty]
  · have e : inputs.flatMap (orderOps cfg) = (inputs.zip utxos).flatMap (fun x => orderOps cfg x.1) := by
      conv_lhs => rw [← hz]
      rw [List.flatMap_map]
    rw [e]
    exact i1
  · intro c S hS
    have hS' : ∀ x ∈ inputs.zip utxos, ∀ id, touches id x.1 → id ∈ S := by
      intro x hx
      exact hS x.1 (by rw [← hz]; exact List.mem_map_of_mem hx)
    have w := i2 c S hS'
    have e : (inputs.map (fun x => (commandFee cfg c x : Int))).sum =
        ((inputs.zip utxos).map (fun x => (commandFee cfg c x.1 : Int))).sum := by
      conv_lhs => rw [← hz]
      rw [List.map_map]; rfl
    have d1 := decreaseAll_ok h2 c
    rw [sumAt_entries] at d1
    have ht : (Acc.total { s.acc with unc := u } c : Int) = s.acc.total c - amt s.deduct c := by
      rw [total_def, total_def]
      push_cast
      omega
    rw [e, ht]
    have hv := Orders.new_view ov hov
    unfold Orders.Cache.new at hv
    simp only [worth, hv] at w
    have z1 : Acc.total Acc.empty c = 0 := by simp [Acc.total, Acc.empty]
    rw [z1] at w
    simp only [amt_empty] at w
    push_cast at w
    omega

/-- **C20** (transactions).  For every transaction the value checks accept and for every currency: what the outputs take,
plus what is left as fee, plus the fees charged for commands, plus what the touched orders hold afterwards equals what the
inputs bring (spent outputs, coins leaving staking, newly minted tokens) plus what those orders held before.  The orders
afterwards are those obtained by running the transaction's order commands on the given orders. -/
theorem C20_transaction_conserves (cfg : Config) (ov : Orders.View) (pv : Pos.View) (tv : Tokens.View)
    (inputs : List TxInput) (utxos : List (Option TxOutput)) (outs : List TxOutput) (i o fee : Acc)
    (hov : Orders.SoundView ov)
    (hi : fromInputs cfg ov pv tv inputs utxos = .ok i) (ho : fromOutputs cfg outs = .ok o)
    (hs : satisfyWith i o = .ok fee) :
    ∃ oc us, Orders.run (Orders.Cache.new ov) (inputs.flatMap (orderOps cfg)) = .ok (oc, us) ∧
      ∀ (c : Cur) (S : Finset Nat), (∀ x ∈ inputs, ∀ id, touches id x → id ∈ S) →
        (((outs.map (placed cfg c)).sum : Nat) : Int) + fee.total c +
            (inputs.map (fun x => (commandFee cfg c x : Int))).sum + ∑ id ∈ S, held oc.view c id =
          ((inputs.zip utxos).map (fun x => (brought pv c x : Int))).sum + ∑ id ∈ S, held ov c id := by
  obtain ⟨_, _, oc, us, h1, h2⟩ := fromInputs_ok hov hi
  refine ⟨oc, us, h1, fun c S hS => ?_⟩
  have a1 := h2 c S hS
  have a2 := C20_satisfy_conserves i o fee hs c
  have a3 := (outputs_ok ho).1 c
  have z1 : Acc.total Acc.empty c = 0 := by simp [Acc.total, Acc.empty]
  rw [z1] at a3
  unfold heldBy at a1
  omega

theorem sum_cast {A : Type} (l : List A) (f : A → Nat) : (l.map (fun x => (f x : Int))).sum = ((l.map f).sum : Nat) := by
  induction l with
  | nil => rfl
  | cons x l ih => simp only [List.map_cons, List.sum_cons, ih]; push_cast; ring

/-- **C20** (plain transactions).  With no order commands among the inputs, outputs never take more of any currency than
the inputs bring, and the difference is exactly the fees. -/
theorem C20_plain_transaction (cfg : Config) (ov : Orders.View) (pv : Pos.View) (tv : Tokens.View)
    (inputs : List TxInput) (utxos : List (Option TxOutput)) (outs : List TxOutput) (i o fee : Acc)
    (hov : Orders.SoundView ov) (hno : ∀ x ∈ inputs, ∀ id, ¬ touches id x)
    (hi : fromInputs cfg ov pv tv inputs utxos = .ok i) (ho : fromOutputs cfg outs = .ok o)
    (hs : satisfyWith i o = .ok fee) (c : Cur) :
    (outs.map (placed cfg c)).sum + fee.total c + (inputs.map (commandFee cfg c)).sum =
      ((inputs.zip utxos).map (brought pv c)).sum := by
  obtain ⟨oc, us, _, h⟩ := C20_transaction_conserves cfg ov pv tv inputs utxos outs i o fee hov hi ho hs
  have := h c ∅ (fun x hx id ht => absurd ht (hno x hx id))
  simp only [Finset.sum_empty, add_zero] at this
  have e1 : (inputs.map (fun x => (commandFee cfg c x : Int))).sum = ((inputs.map (commandFee cfg c)).sum : Nat) := by
    exact sum_cast _ _
  have e2 : ((inputs.zip utxos).map (fun x => (brought pv c x : Int))).sum =
      (((inputs.zip utxos).map (brought pv c)).sum : Nat) := by
    exact sum_cast _ _
  rw [e1, e2] at this
  exact_mod_cast this

/-- adding up fees: every currency and every lock distance adds up -/
theorem mergeAmountMaps_ok {l r m : BMap Nat Nat} (h : mergeAmountMaps l r = .ok m) :
    (∀ k, amt m k = amt l k + amt r k) ∧
    ∀ (p : Nat → Prop) [DecidablePred p], m.sumV (fun k v => if p k then v else 0) =
      l.sumV (fun k v => if p k then v else 0) + r.sumV (fun k v => if p k then v else 0) := by
  have gen : ∀ (es : List (Nat × Nat)) (l : BMap Nat Nat),
      es.foldlM (fun m kv => insertOrIncrease m kv.1 kv.2) l = .ok m →
      (∀ k, amt m k = amt l k + sumAt es k) ∧
      ∀ (p : Nat → Prop) [DecidablePred p], m.sumV (fun k v => if p k then v else 0) =
        l.sumV (fun k v => if p k then v else 0) + (es.map (fun kv => if p kv.1 then kv.2 else 0)).sum := by
    intro es
    induction es with
    | nil => intro l h; cases h; simp [sumAt]
    | cons x es ih =>
      intro l h
      rw [List.foldlM_cons, bind_eq_ok] at h
      obtain ⟨m1, h1, h2⟩ := h
      obtain ⟨i1, i2⟩ := ih m1 h2
      refine ⟨fun k => ?_, fun p _ => ?_⟩
      · rw [i1, amt_increase h1]
        simp only [sumAt, List.map_cons, List.sum_cons, eq_comm (a := k)]
        omega
      · rw [i2 p, sumV_increase h1 p]
        simp only [List.map_cons, List.sum_cons]
        omega
  obtain ⟨g1, g2⟩ := gen r.entries l h
  refine ⟨fun k => by rw [g1, sumAt_entries], fun p _ => g2 p⟩

/-- **C20** (fees of a block).  Combining two transactions' left-overs adds them up, currency by currency and lock by
lock; and what a block hands to its producer is the combined unlocked coins plus the coins whose lock does not exceed the
staking maturity. -/
theorem C20_fees_combine (a b s : Acc) (h : a.combine b = .ok s) :
    (∀ c, s.total c = a.total c + b.total c) ∧ (∀ d, s.lockedFrom d = a.lockedFrom d + b.lockedFrom d) ∧
      ∀ d, s.upTo d = a.upTo d + b.upTo d := by
  simp only [Acc.combine, bind_eq_ok, pure_eq_ok] at h
  obtain ⟨u, h1, l, h2, rfl⟩ := h
  obtain ⟨a1, _⟩ := mergeAmountMaps_ok h1
  obtain ⟨_, b2⟩ := mergeAmountMaps_ok h2
  refine ⟨fun c => ?_, fun d => b2 (fun k => d ≤ k), fun d => ?_⟩
  · have := b2 (fun _ => True)
    simp only [if_true] at this
    rw [total_def, total_def, total_def]
    simp only [a1, this]
    split <;> omega
  · have e1 := b2 (fun k => k ≤ d)
    have e2 := a1 0
    unfold amt at e2
    unfold Acc.upTo
    rw [e1, e2]
    omega

theorem sumAmounts_ok {l : List Nat} {n : Nat} (h : sumAmounts l = some n) : n = l.sum := by
  have gen : ∀ (l : List Nat) (a n : Nat), l.foldlM (fun a x => Amt.add a x) a = some n → n = a + l.sum := by
    intro l
    induction l with
    | nil => intro a n h; cases h; simp
    | cons x l ih =>
      intro a n h
      rw [List.foldlM_cons] at h
      cases hx : Amt.add a x with
      | none => rw [hx] at h; cases h
      | some y =>
        rw [hx] at h
        obtain ⟨_, rfl⟩ := Amt_add_some.1 hx
        rw [ih _ _ h, List.sum_cons]
        omega
  simpa using gen l 0 n h

/-- **C20** (what the block producer gets) -/
theorem C20_block_fees (a : Acc) (maturity n : Nat) (h : blockFees a maturity = .ok n) : n = a.upTo maturity := by
  simp only [blockFees, bind_eq_ok, okOr_eq_ok, Amt_add_some] at h
  obtain ⟨t, h1, _, rfl⟩ := h
  rw [sumAmounts_ok h1]
  unfold Acc.upTo amt coin BMap.sumV
  beta_reduce
  congr 1
  generalize a.locked.entries = es
  induction es with
  | nil => rfl
  | cons x es ih =>
    simp only [List.map_cons, List.sum_cons, List.filter_cons, decide_eq_true_eq]
    split
    · simp only [List.map_cons, List.sum_cons, ih]
    · rw [ih]; omega

/-! ## C21 -/

/-- **C21** (accumulators).  For every lock distance `d`: coins that must stay locked for at least `d` blocks end up in
outputs locked for at least `d` blocks or remain in the left-over, still marked as locked for at least `d`. -/
theorem C21_locks_respected (i o fee : Acc) (h : satisfyWith i o = .ok fee) (d : Nat) :
    i.lockedFrom d ≤ o.lockedFrom d + fee.lockedFrom d := by
  simp only [satisfyWith, bind_eq_ok] at h
  obtain ⟨u, h1, h2⟩ := h
  obtain ⟨_, _, b3⟩ := locked_fold h2
  have := b3 d
  unfold Acc.lockedFrom at this ⊢
  unfold BMap.sumV at this ⊢
  simp only at this ⊢
  omega

/-- **C21** (transactions).  Coins a transaction takes out of staking (pool owners' coins and delegations) all end up in
outputs locked for at least the maturity distance, or in the fee, marked with a lock of at least that distance. -/
theorem C21_unstaked_coins_stay_locked (cfg : Config) (ov : Orders.View) (pv : Pos.View) (tv : Tokens.View)
    (inputs : List TxInput) (utxos : List (Option TxOutput)) (outs : List TxOutput) (i o fee : Acc)
    (hov : Orders.SoundView ov) (hm : cfg.maturity ≠ 0)
    (hi : fromInputs cfg ov pv tv inputs utxos = .ok i) (ho : fromOutputs cfg outs = .ok o)
    (hs : satisfyWith i o = .ok fee) :
    ((inputs.zip utxos).map (unstaked pv)).sum ≤
      (outs.map (lockedOut cfg.maturity)).sum + fee.lockedFrom cfg.maturity := by
  obtain ⟨_, h1, _⟩ := fromInputs_ok hov hi
  have a1 := h1 cfg.maturity
  rw [if_pos ⟨hm, le_refl _⟩] at a1
  have a2 := C21_locks_respected i o fee hs cfg.maturity
  have a3 := (outputs_ok ho).2 cfg.maturity
  have z : Acc.lockedFrom Acc.empty cfg.maturity = 0 := by simp [Acc.lockedFrom, Acc.empty]
  omega

/-! ### Concrete cases -/

/-- 10 free coins, 5 coins locked for 3 blocks, 7 for 8 blocks; outputs 4 free, 6 for 5 blocks, 9 for 8 blocks -/
def exIn : Acc := ⟨.ofList [(0, 10)], .ofList [(3, 5), (8, 7)]⟩
def exOut : Acc := ⟨.ofList [(0, 4)], .ofList [(5, 6), (8, 9)]⟩

example : ∃ fee, satisfyWith exIn exOut = .ok fee ∧ (fee.total 0 = 3 ∧ fee.lockedFrom 1 = 0) := by
  obtain ⟨r, h1, h2⟩ := okAnd_spec (x := satisfyWith exIn exOut)
    (P := fun fee => decide (fee.total 0 = 3 ∧ fee.lockedFrom 1 = 0)) (by decide +kernel)
  exact ⟨r, h1, of_decide_eq_true h2⟩

/-- the same outputs with the 9 coins locked for one block less are refused although there is enough in total -/
example : (satisfyWith exIn ⟨.ofList [(0, 11)], .ofList [(5, 6)]⟩).isOk = false := by decide +kernel

/-- order 7 asks 100 coins for 50 of token 3, 30 coins already paid -/
def exOrder : Orders.OrderData := ⟨1, .coin 100, .tokenV1 3 50, false⟩
def exOrders : Orders.DB := ⟨.ofList [(7, exOrder)], .ofList [(7, 70)], .ofList [(7, 35)]⟩
/-- pool 9 of whose coins the owner has 40 + 2 -/
def exPools : Pos.DB := ⟨.ofList [(9, ⟨1, 40, 2, 0, 0, 0⟩)], .ofList [(9, 42)], .empty, .empty, .empty⟩
def exCfg : Config := ⟨100, 5, 6, 7, 8, 9, 10, 11, .v1⟩

theorem exOrders_sound : Orders.SoundView exOrders.view := by
  intro id
  by_cases h : id = 7
  · subst h
    exact ⟨some exOrder, 70, 35, by decide, by decide, by decide, 100, 50, by decide⟩
  · refine ⟨none, 0, 0, ?_, ?_, ?_, rfl, rfl⟩ <;>
      simp [Orders.DB.view, exOrders, BMap.ofList, bal, BMap.get_insert, h]

/-- spend 200 coins, decommission pool 9, pay 20 coins into order 7, lock a token's supply -/
def exInputs : List TxInput := [.utxo, .utxo, .fillOrder 7 20, .lockSupply 3]
def exUtxos : List (Option TxOutput) := [some (.transfer (.coin 200)), some (.createStakePool 9 40), none, none]
/-- 150 coins and the 10 tokens bought, 40 coins locked for the maturity distance -/
def exOuts : List TxOutput :=
  [.transfer (.coin 150), .transfer (.tokenV1 3 10), .lockThenTransfer (.coin 40) (.forBlockCount 100)]

/-- all hypotheses of the transaction-level theorems hold; the left-over is 25 free coins and 2 locked ones -/
example : ∃ i o fee, fromInputs exCfg exOrders.view exPools.view Tokens.emptyDB.view exInputs exUtxos = .ok i ∧
    fromOutputs exCfg exOuts = .ok o ∧ satisfyWith i o = .ok fee ∧
    fee.total 0 = 27 ∧ fee.lockedFrom 100 = 2 ∧ fee.total 4 = 0 := by
  obtain ⟨i, h1, k1⟩ := okAnd_spec
    (x := fromInputs exCfg exOrders.view exPools.view Tokens.emptyDB.view exInputs exUtxos)
    (P := fun i => okAnd (fromOutputs exCfg exOuts) (fun o => okAnd (satisfyWith i o)
      (fun fee => decide (fee.total 0 = 27 ∧ fee.lockedFrom 100 = 2 ∧ fee.total 4 = 0)))) (by decide +kernel)
  obtain ⟨o, h2, k2⟩ := okAnd_spec k1
  obtain ⟨fee, h3, k3⟩ := okAnd_spec k2
  exact ⟨i, o, fee, h1, h2, h3, of_decide_eq_true k3⟩

/-- sending the owner's coins to an unlocked output instead is refused -/
example : (do
    let i ← fromInputs exCfg exOrders.view exPools.view Tokens.emptyDB.view exInputs exUtxos
    let o ← fromOutputs exCfg [.transfer (.coin 190)]
    satisfyWith i o).isOk = false := by decide +kernel

/-- two left-overs combined, and what the producer gets at maturity 5 -/
example : ∃ s, exIn.combine exOut = .ok s ∧ blockFees s 5 = .ok 25 := by
  obtain ⟨r, h1, h2⟩ := okAnd_spec (x := exIn.combine exOut)
    (P := fun s => okAnd (blockFees s 5) (fun n => decide (n = 25))) (by decide +kernel)
  obtain ⟨n, h3, h4⟩ := okAnd_spec h2
  rw [of_decide_eq_true h4] at h3
  exact ⟨r, h1, h3⟩

end Verif.Accumulator
