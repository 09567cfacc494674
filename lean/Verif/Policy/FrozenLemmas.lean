import Verif.Policy.FrozenSpec
import Verif.Policy.NodeRange

/-!
# Lemmas for C56
-/

namespace Verif.Policy
open Verif
open Verif.Verifier
open Verif.Utxo (OutPoint Coin Output txOut rewardOut)
open Verif.Accumulator (Cur TxOutput)

namespace Untouched
variable {read : Nat → TxOutput} {V : Prop} {id : Nat} {s s' s'' : St}

theorem refl (s : St) : Untouched read V id s s where
  data := rfl
  supply := rfl
  noOutput _ _ _ h := h
  output _ _ _ _ h := h
  order _ d h _ := ⟨⟨d.isFrozen, h⟩, rfl, rfl⟩
  noOrder _ d h hd := ⟨d, h, hd⟩

theorem trans (h : Untouched read V id s s') (h' : Untouched read V id s' s'') : Untouched read V id s s'' where
  data := h'.data.trans h.data
  supply := h'.supply.trans h.supply
  noOutput o x hx ho := h.noOutput o x hx (h'.noOutput o x hx ho)
  output hv o x hx ho := h'.output hv o x hx (h.output hv o x hx ho)
  order i d hd hu := by
    obtain ⟨⟨f, h1⟩, h2, h3⟩ := h.order i d hd hu
    obtain ⟨⟨f', g1⟩, g2, g3⟩ := h'.order i _ h1 hu
    exact ⟨⟨f', g1⟩, g2.trans h2, g3.trans h3⟩
  noOrder i d hd hu := by
    obtain ⟨d1, h1, hu1⟩ := h'.noOrder i d hd hu
    exact h.noOrder i d1 h1 hu1

end Untouched

/-! ### Tokens -/

theorem tokM_frozen {s s' : Tokens.Sv} {op : Tokens.Op} (h : tokM s op s') (ht : ∃ t, Tokens.Rep t s) {id : Nat}
    {d : Tokens.TokenData} (hd : s.data id = some d) (hf : d.isFrozen = true)
    (hop : op = .unfreeze id → d.frozen = .yes false) :
    s'.data id = some d ∧ s'.supply id = s.supply id := by
  obtain ⟨u, m⟩ := h
  obtain ⟨t, ht⟩ := ht
  obtain ⟨t', h1, h2⟩ := m.fwd t ht
  have hv : t.view.data id = .ok (some d) := by rw [ht.vData, hd]
  rcases Tokens.step_cases h1 with ⟨i, cur, new, data, du, tr, a1, a2, rfl, -, -, -⟩ |
    ⟨i, a, d', supply, rfl, rfl, a1, a2, a3, a4, rfl⟩ | ⟨i, a, d', x, supply, rfl, rfl, a1, a2, a3, a4, a5, a6, rfl⟩
  · have hc : s.data i = cur := Except.ok.inj ((ht.vData i).symm.trans a1)
    have hi : id ≠ i := by
      rintro rfl
      rw [hd] at hc
      subst hc
      cases tr <;> simp_all [Tokens.TokenData.isFrozen]
    refine ⟨?_, by rw [h2.supply.inj ht.supply]⟩
    rw [h2.data.inj (ht.data.of_merge hc a2).2]
    simp [Function.update_of_ne hi, hd]
  · have hi : id ≠ i := by
      rintro rfl
      rw [hv] at a1
      cases a1
      rw [hf] at a2
      cases a2
    obtain ⟨v, hv'⟩ := h2.readable i
    refine ⟨by rw [h2.data.inj ht.data]; exact hd, ?_⟩
    rw [h2.supply.inj (ht.supply.of_add a4 hv').2, Function.update_of_ne hi]
  · have hi : id ≠ i := by
      rintro rfl
      rw [hv] at a1
      cases a1
      rw [hf] at a2
      cases a2
    obtain ⟨v, hv'⟩ := h2.readable i
    refine ⟨by rw [h2.data.inj ht.data]; exact hd, ?_⟩
    rw [h2.supply.inj (ht.supply.of_sub a6 hv').2, Function.update_of_ne hi]

theorem tok_frozen {s s' : Tokens.Sv} {ops : List Tokens.Op} (h : Verifier.Chain tokM s ops s') : (∃ t, Tokens.Rep t s) → ∀ {id : Nat}
    {d : Tokens.TokenData}, s.data id = some d → d.isFrozen = true → (Tokens.Op.unfreeze id ∈ ops → d.frozen = .yes false) →
    s'.data id = some d ∧ s'.supply id = s.supply id := by
  induction h with
  | nil => intro _ id d hd _ _; exact ⟨hd, rfl⟩
  | cons hm _ ih =>
    intro ht id d hd hf hop
    obtain ⟨h1, h2⟩ := tokM_frozen hm ht hd hf (fun e => hop (by simp [e]))
    obtain ⟨h3, h4⟩ := ih (tokM_rep hm ht) h1 hf (fun e => hop (by simp [e]))
    exact ⟨h3, h4.trans h2⟩

theorem tokIns_unfreeze {tx : Tx} {is : List Input} {ops : List Tokens.Op} (h : TokIns tx is ops) {id : Nat}
    (hm : Tokens.Op.unfreeze id ∈ ops) : ∃ n, Input.token n (.unfreeze id) ∈ is := by
  induction h with
  | nil => cases hm
  | cons hi _ ih =>
    rw [List.mem_append] at hm
    rcases hm with hm | hm
    · cases hi with
      | other => cases hm
      | @token n cmd op ho =>
        cases cmd with
        | unmint i =>
          simp only [tokenOp, bind_eq_ok, pure_eq_ok] at ho
          obtain ⟨b, -, rfl⟩ := ho
          split at hm <;> simp at hm
        | _ =>
          simp only [tokenOp, Except.ok.injEq] at ho
          subst ho
          simp at hm
          try (subst hm; exact ⟨n, by simp⟩)
    · obtain ⟨n, hn⟩ := ih hm
      exact ⟨n, by simp [hn]⟩

/-! ### Orders -/

/-- the orders trading a token are as they were -/
structure SameOrders (id : Nat) (s s' : Orders.Sv) : Prop where
  order : ∀ i d, s.data i = some d → Trades id d → (∃ f, s'.data i = some { d with isFrozen := f }) ∧
    s'.ask i = s.ask i ∧ s'.give i = s.give i
  noOrder : ∀ i d, s'.data i = some d → Trades id d → ∃ d, s.data i = some d ∧ Trades id d

theorem SameOrders.trans {id : Nat} {s s' s'' : Orders.Sv} (h : SameOrders id s s') (h' : SameOrders id s' s'') :
    SameOrders id s s'' where
  order i d hd hu := by
    obtain ⟨⟨f, h1⟩, h2, h3⟩ := h.order i d hd hu
    obtain ⟨⟨f', g1⟩, g2, g3⟩ := h'.order i _ h1 hu
    exact ⟨⟨f', g1⟩, g2.trans h2, g3.trans h3⟩
  noOrder i d hd hu := by
    obtain ⟨d1, h1, hu1⟩ := h'.noOrder i d hd hu
    exact h.noOrder i d1 h1 hu1

/-- an operation that leaves the orders trading a token alone -/
def Spares (id : Nat) (s0 : Orders.Sv) : Orders.Op → Prop
  | .create _ d => ¬ Trades id d
  | .freeze _ => True
  | .fill i _ _ => ∀ d, s0.data i = some d → ¬ Trades id d
  | .conclude i => ∀ d, s0.data i = some d → ¬ Trades id d

theorem ordM_data {s s' : Orders.Sv} {op : Orders.Op} (h : ordM s op s') (ht : ∃ t, Orders.Rep t s) :
    (∀ i a v, op = .fill i a v → s'.data = s.data) ∧ ∀ i, op = .conclude i → s'.data i = none := by
  obtain ⟨u, m⟩ := h
  obtain ⟨t, ht⟩ := ht
  obtain ⟨t', hs, h'⟩ := m.fwd t ht
  refine ⟨?_, ?_⟩
  · rintro i a v rfl
    obtain ⟨d, filled, ask, give, h1, h2, h3, h4, h5, rfl, rfl⟩ := Orders.fillOrder_ok hs
    exact h'.data.inj ht.data
  · rintro i rfl
    obtain ⟨d, ab, gb, data, du, ask, give, h1, h2, h3, h4, h5, h6, rfl, rfl⟩ := Orders.concludeOrder_ok hs
    have hd := Except.ok.inj ((ht.vData i).symm.trans h1)
    rw [h'.data.inj (ht.data.of_merge hd h4).2]
    simp

theorem ord_spared {id : Nat} {s0 s s' : Orders.Sv} {op : Orders.Op} (h0 : SameOrders id s0 s) (hm : ordM s op s')
    (ht : ∃ t, Orders.Rep t s) (hso : s.Sound) (hs : Spares id s0 op) : SameOrders id s s' := by
  have hd := ordM_did hm ht hso
  obtain ⟨hfl, hco⟩ := ordM_data hm ht
  have hother : ∀ i, (∀ d, s.data i = some d → ¬ Trades id d) → (∀ j, j ≠ i → s'.data j = s.data j ∧ s'.ask j = s.ask j ∧
      s'.give j = s.give j) → (∀ d, s'.data i = some d → ¬ Trades id d) → SameOrders id s s' := by
    intro i hi hj hk
    refine ⟨fun j d h1 h2 => ?_, fun j d h1 h2 => ?_⟩
    · have hji : j ≠ i := by
        rintro rfl
        exact hi d h1 h2
      obtain ⟨e1, e2, e3⟩ := hj j hji
      exact ⟨⟨d.isFrozen, by rw [e1, h1]⟩, e2, e3⟩
    · by_cases hji : j = i
      · subst hji; exact absurd h2 (hk d h1)
      · rw [(hj j hji).1] at h1
        exact ⟨d, h1, h2⟩
  have hno : ∀ i, (∀ d, s0.data i = some d → ¬ Trades id d) → ∀ d, s.data i = some d → ¬ Trades id d := by
    intro i hi d h1 h2
    obtain ⟨d0, g1, g2⟩ := h0.noOrder i d h1 h2
    exact hi d0 g1 g2
  cases op with
  | create i d =>
    obtain ⟨oa, og, h1, -, -, e1, e2, e3⟩ := hd
    refine hother i (fun d' h => by rw [h1] at h; cases h) (fun j hj => ?_) (fun d' h => ?_)
    · rw [e1, e2, e3]; simp [Function.update_of_ne hj]
    · rw [e1, Function.update_self] at h
      cases h
      exact hs
  | freeze i =>
    obtain ⟨d, h1, e1, e2, e3⟩ := hd
    refine ⟨fun j d' g1 g2 => ⟨?_, by rw [e2], by rw [e3]⟩, fun j d' g1 g2 => ?_⟩
    · rw [e1]
      by_cases hj : j = i
      · subst hj
        rw [h1] at g1
        cases g1
        exact ⟨true, by simp⟩
      · exact ⟨d'.isFrozen, by rw [Function.update_of_ne hj, g1]⟩
    · rw [e1] at g1
      by_cases hj : j = i
      · subst hj
        rw [Function.update_self] at g1
        cases g1
        exact ⟨d, h1, g2⟩
      · rw [Function.update_of_ne hj] at g1
        exact ⟨d', g1, g2⟩
  | fill i a v => exact hother i (hno i hs) hd (by rw [hfl i a v rfl]; exact hno i hs)
  | conclude i => exact hother i (hno i hs) hd (by rw [hco i rfl]; simp)

theorem ords_spared {id : Nat} {s0 s s' : Orders.Sv} {ops : List Orders.Op} (h : Verifier.Chain ordM s ops s') :
    SameOrders id s0 s → (∃ t, Orders.Rep t s) → s.Sound → (∀ op ∈ ops, Spares id s0 op) → SameOrders id s0 s' := by
  induction h with
  | nil => intro h _ _ _; exact h
  | cons hm _ ih =>
    intro h ht hso hs
    exact ih (h.trans (ord_spared h hm ht hso (hs _ (by simp)))) (ordM_rep hm ht) (ordM_sound hm ht hso)
      (fun op ho => hs op (by simp [ho]))

/-! ### Outputs -/

theorem outPairs_content {mk : Nat → OutPoint} {source : Nat} : ∀ {os : List Output} {i : Nat} {p : OutPoint × Coin},
    p ∈ Utxo.outPairs mk source i os → p.2.output ∈ os
  | [], _, _, h => by cases h
  | o :: os, i, p, h => by
    unfold Utxo.outPairs at h
    split at h
    · rcases List.mem_cons.1 h with rfl | h
      · simp
      · exact List.mem_cons_of_mem _ (outPairs_content h)
    · exact List.mem_cons_of_mem _ (outPairs_content h)

theorem outPairs_in {mk : Nat → OutPoint} {source : Nat} : ∀ {os : List Output} {i : Nat} {p : OutPoint × Coin},
    p ∈ Utxo.outPairs mk source i os → p.2.output.inUtxoSet = true
  | [], _, _, h => by cases h
  | o :: os, i, p, h => by
    unfold Utxo.outPairs at h
    split at h
    · rcases List.mem_cons.1 h with rfl | h
      · assumption
      · exact outPairs_in h
    · exact outPairs_in h

theorem utxo_untouched {read : Nat → TxOutput} {V : Prop} {id : Nat} {f : OutPoint → Option Coin} {ks : List OutPoint}
    {mk : Nat → OutPoint} {source : Nat} {os : List Output} (hmk : ∀ i j, mk i = mk j → i = j)
    (hnew : ∀ j, Utxo.remAll f ks (mk j) = none)
    (hk : V → ∀ k ∈ ks, ∀ x, f k = some x → units id (read x.output.content) = 0)
    (ho : ∀ o ∈ os, o.inUtxoSet = true → units id (read o.content) = 0) (o : OutPoint) (x : Coin)
    (hx : 0 < units id (read x.output.content)) :
    (Utxo.setAll (Utxo.remAll f ks) (Utxo.outPairs mk source 0 os) o = some x → f o = some x) ∧
    (V → f o = some x → Utxo.setAll (Utxo.remAll f ks) (Utxo.outPairs mk source 0 os) o = some x) := by
  have hnd : ((Utxo.outPairs mk source 0 os).map Prod.fst).Nodup := Utxo.outPairs_nodup hmk _ _
  by_cases hm : o ∈ (Utxo.outPairs mk source 0 os).map Prod.fst
  · obtain ⟨p, hp, rfl⟩ := List.mem_map.1 hm
    rw [Utxo.setAll_mem _ _ hnd p hp]
    have hin := outPairs_in hp
    obtain ⟨j, -, hj⟩ := Utxo.outPairs_mem hp
    constructor
    · intro e
      cases e
      rw [ho _ (outPairs_content hp) hin] at hx
      cases hx
    · intro hv e
      exfalso
      have h0 := hnew j
      rw [← hj, Utxo.remAll_apply] at h0
      split at h0
      · rename_i hmem
        rw [hk hv _ hmem x e] at hx
        cases hx
      · rw [e] at h0; cases h0
  · rw [Utxo.setAll_notMem _ _ _ hm, Utxo.remAll_apply]
    split
    · rename_i hmem
      constructor
      · intro e; cases e
      · intro hv e
        rw [hk hv _ hmem x e] at hx
        cases hx
    · exact ⟨fun h => h, fun _ h => h⟩

theorem unitsIn_val (id : Nat) (v : Orders.OutputValue) : unitsIn id v = Accumulator.val (id + 1) v := by
  cases v <;> simp [unitsIn, Accumulator.val, Accumulator.token, Accumulator.coin, eq_comm]

theorem units_pool {o : TxOutput} (h : (poolIn o).isSome) (id : Nat) : units id o = 0 := by
  cases o <;> first | rfl | cases h

/-- block rewards hold no tokens -/
theorem reward_units {env : Env} {read : Nat → TxOutput} {cfgOf : Src → Accumulator.Config} {feeOf : Nat → Accumulator.Acc}
    {subsidy : Nat → Nat} (hg : ValueGuards env read cfgOf feeOf subsidy) {w : Views} {b : Block} {fees : List Nat}
    (h : env.checkReward w b fees = true) (id : Nat) : ∀ o ∈ b.reward.outputs.getD [], units id (read o.content) = 0 := by
  obtain ⟨maturity, n, hn, hin, hpos, hpow⟩ := hg.reward _ _ _ h
  intro x hx
  cases hos : b.reward.outputs with
  | none => rw [hos] at hx; cases hx
  | some os =>
    cases hb : b.pos with
    | true =>
      rw [hos] at hx
      exact units_pool ((hpos hb).1 os hos x hx) id
    | false =>
      obtain ⟨cfg, i, o, r, q1, q2, q3, q4⟩ := hpow hb
      have e1 := Accumulator.C20_satisfy_conserves _ _ _ q3 (id + 1)
      have e2 := (Accumulator.outputs_ok q2).1 (id + 1)
      have z : Accumulator.Acc.total Accumulator.Acc.empty (id + 1) = 0 := by simp [Accumulator.Acc.total, Accumulator.Acc.empty]
      have e3 : i.total (id + 1) = 0 := by
        unfold Accumulator.fromBlockReward at q1
        simp only [Option.bind_eq_bind, Option.bind_eq_some_iff, Option.pure_def, Option.some.injEq] at q1
        obtain ⟨x, hx, rfl⟩ := q1
        simp [Accumulator.Acc.total, Accumulator.coin, BMap.get_insert_ne]
      have e4 : (((b.reward.outputs.getD []).map fun o => read o.content).map (Accumulator.placed cfg (id + 1))).sum = 0 := by
        omega
      rw [List.sum_eq_zero_iff] at e4
      have e5 := e4 _ (List.mem_map_of_mem (List.mem_map_of_mem hx))
      rw [hos] at hx
      obtain ⟨v, lk, hv⟩ := q4 os hos x hx
      rw [hv] at e5 ⊢
      simpa [units, unitsIn_val, Accumulator.placed] using e5

end Verif.Policy
