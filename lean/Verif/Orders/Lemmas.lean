import Verif.Orders.Model

namespace Verif.Orders
open Verif Verif.Accounting

@[simp] theorem lift_ok {A : Type} {x : Except Accounting.Err A} {a : A} : lift x = .ok a ↔ x = .ok a :=
  mapError_ok

theorem createOrder_ok {c c' : Cache} {id : OrderId} {d : OrderData} {u : Undo}
    (h : createOrder c id d = .ok (c', u)) :
    ∃ oa og data du ask give,
      c.view.data id = .ok none ∧ c.view.ask id = .ok 0 ∧
      outputValueAmount d.ask = .ok oa ∧ outputValueAmount d.give = .ok og ∧ 0 < oa ∧ 0 < og ∧
      mergeDeltaDataElement c.delta.data id ⟨none, some d⟩ = .ok (data, du) ∧
      addUnsigned c.delta.ask id oa = .ok ask ∧ addUnsigned c.delta.give id og = .ok give ∧
      c' = { c with delta := ⟨data, ask, give⟩ } ∧ u = .create id du oa og := by
  simp only [createOrder, bind_eq_ok, ensure_eq_ok, lift_ok, pure_eq_ok, Prod.mk.injEq] at h
  obtain ⟨od, h1, _, h2, ab, h3, _, rfl, oa, h4, og, h5, _, ⟨h6, h7⟩, ⟨data, du⟩, h8, ask, h9, give, h10, rfl, rfl⟩ := h
  have : od = none := by simpa using h2
  subst this
  exact ⟨oa, og, data, du, ask, give, h1, h3, h4, h5, h6, h7, h8, h9, h10, rfl, rfl⟩

theorem concludeOrder_ok {c c' : Cache} {id : OrderId} {u : Undo}
    (h : concludeOrder c id = .ok (c', u)) :
    ∃ d ab gb data du ask give,
      c.view.data id = .ok (some d) ∧ c.view.ask id = .ok ab ∧ c.view.give id = .ok gb ∧
      mergeDeltaDataElement c.delta.data id ⟨some d, none⟩ = .ok (data, du) ∧
      subUnsigned c.delta.ask id ab = .ok ask ∧ subUnsigned c.delta.give id gb = .ok give ∧
      c' = { c with delta := ⟨data, ask, give⟩ } ∧ u = .conclude id du ab gb := by
  simp only [concludeOrder, bind_eq_ok, okOr_eq_ok, lift_ok, pure_eq_ok, Prod.mk.injEq] at h
  obtain ⟨od, h1, d, rfl, ab, h3, gb, h4, ⟨data, du⟩, h8, ask, h9, give, h10, rfl, rfl⟩ := h
  exact ⟨d, ab, gb, data, du, ask, give, h1, h3, h4, h8, h9, h10, rfl, rfl⟩

theorem fillOrder_ok {c c' : Cache} {id : OrderId} {fill : Nat} {ver : Version} {u : Undo}
    (h : fillOrder c id fill ver = .ok (c', u)) :
    ∃ d filled ask give,
      c.view.data id = .ok (some d) ∧ d.isFrozen = false ∧
      calculateFillOrder c.view id fill ver = .ok filled ∧
      subUnsigned c.delta.give id filled = .ok give ∧ subUnsigned c.delta.ask id fill = .ok ask ∧
      c' = { c with delta := { c.delta with ask := ask, give := give } } ∧ u = .fill id fill filled := by
  simp only [fillOrder, bind_eq_ok, okOr_eq_ok, ensure_eq_ok, lift_ok, pure_eq_ok, Prod.mk.injEq] at h
  obtain ⟨od, h1, d, rfl, _, h2, filled, h3, give, h9, ask, h10, rfl, rfl⟩ := h
  exact ⟨d, filled, ask, give, h1, h2, h3, h9, h10, rfl, rfl⟩

theorem freezeOrder_ok {c c' : Cache} {id : OrderId} {u : Undo}
    (h : freezeOrder c id = .ok (c', u)) :
    ∃ d data du,
      c.view.data id = .ok (some d) ∧ d.isFrozen = false ∧
      mergeDeltaDataElement c.delta.data id ⟨some d, some { d with isFrozen := true }⟩ = .ok (data, du) ∧
      c' = { c with delta := { c.delta with data := data } } ∧ u = .freeze id du := by
  simp only [freezeOrder, bind_eq_ok, okOr_eq_ok, lift_ok, pure_eq_ok, Prod.mk.injEq] at h
  obtain ⟨od, h1, d, rfl, new, h2, ⟨data, du⟩, h8, rfl, rfl⟩ := h
  unfold OrderData.tryFreeze at h2
  split at h2
  · cases h2
  · rename_i hf
    cases h2
    exact ⟨d, data, du, h1, by simpa using hf, h8, rfl, rfl⟩

theorem calculateFilledAmount_some {ask give fill r : Nat} :
    calculateFilledAmount ask give fill = some r ↔
      ask ≠ 0 ∧ r < U128 ∧ r = give * fill / ask := by
  unfold calculateFilledAmount
  split
  · simp_all
  · split
    · rename_i h1 h2
      simp only [Option.some.injEq, ne_eq, h1, not_false_eq_true, true_and]
      constructor
      · rintro rfl; exact ⟨h2, rfl⟩
      · rintro ⟨_, rfl⟩; rfl
    · rename_i h1 h2
      simp only [reduceCtorEq, ne_eq, h1, not_false_eq_true, true_and, false_iff, not_and]
      rintro h3 rfl
      exact h2 h3

theorem fillV0_ok {v : View} {id : OrderId} {fill r : Nat} :
    fillV0 v id fill = .ok r ↔
      ∃ a g, v.ask id = .ok a ∧ v.give id = .ok g ∧ fill ≤ a ∧ a ≠ 0 ∧ r < U128 ∧ r = g * fill / a := by
  simp only [fillV0, bind_eq_ok, okOr_eq_ok, ensure_eq_ok, calculateFilledAmount_some]
  constructor
  · rintro ⟨a, h1, g, h2, _, h3, h4⟩; exact ⟨a, g, h1, h2, h3, h4⟩
  · rintro ⟨a, g, h1, h2, h3, h4⟩; exact ⟨a, h1, g, h2, (), h3, h4⟩

theorem fillV1_ok {v : View} {id : OrderId} {fill r : Nat} :
    fillV1 v id fill = .ok r ↔
      ∃ d oa og a, v.data id = .ok (some d) ∧ outputValueAmount d.ask = .ok oa ∧
        outputValueAmount d.give = .ok og ∧ v.ask id = .ok a ∧ fill ≤ a ∧ oa ≠ 0 ∧ r < U128 ∧
        r = og * fill / oa ∧ 0 < r := by
  simp only [fillV1, bind_eq_ok, okOr_eq_ok, ensure_eq_ok, calculateFilledAmount_some, pure_eq_ok]
  constructor
  · rintro ⟨od, h1, d, rfl, oa, h2, og, h3, a, h4, _, h5, r', ⟨h6, h7, h8⟩, _, h9, rfl⟩
    exact ⟨d, oa, og, a, h1, h2, h3, h4, h5, h6, h7, h8, h9⟩
  · rintro ⟨d, oa, og, a, h1, h2, h3, h4, h5, h6, h7, h8, h9⟩
    exact ⟨_, h1, d, rfl, oa, h2, og, h3, a, h4, (), h5, r, ⟨h6, h7, h8⟩, (), h9, rfl⟩

/-! ### Well-formed caches, extension, undo -/

/-- amount layers are well formed -/
def WF (c : Cache) : Prop := WFA c.delta.ask ∧ WFA c.delta.give

/-- `t` equals `c` up to "no change" data entries -/
def Ext (c t : Cache) : Prop :=
  t.parent = c.parent ∧ t.delta.ask = c.delta.ask ∧ t.delta.give = c.delta.give ∧
  ExtD c.parent.data c.delta.data t.delta.data

theorem Ext.refl (c : Cache) : Ext c c := ⟨rfl, rfl, rfl, ExtD.refl _ _⟩

theorem Ext.view {c t : Cache} (h : Ext c t) : t.view = c.view := by
  obtain ⟨h1, h2, h3, h4⟩ := h
  unfold Cache.view
  rw [h1, h2, h3]
  congr 1
  funext id
  exact h4.getVal id

theorem step_parent {c c' : Cache} {op : Op} {u : Undo} (h : step c op = .ok (c', u)) :
    c'.parent = c.parent := by
  cases op with
  | create id d =>
    obtain ⟨_, _, _, _, _, _, _, _, _, _, _, _, _, _, _, rfl, _⟩ := createOrder_ok h; rfl
  | conclude id =>
    obtain ⟨_, _, _, _, _, _, _, _, _, _, _, _, _, rfl, _⟩ := concludeOrder_ok h; rfl
  | fill id a v =>
    obtain ⟨_, _, _, _, _, _, _, _, _, rfl, _⟩ := fillOrder_ok h; rfl
  | freeze id =>
    obtain ⟨_, _, _, _, _, _, rfl, _⟩ := freezeOrder_ok h; rfl

theorem step_WF {c c' : Cache} {op : Op} {u : Undo} (hw : WF c) (h : step c op = .ok (c', u)) : WF c' := by
  obtain ⟨w1, w2⟩ := hw
  cases op with
  | create id d =>
    obtain ⟨_, _, _, _, _, _, _, _, _, _, _, _, _, h1, h2, rfl, _⟩ := createOrder_ok h
    exact ⟨w1.add h1, w2.add h2⟩
  | conclude id =>
    obtain ⟨_, _, _, _, _, _, _, _, _, _, _, h1, h2, rfl, _⟩ := concludeOrder_ok h
    exact ⟨w1.sub h1, w2.sub h2⟩
  | fill id a v =>
    obtain ⟨_, _, _, _, _, _, _, h1, h2, rfl, _⟩ := fillOrder_ok h
    exact ⟨w1.sub h2, w2.sub h1⟩
  | freeze id =>
    obtain ⟨_, _, _, _, _, _, rfl, _⟩ := freezeOrder_ok h
    exact ⟨w1, w2⟩

/-- reading a balance which was zero, after an addition -/
theorem getBal_zero_add {parent : OrderId → Except Err Nat} {c r : AmountColl OrderId} {k : OrderId} {a : Nat}
    (h0 : getBal .accounting parent c k = .ok 0) (hm : addUnsigned c k a = .ok r) :
    getBal .accounting parent r k = .ok a := by
  obtain ⟨p, hp, e1, e2⟩ := getBal_ok.1 h0
  have ha := (addUnsigned_ok.1 hm).1
  refine getBal_ok.2 ⟨p, hp, ?_, ?_⟩
  · rw [dval_add hm]; simp only [if_true]; omega
  · intro _
    refine ⟨?_, ha⟩
    cases hc : c.get k with
    | none =>
      rw [hc] at e1
      have : (0:Int) < I128 := by decide
      simp only [dval_none] at e1
      omega
    | some x => rw [hc] at e2; exact (e2 rfl).1

/-- reading a balance after all of it was subtracted -/
theorem getBal_sub_all {parent : OrderId → Except Err Nat} {c r : AmountColl OrderId} {k : OrderId} {a : Nat}
    (h0 : getBal .accounting parent c k = .ok a) (hm : subUnsigned c k a = .ok r) :
    getBal .accounting parent r k = .ok 0 := by
  obtain ⟨p, hp, e1, e2⟩ := getBal_ok.1 h0
  have ha := (subUnsigned_ok.1 hm).1
  refine getBal_ok.2 ⟨p, hp, ?_, ?_⟩
  · rw [dval_sub hm]; simp only [if_true]; omega
  · intro _
    have : (0:Int) < I128 := by decide
    refine ⟨?_, by omega⟩
    cases hc : c.get k with
    | none => rw [hc] at e1; simp only [dval_none] at e1; omega
    | some x => rw [hc] at e2; exact (e2 rfl).1

/-- undo of one operation, applied to an extension of the state after it -/
theorem undo_step {c c' t' : Cache} {op : Op} {u : Undo} (hw : WF c)
    (hg : ∀ id, c.view.data id = .ok none → c.view.give id = .ok 0)
    (h : step c op = .ok (c', u)) (hx : Ext c' t') : ∃ t, undo t' u = .ok t ∧ Ext c t := by
  have hview := hx.view
  obtain ⟨x1, x2, x3, x4⟩ := hx
  obtain ⟨w1, w2⟩ := hw
  cases op with
  | create id d =>
    obtain ⟨oa, og, data, du, ask, give, h1, h2, h3, h4, h5, h6, h7, h8, h9, rfl, rfl⟩ := createOrder_ok h
    simp only at x1 x2 x3 x4
    obtain ⟨td, e1, e2⟩ := undoElem h1 h7 x4
    refine ⟨{ t' with delta := ⟨td, c.delta.ask, c.delta.give⟩ }, ?_, x1, rfl, rfl, e2⟩
    simp only [undo, bind_eq_ok, ensure_eq_ok, lift_ok, pure_eq_ok, hview]
    refine ⟨oa, getBal_zero_add h2 h8, (), rfl, c.delta.ask, ?_, og, getBal_zero_add (hg id h1) h9, (), rfl,
      c.delta.give, ?_, some d, ?_, (), rfl, td, e1, rfl⟩
    · rw [x2]; exact add_sub_cancel' w1 h8
    · rw [x3]; exact add_sub_cancel' w2 h9
    · exact (getVal_merged h7 id).trans (if_pos rfl)
  | conclude id =>
    obtain ⟨d, ab, gb, data, du, ask, give, h1, h2, h3, h7, h8, h9, rfl, rfl⟩ := concludeOrder_ok h
    simp only at x1 x2 x3 x4
    obtain ⟨td, e1, e2⟩ := undoElem h1 h7 x4
    refine ⟨{ t' with delta := ⟨td, c.delta.ask, c.delta.give⟩ }, ?_, x1, rfl, rfl, e2⟩
    simp only [undo, bind_eq_ok, ensure_eq_ok, lift_ok, pure_eq_ok, hview]
    refine ⟨none, ?_, (), rfl, td, e1, 0, getBal_sub_all h2 h8, (), rfl, c.delta.ask, ?_, 0,
      getBal_sub_all h3 h9, (), rfl, c.delta.give, ?_, rfl⟩
    · exact (getVal_merged h7 id).trans (if_pos rfl)
    · rw [x2]; exact sub_add_cancel' w1 h8
    · rw [x3]; exact sub_add_cancel' w2 h9
  | fill id a v =>
    obtain ⟨d, filled, ask, give, h1, h2, h3, h4, h5, rfl, rfl⟩ := fillOrder_ok h
    simp only at x1 x2 x3 x4
    refine ⟨{ t' with delta := { t'.delta with ask := c.delta.ask, give := c.delta.give } }, ?_,
      x1, rfl, rfl, x4⟩
    simp only [undo, bind_eq_ok, lift_ok, pure_eq_ok]
    refine ⟨c.delta.ask, ?_, c.delta.give, ?_, rfl⟩
    · rw [x2]; exact sub_add_cancel' w1 h5
    · rw [x3]; exact sub_add_cancel' w2 h4
  | freeze id =>
    obtain ⟨d, data, du, h1, h2, h7, rfl, rfl⟩ := freezeOrder_ok h
    simp only at x1 x2 x3 x4
    obtain ⟨td, e1, e2⟩ := undoElem h1 h7 x4
    refine ⟨{ t' with delta := { t'.delta with data := td } }, ?_, x1, x2, x3, e2⟩
    simp only [undo, bind_eq_ok, ensure_eq_ok, lift_ok, pure_eq_ok, hview]
    exact ⟨some { d with isFrozen := true }, (getVal_merged h7 id).trans (if_pos rfl), (), rfl, td, e1, rfl⟩

theorem calculateFillOrder_congr {c t : Cache} (h : t.view = c.view) (id : OrderId) (a : Nat) (v : Version) :
    calculateFillOrder t.view id a v = calculateFillOrder c.view id a v := by rw [h]

/-- an operation accepted on an extension is accepted, with the same report, on the original -/
theorem ext_step {c t t' : Cache} {op : Op} {u : Undo} (hx : Ext c t) (h : step t op = .ok (t', u)) :
    ∃ c', step c op = .ok (c', u) ∧ Ext c' t' := by
  have hview := hx.view
  obtain ⟨x1, x2, x3, x4⟩ := hx
  cases op with
  | create id d =>
    simp only [step, createOrder, bind_eq_ok, ensure_eq_ok, lift_ok, pure_eq_ok, Prod.mk.injEq, hview, x2, x3] at h ⊢
    obtain ⟨od, h1, _, h2, ab, h3, _, rfl, oa, h4, og, h5, _, h6, ⟨data, du⟩, h8, ask, h9, give, h10, rfl, rfl⟩ := h
    have : od = none := by simpa using h2
    subst this
    obtain ⟨data', g1, g2⟩ := x4.mergeElem h8 h1
    exact ⟨_, ⟨none, h1, (), h2, 0, h3, (), rfl, oa, h4, og, h5, (), h6, ⟨data', du⟩, g1, ask, h9, give, h10, rfl,
      rfl⟩, x1, rfl, rfl, g2⟩
  | conclude id =>
    simp only [step, concludeOrder, bind_eq_ok, okOr_eq_ok, lift_ok, pure_eq_ok, Prod.mk.injEq, hview, x2, x3] at h ⊢
    obtain ⟨od, h1, d, rfl, ab, h3, gb, h4, ⟨data, du⟩, h8, ask, h9, give, h10, rfl, rfl⟩ := h
    obtain ⟨data', g1, g2⟩ := x4.mergeElem h8 h1
    exact ⟨_, ⟨some d, h1, d, rfl, ab, h3, gb, h4, ⟨data', du⟩, g1, ask, h9, give, h10, rfl, rfl⟩, x1, rfl, rfl, g2⟩
  | fill id a v =>
    simp only [step, fillOrder, bind_eq_ok, okOr_eq_ok, ensure_eq_ok, lift_ok, pure_eq_ok, Prod.mk.injEq, hview,
      x2, x3] at h ⊢
    obtain ⟨od, h1, d, rfl, _, h2, filled, h3, give, h9, ask, h10, rfl, rfl⟩ := h
    exact ⟨_, ⟨some d, h1, d, rfl, (), h2, filled, h3, give, h9, ask, h10, rfl, rfl⟩, x1, rfl, rfl, x4⟩
  | freeze id =>
    simp only [step, freezeOrder, bind_eq_ok, okOr_eq_ok, lift_ok, pure_eq_ok, Prod.mk.injEq, hview] at h ⊢
    obtain ⟨od, h1, d, rfl, new, h2, ⟨data, du⟩, h8, rfl, rfl⟩ := h
    obtain ⟨data', g1, g2⟩ := x4.mergeElem h8 h1
    exact ⟨_, ⟨some d, h1, d, rfl, new, h2, ⟨data', du⟩, g1, rfl, rfl⟩, x1, x2, x3, g2⟩

end Verif.Orders
