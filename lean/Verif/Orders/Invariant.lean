import Verif.Orders.Lemmas
import Verif.Orders.Spec
import Mathlib.Tactic.Zify
import Mathlib.Algebra.Order.Ring.Int

namespace Verif.Orders
open Verif Verif.Accounting

theorem I128_pow : I128 = (2:Int)^127 := by norm_num [I128]

theorem outputValueAmount_ok {v : OutputValue} {a : Nat} :
    outputValueAmount v = .ok a ↔ amountOf v = some a := by
  cases v <;> simp [outputValueAmount, amountOf]

theorem Sound.ask_lt {od : Option OrderData} {a g : Nat} (h : Sound od a g) : (a : Int) < I128 := by
  rw [I128_pow]
  cases od with
  | none => obtain ⟨rfl, _⟩ := h; norm_num
  | some d => obtain ⟨oa, og, _, _, _, _, h1, _, h2, _⟩ := h; exact_mod_cast lt_of_le_of_lt h2 h1

theorem Sound.give_lt {od : Option OrderData} {a g : Nat} (h : Sound od a g) : (g : Int) < I128 := by
  rw [I128_pow]
  cases od with
  | none => obtain ⟨_, rfl⟩ := h; norm_num
  | some d => obtain ⟨oa, og, _, _, _, _, _, h1, _, h2, _⟩ := h; exact_mod_cast lt_of_le_of_lt h2 h1

/-- arithmetic core: a fill at the remaining-balance price or at the original price keeps the reserve -/
theorem reserve_v0 {oa og a g fill r : Nat} (ha : a ≠ 0) (hf : fill ≤ a) (hr : r = g * fill / a)
    (hres : og * a ≤ g * oa) : r ≤ g ∧ og * (a - fill) ≤ (g - r) * oa := by
  have h1 : r * a ≤ g * fill := by rw [hr]; exact Nat.div_mul_le_self _ _
  have hrg : r ≤ g := by
    have : r * a ≤ g * a := le_trans h1 (Nat.mul_le_mul_left _ hf)
    exact Nat.le_of_mul_le_mul_right this (Nat.pos_of_ne_zero ha)
  refine ⟨hrg, ?_⟩
  have hapos : 0 < a := Nat.pos_of_ne_zero ha
  -- multiply by a
  refine Nat.le_of_mul_le_mul_right (c := a) ?_ hapos
  have hf' : (fill : ℤ) ≤ a := by exact_mod_cast hf
  zify [hf, hrg] at *
  have e1 : (og:ℤ) * a * (a - fill) ≤ g * oa * (a - fill) :=
    mul_le_mul_of_nonneg_right hres (by linarith [hf'])
  have e2 : (r:ℤ) * a * oa ≤ g * fill * oa := mul_le_mul_of_nonneg_right h1 (by positivity)
  nlinarith

theorem reserve_v1 {oa og a g fill r : Nat} (hoa : 0 < oa) (hf : fill ≤ a) (hr : r = og * fill / oa)
    (hres : og * a ≤ g * oa) : r ≤ g ∧ og * (a - fill) ≤ (g - r) * oa := by
  have h1 : r * oa ≤ og * fill := by rw [hr]; exact Nat.div_mul_le_self _ _
  have hrg : r ≤ g := by
    have : r * oa ≤ g * oa := le_trans h1 (le_trans (Nat.mul_le_mul_left _ hf) hres)
    exact Nat.le_of_mul_le_mul_right this hoa
  refine ⟨hrg, ?_⟩
  zify [hf, hrg] at *
  nlinarith

/-- what a successful fill computation means in a sound state -/
theorem fill_sound {v : View} {id : OrderId} {fill r : Nat} {ver : Version} {d : OrderData} {a g : Nat}
    (hd : v.data id = .ok (some d)) (ha : v.ask id = .ok a) (hg : v.give id = .ok g)
    (hs : Sound (some d) a g) (h : calculateFillOrder v id fill ver = .ok r) :
    fill ≤ a ∧ r ≤ g ∧ Sound (some d) (a - fill) (g - r) := by
  obtain ⟨oa, og, h1, h2, h3, h4, h5, h6, h7, h8, h9⟩ := hs
  have key : fill ≤ a ∧ r ≤ g ∧ og * (a - fill) ≤ (g - r) * oa := by
    cases ver with
    | v0 =>
      obtain ⟨a', g', e1, e2, e3, e4, _, e5⟩ := fillV0_ok.1 h
      rw [ha] at e1; cases e1
      rw [hg] at e2; cases e2
      exact ⟨e3, reserve_v0 e4 e3 e5 h9⟩
    | v1 =>
      obtain ⟨d', oa', og', a', e1, e2, e3, e4, e5, e6, _, e7, _⟩ := fillV1_ok.1 h
      rw [hd] at e1; cases e1
      rw [ha] at e4; cases e4
      rw [outputValueAmount_ok, h1] at e2; cases e2
      rw [outputValueAmount_ok, h2] at e3; cases e3
      exact ⟨e5, reserve_v1 h3 e5 e7 h9⟩
  exact ⟨key.1, key.2.1, oa, og, h1, h2, h3, h4, h5, h6, by omega, by omega, key.2.2⟩

/-- effect of one successful operation on what can be observed, in a sound state -/
theorem step_obs {c c' : Cache} {op : Op} {u : Undo} (hp : SoundView c.parent) (hs : SoundView c.view)
    (h : step c op = .ok (c', u)) :
    (∃ id d oa og du, op = .create id d ∧ u = .create id du oa og ∧
        amountOf d.ask = some oa ∧ amountOf d.give = some og ∧ 0 < oa ∧ 0 < og ∧ oa < 2^127 ∧ og < 2^127 ∧
        c.view.data id = .ok none ∧
        (∀ i, c'.view.data i = if i = id then .ok (some d) else c.view.data i) ∧
        (∀ i, c'.view.ask i = if i = id then .ok oa else c.view.ask i) ∧
        (∀ i, c'.view.give i = if i = id then .ok og else c.view.give i)) ∨
    (∃ id d a g du, op = .conclude id ∧ u = .conclude id du a g ∧
        c.view.data id = .ok (some d) ∧ c.view.ask id = .ok a ∧ c.view.give id = .ok g ∧
        (∀ i, c'.view.data i = if i = id then .ok none else c.view.data i) ∧
        (∀ i, c'.view.ask i = if i = id then .ok 0 else c.view.ask i) ∧
        (∀ i, c'.view.give i = if i = id then .ok 0 else c.view.give i)) ∨
    (∃ id fill ver d a g r, op = .fill id fill ver ∧ u = .fill id fill r ∧
        c.view.data id = .ok (some d) ∧ d.isFrozen = false ∧ c.view.ask id = .ok a ∧ c.view.give id = .ok g ∧
        calculateFillOrder c.view id fill ver = .ok r ∧
        fill ≤ a ∧ r ≤ g ∧ Sound (some d) (a - fill) (g - r) ∧
        (∀ i, c'.view.data i = c.view.data i) ∧
        (∀ i, c'.view.ask i = if i = id then .ok (a - fill) else c.view.ask i) ∧
        (∀ i, c'.view.give i = if i = id then .ok (g - r) else c.view.give i)) ∨
    (∃ id d du, op = .freeze id ∧ u = .freeze id du ∧ c.view.data id = .ok (some d) ∧ d.isFrozen = false ∧
        (∀ i, c'.view.data i = if i = id then .ok (some { d with isFrozen := true }) else c.view.data i) ∧
        (∀ i, c'.view.ask i = c.view.ask i) ∧ (∀ i, c'.view.give i = c.view.give i)) := by
  cases op with
  | create id d =>
    left
    obtain ⟨oa, og, data, du, ask, give, h1, h2, h3, h4, h5, h6, h7, h8, h9, rfl, rfl⟩ := createOrder_ok h
    have hz : c.view.give id = .ok 0 := by
      obtain ⟨od, a, g, e1, e2, e3, e4⟩ := hs id
      rw [h1] at e1; cases e1
      rw [e3, e4.2]
    have l1 := (addUnsigned_ok.1 h8).1
    have l2 := (addUnsigned_ok.1 h9).1
    rw [I128_pow] at l1 l2
    refine ⟨id, d, oa, og, du, rfl, rfl, outputValueAmount_ok.1 h3, outputValueAmount_ok.1 h4, h5, h6,
      by exact_mod_cast l1, by exact_mod_cast l2, h1, ?_, ?_, ?_⟩
    · intro i; exact getVal_merged h7 i
    · intro i
      split
      · rename_i e; subst e; exact getBal_zero_add h2 h8
      · rename_i e; exact getBal_add_ne h8 e
    · intro i
      split
      · rename_i e; subst e; exact getBal_zero_add hz h9
      · rename_i e; exact getBal_add_ne h9 e
  | conclude id =>
    right; left
    obtain ⟨d, ab, gb, data, du, ask, give, h1, h2, h3, h7, h8, h9, rfl, rfl⟩ := concludeOrder_ok h
    refine ⟨id, d, ab, gb, du, rfl, rfl, h1, h2, h3, ?_, ?_, ?_⟩
    · intro i; exact getVal_merged h7 i
    · intro i
      split
      · rename_i e; subst e; exact getBal_sub_all h2 h8
      · rename_i e; exact getBal_sub_ne h8 e
    · intro i
      split
      · rename_i e; subst e; exact getBal_sub_all h3 h9
      · rename_i e; exact getBal_sub_ne h9 e
  | fill id fill ver =>
    right; right; left
    obtain ⟨d, r, ask, give, h1, h2, h3, h4, h5, rfl, rfl⟩ := fillOrder_ok h
    obtain ⟨od, a, g, e1, e2, e3, e4⟩ := hs id
    rw [h1] at e1; cases e1
    obtain ⟨f1, f2, f3⟩ := fill_sound h1 e2 e3 e4 h3
    obtain ⟨odp, ap, gp, p1, p2, p3, p4⟩ := hp id
    refine ⟨id, fill, ver, d, a, g, r, rfl, rfl, h1, h2, e2, e3, h3, f1, f2, f3, fun i => rfl, ?_, ?_⟩
    · intro i
      split
      · rename_i e; subst e
        exact getBal_sub_exists h5 e2 f1 e4.ask_lt (by intro p hp; rw [p2] at hp; cases hp; exact p4.ask_lt)
      · rename_i e; exact getBal_sub_ne h5 e
    · intro i
      split
      · rename_i e; subst e
        exact getBal_sub_exists h4 e3 f2 e4.give_lt (by intro p hp; rw [p3] at hp; cases hp; exact p4.give_lt)
      · rename_i e; exact getBal_sub_ne h4 e
  | freeze id =>
    right; right; right
    obtain ⟨d, data, du, h1, h2, h7, rfl, rfl⟩ := freezeOrder_ok h
    exact ⟨id, d, du, rfl, rfl, h1, h2, fun i => getVal_merged h7 i, fun i => rfl, fun i => rfl⟩

theorem step_sound {c c' : Cache} {op : Op} {u : Undo} (hp : SoundView c.parent) (hs : SoundView c.view)
    (h : step c op = .ok (c', u)) : SoundView c'.view := by
  intro i
  obtain ⟨od, a, g, e1, e2, e3, e4⟩ := hs i
  rcases step_obs hp hs h with
    ⟨id, d, oa, og, du, -, -, h1, h2, h3, h4, h5, h6, -, v1, v2, v3⟩ |
    ⟨id, d, a', g', du, -, -, -, -, -, v1, v2, v3⟩ |
    ⟨id, fill, ver, d, a', g', r, -, -, h1, h2, h3, h4, h5, h6, h7, h8, v1, v2, v3⟩ |
    ⟨id, d, du, -, -, h1, h2, v1, v2, v3⟩
  · rw [v1, v2, v3]
    by_cases e : i = id
    · simp only [e, if_true]
      refine ⟨_, _, _, rfl, rfl, rfl, oa, og, h1, h2, h3, h4, h5, h6, le_refl _, le_refl _, le_refl _⟩
    · simp only [e, if_false]; exact ⟨od, a, g, e1, e2, e3, e4⟩
  · rw [v1, v2, v3]
    by_cases e : i = id
    · simp only [e, if_true]
      exact ⟨_, _, _, rfl, rfl, rfl, rfl, rfl⟩
    · simp only [e, if_false]; exact ⟨od, a, g, e1, e2, e3, e4⟩
  · rw [v1, v2, v3]
    by_cases e : i = id
    · subst e
      simp only [if_true]
      exact ⟨_, _, _, h1, rfl, rfl, h8⟩
    · simp only [e, if_false]; exact ⟨od, a, g, e1, e2, e3, e4⟩
  · rw [v1, v2, v3]
    by_cases e : i = id
    · subst e
      simp only [if_true]
      rw [h1] at e1; cases e1
      exact ⟨_, _, _, rfl, e2, e3, e4⟩
    · simp only [e, if_false]; exact ⟨od, a, g, e1, e2, e3, e4⟩

theorem step_matches {c c' : Cache} {op : Op} {u : Undo} (hp : SoundView c.parent) (hs : SoundView c.view)
    {b : Books} (hb : MatchesView b c.view) (h : step c op = .ok (c', u)) :
    MatchesView (book b u) c'.view := by
  intro i
  obtain ⟨od, a, g, e1, e2, e3, e4⟩ := hb i
  rcases step_obs hp hs h with
    ⟨id, d, oa, og, du, -, rfl, h1, h2, h3, h4, h5, h6, h7, v1, v2, v3⟩ |
    ⟨id, d, a', g', du, -, rfl, h1, h2, h3, v1, v2, v3⟩ |
    ⟨id, fill, ver, d, a', g', r, -, rfl, h1, h2, h3, h4, h5, h6, h7, h8, v1, v2, v3⟩ |
    ⟨id, d, du, -, rfl, h1, h2, v1, v2, v3⟩
  · rw [v1, v2, v3]
    by_cases e : i = id
    · simp only [e, if_true, book]
      exact ⟨_, _, _, rfl, rfl, rfl, h1, h2, by simp, by simp⟩
    · simp only [e, if_false, book]; exact ⟨od, a, g, e1, e2, e3, e4⟩
  · rw [v1, v2, v3]
    by_cases e : i = id
    · simp only [e, if_true, book]
      exact ⟨_, _, _, rfl, rfl, rfl, rfl, rfl⟩
    · simp only [e, if_false, book]; exact ⟨od, a, g, e1, e2, e3, e4⟩
  · rw [v1, v2, v3]
    by_cases e : i = id
    · subst e
      simp only [if_true, book]
      rw [h1] at e1; cases e1
      rw [h3] at e2; cases e2
      rw [h4] at e3; cases e3
      refine ⟨_, _, _, h1, rfl, rfl, ?_⟩
      cases hl : b i with
      | none => rw [hl] at e4; exact e4.elim
      | some l =>
        rw [hl] at e4
        obtain ⟨m1, m2, m3, m4⟩ := e4
        refine ⟨m1, m2, ?_, ?_⟩ <;> simp only <;> omega
    · simp only [e, if_false, book]; exact ⟨od, a, g, e1, e2, e3, e4⟩
  · rw [v1, v2, v3]
    simp only [book]
    by_cases e : i = id
    · subst e
      simp only [if_true]
      rw [h1] at e1; cases e1
      refine ⟨_, _, _, rfl, e2, e3, ?_⟩
      cases hl : b i with
      | none => rw [hl] at e4; exact e4.elim
      | some l => rw [hl] at e4; exact e4
    · simp only [e, if_false]; exact ⟨od, a, g, e1, e2, e3, e4⟩

theorem run_cons_ok {c c' : Cache} {op : Op} {ops : List Op} {us : List Undo}
    (h : run c (op :: ops) = .ok (c', us)) :
    ∃ c1 u us', step c op = .ok (c1, u) ∧ run c1 ops = .ok (c', us') ∧ us = u :: us' :=
  History.run_cons_ok h

theorem run_inv {c c' : Cache} {ops : List Op} {us : List Undo} (hp : SoundView c.parent)
    (hs : SoundView c.view) (hw : WF c) (h : run c ops = .ok (c', us)) :
    c'.parent = c.parent ∧ SoundView c'.view ∧ WF c' := by
  induction ops generalizing c us with
  | nil => cases h; exact ⟨rfl, hs, hw⟩
  | cons op ops ih =>
    obtain ⟨c1, u, us', h1, h2, rfl⟩ := run_cons_ok h
    have e := step_parent h1
    obtain ⟨i1, i2, i3⟩ := ih (e ▸ hp) (step_sound hp hs h1) (step_WF hw h1) h2
    exact ⟨i1.trans e, i2, i3⟩

/-! ### Anchoring: recorded old values agree with the parent -/

/-- every recorded data change starts from the parent's value -/
def Anchored (c : Cache) : Prop :=
  ∀ k e, c.delta.data.get k = some e → c.parent.data k = .ok e.old

theorem step_anchored {c c' : Cache} {op : Op} {u : Undo} (hA : Anchored c) (h : step c op = .ok (c', u)) :
    Anchored c' := by
  cases op with
  | create id d =>
    obtain ⟨_, _, _, _, _, _, h1, _, _, _, _, _, h7, _, _, rfl, _⟩ := createOrder_ok h
    exact anchored_merge hA h1 h7
  | conclude id =>
    obtain ⟨_, _, _, _, _, _, _, h1, _, _, h7, _, _, rfl, _⟩ := concludeOrder_ok h
    exact anchored_merge hA h1 h7
  | fill id a v =>
    obtain ⟨_, _, _, _, _, _, _, _, _, rfl, _⟩ := fillOrder_ok h
    exact hA
  | freeze id =>
    obtain ⟨_, _, _, h1, _, h7, rfl, _⟩ := freezeOrder_ok h
    exact anchored_merge hA h1 h7

theorem run_anchored {c c' : Cache} {ops : List Op} {us : List Undo} (hA : Anchored c)
    (h : run c ops = .ok (c', us)) : Anchored c' := by
  induction ops generalizing c us with
  | nil => cases h; exact hA
  | cons op ops ih =>
    obtain ⟨c1, u, us', h1, h2, rfl⟩ := run_cons_ok h
    exact ih (step_anchored hA h1) h2

/-- invariant under which undo is exact -/
def Inv (c : Cache) : Prop := SoundView c.parent ∧ SoundView c.view ∧ WF c

theorem undoable : History.Undoable step undo Inv Ext where
  refl := Ext.refl
  inv := by
    rintro c op c' u ⟨h1, h2, h3⟩ hs
    exact ⟨by rw [step_parent hs]; exact h1, step_sound h1 h2 hs, step_WF h3 hs⟩
  undo_step := by
    rintro c op c' u t' ⟨h1, hs, hw⟩ h hx
    refine undo_step hw ?_ h hx
    intro id hd
    obtain ⟨od, a, g, e1, e2, e3, e4⟩ := hs id
    rw [hd] at e1; cases e1
    rw [e3, e4.2]
  ext_step := fun _ hx h => ext_step hx h

end Verif.Orders
