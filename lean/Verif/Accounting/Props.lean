import Verif.Accounting.Lemmas
import Verif.Accounting.Spec

/-!
# Properties C01, C02, C03, C24
-/

namespace Verif.Accounting

variable {K T : Type} [LinearOrder K] [DecidableEq T]

theorem U128_eq : U128 = 2^128 := by norm_num [U128]

/-! ## C01 -/

/-- The code's application of a change set to stored values is exactly the specification `Changes`. -/
theorem C01_apply_iff_changes (base after : K → Option T) (d : DataColl K T) :
    (∀ k, combineDataWithDelta (base k) (d.get k) = .ok (after k)) ↔ Changes base d after := by
  unfold Changes
  refine forall_congr' fun k => ?_
  cases hd : d.get k with
  | none => simp [eq_comm]
  | some c => simp [combineDataWithDelta_some]

/-- C01: if the lower layer turns `base` into `mid` and the upper layer turns `mid` into `top`, merging
succeeds and the merged layer turns `base` into `top`. -/
theorem C01_merge_is_composition (base mid top : K → Option T) (d1 d2 : DataColl K T)
    (h1 : Changes base d1 mid) (h2 : Changes mid d2 top) :
    ∃ m u, mergeDeltaData d1 d2 = .ok (m, u) ∧ Changes base m top := by
  obtain ⟨m, u, hm⟩ := mergeDeltaData_isOk (c := d1) (d := d2) (by
    intro k x y hx hy
    have a := h1 k; have b := h2 k
    rw [hx] at a; rw [hy] at b
    exact a.2.symm.trans b.1)
  refine ⟨m, u, hm, ?_⟩
  intro k
  have a := h1 k; have b := h2 k; have c := (mergeDeltaData_ok hm k).2
  cases hx : d1.get k <;> cases hy : d2.get k <;> simp_all

/-- C01, converse: when merging succeeds, whatever the merged layer does to a store is done by the two layers
one after another. -/
theorem C01_merge_only_composition (base top : K → Option T) (d1 d2 m u : DataColl K T)
    (hm : mergeDeltaData d1 d2 = .ok (m, u)) (h : Changes base m top) :
    ∃ mid, Changes base d1 mid ∧ Changes mid d2 top := by
  refine ⟨fun k => match d1.get k with | none => base k | some c => c.new, ?_, ?_⟩
  · intro k
    have a := h k; have c := (mergeDeltaData_ok hm k).2
    cases hx : d1.get k <;> cases hy : d2.get k <;> simp_all
  · intro k
    have a := h k; have c := (mergeDeltaData_ok hm k).2
    cases hx : d1.get k <;> cases hy : d2.get k <;> simp_all

/-- C01: layers can be merged in any grouping. -/
theorem C01_merge_assoc (d1 d2 d3 m12 u1 m u2 : DataColl K T)
    (h12 : mergeDeltaData d1 d2 = .ok (m12, u1)) (h : mergeDeltaData m12 d3 = .ok (m, u2)) :
    ∃ m23 u3 u4, mergeDeltaData d2 d3 = .ok (m23, u3) ∧ mergeDeltaData d1 m23 = .ok (m, u4) := by
  obtain ⟨m23, u3, h23⟩ := mergeDeltaData_isOk (c := d2) (d := d3) (by
    intro k x y hx hy
    have a := (mergeDeltaData_ok h12 k).2; have b := (mergeDeltaData_ok h k).2
    cases hz : d1.get k <;> simp_all)
  obtain ⟨m', u4, h'⟩ := mergeDeltaData_isOk (c := d1) (d := m23) (by
    intro k x y hx hy
    have a := (mergeDeltaData_ok h12 k).2; have b := (mergeDeltaData_ok h k).2
    have c := (mergeDeltaData_ok h23 k).2
    cases h2 : d2.get k <;> cases h3 : d3.get k <;> simp_all)
  have : m' = m := by
    apply BMap.ext_get
    intro k
    have a := (mergeDeltaData_ok h12 k).2; have b := (mergeDeltaData_ok h k).2
    have c := (mergeDeltaData_ok h23 k).2; have d := (mergeDeltaData_ok h' k).2
    cases hz : d1.get k <;> cases h2 : d2.get k <;> cases h3 : d3.get k <;> simp_all
  subst this
  exact ⟨m23, u3, u4, h23, h'⟩

/-- concrete data: key 1 created below and modified above, key 2 deleted above, key 3 untouched -/
def exD1 : DataColl Nat Nat := BMap.ofList [(1, ⟨none, some 10⟩)]
def exD2 : DataColl Nat Nat := BMap.ofList [(1, ⟨some 10, some 11⟩), (2, ⟨some 20, none⟩)]
def exBase : Nat → Option Nat := fun k => if k = 2 then some 20 else if k = 3 then some 30 else none
def exMid : Nat → Option Nat :=
  fun k => if k = 1 then some 10 else if k = 2 then some 20 else if k = 3 then some 30 else none
def exTop : Nat → Option Nat := fun k => if k = 1 then some 11 else if k = 3 then some 30 else none

example : Changes exBase exD1 exMid ∧ Changes exMid exD2 exTop := by
  constructor <;> intro k <;>
    by_cases h1 : k = 1 <;> by_cases h2 : k = 2 <;> by_cases h3 : k = 3 <;>
    simp_all [exD1, exD2, exBase, exMid, exTop, BMap.ofList, BMap.get_insert]

example : mergeDeltaData exD1 exD2 =
    .ok (BMap.ofList [(1, ⟨none, some 11⟩), (2, ⟨some 20, none⟩)],
         BMap.ofList [(1, ⟨some 11, some 10⟩), (2, ⟨none, some 20⟩)]) := by decide

/-! ## C02 -/

/-- C02: the undo returned by a merge can be applied, and afterwards the collection acts on every store on which
the merged collection acted in the same way as the original one did. -/
theorem C02_undo_merge (c d m u : DataColl K T) (hm : mergeDeltaData c d = .ok (m, u)) :
    ∃ c', undoMergeDeltaData m u = .ok c' ∧
      ∀ base top, Changes base m top → ∀ after, Changes base c' after ↔ Changes base c after := by
  have hex : ∃ r, BMap.mergeM mergeStep m u = .ok r := by
    rw [BMap.mergeM_isOk_iff]
    intro k b hb
    have h := mergeDeltaData_ok hm k
    cases hx : m.get k with
    | none => exact ⟨some b, mergeStep_ok.2 (Or.inl ⟨rfl, rfl⟩)⟩
    | some x =>
      refine ⟨_, mergeStep_ok.2 (Or.inr ⟨x, rfl, ?_, rfl⟩)⟩
      rw [hb, hx] at h
      cases hd : d.get k with
      | none => rw [hd] at h; simp at h
      | some y =>
        rw [hd] at h
        have h1 : b = y.invert := by simpa using h.1
        cases hc : c.get k <;> rw [hc] at h <;> simp_all [DataDelta.invert]
  obtain ⟨r, hr⟩ := hex
  refine ⟨r, by rw [undoMergeDeltaData_eq]; exact hr, ?_⟩
  intro base top hb after
  unfold Changes
  refine forall_congr' fun k => ?_
  have h := mergeDeltaData_ok hm k
  have h2 := (BMap.mergeM_ok_iff _ _ _ _).1 hr k
  have h3 := hb k
  cases hd : d.get k with
  | none =>
    rw [hd] at h
    rw [h.1] at h2
    simp only [Option.map_none] at h2
    cases hc : c.get k <;> simp_all
  | some y =>
    rw [hd] at h
    rw [h.1] at h2
    simp only [Option.map_some, mergeStep_ok] at h2
    cases hc : c.get k with
    | none =>
      rw [hc] at h
      simp only at h
      simp only [h.2, reduceCtorEq, false_and, Option.some.injEq, exists_eq_left', false_or] at h2 h3
      simp only [h2.2, DataDelta.invert]
      constructor
      · rintro ⟨a, b⟩; rw [a, b]
      · intro a; exact ⟨h3.1, by rw [a, h3.1]⟩
    | some x =>
      rw [hc] at h
      simp only at h
      simp only [h.2.2, reduceCtorEq, false_and, Option.some.injEq, exists_eq_left', false_or] at h2 h3
      simp only [h2.2, DataDelta.invert, h.2.1]

example : undoMergeDeltaData (BMap.ofList [(1, ⟨none, some 11⟩), (2, ⟨some 20, none⟩)])
    (BMap.ofList [(1, ⟨some 11, some 10⟩), (2, ⟨none, some 20⟩)]) =
    .ok (BMap.ofList [(1, (⟨none, some 10⟩ : DataDelta Nat)), (2, ⟨some 20, some 20⟩)]) := by decide

/-! ## C03 -/

/-- C03: merged balance deltas are exact integer sums; no key mentioned by the merged-in set is left with a
zero entry. -/
theorem C03_merge_adds (c d r : AmountColl K) (h : mergeAmounts c d = .ok r) :
    (∀ k, deltaAt r k = deltaAt c k + deltaAt d k) ∧
    (∀ k, (d.get k).isSome → r.get k ≠ some 0) := by
  have hk := fun k => mergeAmounts_ok h k
  constructor <;> intro k <;> have := hk k
  · unfold deltaAt
    cases hd : d.get k with
    | none => rw [hd] at this; simp [this]
    | some x =>
      rw [hd] at this
      simp only at this
      rw [this]
      unfold norm dval
      cases hc : c.get k <;> simp only [Option.getD_none, Option.getD_some] <;> split <;> rename_i h1 <;>
        split at h1 <;> simp_all
  · intro hs
    cases hd : d.get k with
    | none => simp [hd] at hs
    | some x =>
      rw [hd] at this
      simp only at this
      rw [this]
      unfold norm
      split <;> simp_all

/-- C03: merging fails only when some exact sum is outside the 128-bit signed range. -/
theorem C03_merge_succeeds_iff (c d : AmountColl K) :
    (∃ r, mergeAmounts c d = .ok r) ↔
      ∀ k, (c.get k).isSome → (d.get k).isSome →
        -(2:Int)^127 ≤ deltaAt c k + deltaAt d k ∧ deltaAt c k + deltaAt d k < (2:Int)^127 := by
  rw [mergeAmounts_eq, BMap.mergeM_isOk_iff]
  refine forall_congr' fun k => ?_
  simp only [amountStep_ok, deltaAt]
  cases hc : c.get k with
  | none => simp
  | some x =>
    cases hd : d.get k with
    | none => simp
    | some y => simp [SAmt.InRange, I128_eq, dval]

/-- C03: undoing a merge with the same set gives back exactly the original collection.  The only obstacle is an
entry equal to the most negative 128-bit number, whose negation is not representable. -/
theorem C03_undo_merge (c d r : AmountColl K) (hc : AllInRange c) (hc0 : ∀ k, c.get k ≠ some 0)
    (hd : AllInRange d) (hmin : ∀ k, d.get k ≠ some (-(2:Int)^127)) (h : mergeAmounts c d = .ok r) :
    undoMergeAmounts r d = .ok c := by
  rw [undoMergeAmounts_eq, BMap.mergeM_ok_iff]
  intro k
  have hk := mergeAmounts_ok h k
  cases hdk : d.get k with
  | none => rw [hdk] at hk; exact hk.symm
  | some x =>
    rw [hdk] at hk
    simp only at hk ⊢
    unfold undoAmountStep
    have hx := hd k x hdk
    have hxm : x ≠ -(2:Int)^127 := fun e => hmin k (e ▸ hdk)
    have hneg : SAmt.neg x = some (-x) := by
      apply chk_isSome
      unfold SAmt.InRange
      rw [I128_eq]
      constructor <;> omega
    rw [bind_eq_ok]
    refine ⟨-x, by rw [hneg]; rfl, ?_⟩
    rw [amountStep_ok, hk, dval_norm]
    have hs : dval (c.get k) + x + -x = dval (c.get k) := by ring
    rw [hs]
    constructor
    · intro _
      unfold SAmt.InRange
      rw [I128_eq]
      cases hck : c.get k with
      | none => simp [dval]
      | some y => exact hc k y hck
    · cases hck : c.get k with
      | none => rfl
      | some y =>
        have : y ≠ 0 := fun e => hc0 k (e ▸ hck)
        simp [norm, dval, this]

/-- C03: the excluded case really fails: a change of −2^127 cannot be undone. -/
theorem C03_undo_min_fails (c d : AmountColl K) (k : K) (h : d.get k = some (-(2:Int)^127)) :
    ¬ ∃ r, undoMergeAmounts c d = .ok r := by
  rw [undoMergeAmounts_eq, BMap.mergeM_isOk_iff]
  intro hall
  obtain ⟨x, hx⟩ := hall k _ h
  unfold undoAmountStep at hx
  rw [bind_eq_ok] at hx
  obtain ⟨n, hn, -⟩ := hx
  rw [okOr_eq_ok] at hn
  unfold SAmt.neg at hn
  have := (chk_eq_some.1 hn).1
  unfold SAmt.InRange at this
  rw [I128_eq] at this
  omega

/-- C03: adding a signed change to a balance is exact; it succeeds iff the balance and the sum are
representable as signed 128-bit numbers and the sum is not negative. -/
theorem C03_balance_plus_delta (b r : Nat) (x : Int) :
    combineAmountDelta b (some x) = .ok r ↔
      (b : Int) < 2^127 ∧ (b : Int) + x < 2^127 ∧ (r : Int) = b + x := by
  rw [combineAmountDelta_ok, I128_eq]

/-- C03 / C01 for balances: when a stored balance goes through two layers of changes one after another, merging
the layers never fails at that key and gives the same balance. -/
theorem C03_layers_compose (c d : AmountColl K)
    (base mid top : K → Nat)
    (h1 : ∀ k, combineAmountDelta (base k) (c.get k) = .ok (mid k))
    (h2 : ∀ k, combineAmountDelta (mid k) (d.get k) = .ok (top k)) :
    ∃ r, mergeAmounts c d = .ok r ∧ ∀ k, combineAmountDelta (base k) (r.get k) = .ok (top k) := by
  have hex := (C03_merge_succeeds_iff c d).2 (by
    intro k hck hdk
    have a := h1 k; have b := h2 k
    cases hcx : c.get k with
    | none => simp [hcx] at hck
    | some x =>
      cases hdx : d.get k with
      | none => simp [hdx] at hdk
      | some y =>
        rw [hcx, C03_balance_plus_delta] at a
        rw [hdx, C03_balance_plus_delta] at b
        simp only [deltaAt, hcx, hdx]
        constructor <;> omega)
  obtain ⟨r, hr⟩ := hex
  refine ⟨r, hr, fun k => ?_⟩
  have hk := mergeAmounts_ok hr k
  have a := h1 k; have b := h2 k
  cases hdx : d.get k with
  | none =>
    rw [hdx] at hk b
    simp only at hk
    rw [hk, a]
    simpa [combineAmountDelta] using b
  | some y =>
    rw [hdx] at hk b
    simp only at hk
    rw [C03_balance_plus_delta] at b
    cases hcx : c.get k with
    | none =>
      rw [hcx] at hk a
      have e : base k = mid k := by simpa [combineAmountDelta] using a
      rw [hk]
      unfold norm
      split
      · rename_i h0
        simp only [dval_none] at h0
        simp only [combineAmountDelta, Except.ok.injEq]
        omega
      · rw [C03_balance_plus_delta, dval_none]
        omega
    | some x =>
      rw [hcx] at hk a
      rw [C03_balance_plus_delta] at a
      rw [hk]
      unfold norm
      split
      · rename_i h0
        simp only [dval_some] at h0
        simp only [combineAmountDelta, Except.ok.injEq]
        omega
      · rw [C03_balance_plus_delta, dval_some]
        omega

example : mergeAmounts (BMap.ofList [(1, 5), (2, -7)]) (BMap.ofList [(1, -5), (2, 4), (3, 1)]) =
    .ok (BMap.ofList [((2 : Nat), (-3 : Int)), (3, 1)]) := by decide
example : undoMergeAmounts (BMap.ofList [((2 : Nat), (-3 : Int)), (3, 1)])
    (BMap.ofList [(1, -5), (2, 4), (3, 1)]) = .ok (BMap.ofList [(1, 5), (2, -7)]) := by decide
example : mergeAmounts (BMap.ofList [((1 : Nat), (2:Int)^127 - 1)]) (BMap.ofList [(1, 1)]) =
    .error .deltaAdditionFailed := by decide

end Verif.Accounting
