import Verif.Accounting.Model

set_option linter.unusedSectionVars false

namespace Verif.Accounting

section data
variable {K T : Type} [LinearOrder K] [DecidableEq T]

@[simp] theorem invert_invert (d : DataDelta T) : d.invert.invert = d := rfl

/-- applying a recorded change succeeds iff the stored value is the recorded old value -/
theorem combineDataWithDelta_some {x : Option T} {d : DataDelta T} {y : Option T} :
    combineDataWithDelta x (some d) = .ok y ↔ x = d.old ∧ y = d.new := by
  obtain ⟨o, n⟩ := d
  rcases x with _ | x <;> rcases o with _ | o <;> rcases n with _ | n <;>
    simp only [combineDataWithDelta, bind_eq_ok, ensure_eq_ok, Except.ok.injEq, Option.some.injEq,
      reduceCtorEq, false_and, true_and, exists_const, @eq_comm _ y]

@[simp] theorem combineDataWithDelta_none {x : Option T} :
    combineDataWithDelta x none = .ok x := by
  cases x <;> rfl

theorem combineDeltaData_ok {a b c : DataDelta T} :
    combineDeltaData a b = .ok c ↔ a.new = b.old ∧ c = ⟨a.old, b.new⟩ := by
  simp only [combineDeltaData, bind_eq_ok, ensure_eq_ok, Except.ok.injEq, exists_const, @eq_comm _ c]

/-- per-key step of `merge_delta_data` -/
def mergeStep (_ : K) (cur : Option (DataDelta T)) (d : DataDelta T) :
    Except Err (Option (DataDelta T)) :=
  (mergeEntry cur d).map some

theorem mergeStep_ok {k : K} {cur : Option (DataDelta T)} {d : DataDelta T} {r} :
    mergeStep k cur d = .ok r ↔
      (cur = none ∧ r = some d) ∨ (∃ e, cur = some e ∧ e.new = d.old ∧ r = some ⟨e.old, d.new⟩) := by
  unfold mergeStep mergeEntry
  rcases cur with _ | e
  · simp [Except.map, eq_comm]
  · simp only [reduceCtorEq, false_and, Option.some.injEq, exists_eq_left', false_or]
    cases h : combineDeltaData e d with
    | error er =>
      simp only [Except.map, reduceCtorEq, false_iff, not_and]
      intro h1
      have := (combineDeltaData_ok (a := e) (b := d)).2 ⟨h1, rfl⟩
      rw [h] at this; cases this
    | ok c =>
      obtain ⟨h1, rfl⟩ := combineDeltaData_ok.1 h
      simp [Except.map, h1, eq_comm]

theorem mergeDeltaDataElement_eq (c : DataColl K T) (k : K) (d : DataDelta T) :
    mergeDeltaDataElement c k d = (mergeStep k (c.get k) d).map (fun r => (c.set k r, d.invert)) := by
  unfold mergeDeltaDataElement mergeStep
  cases mergeEntry (c.get k) d <;> rfl

theorem mergeDeltaData_eq (c d : DataColl K T) :
    mergeDeltaData c d = BMap.mergeUndoM mergeStep (fun _ d => d.invert) c d := by
  unfold mergeDeltaData BMap.mergeUndoM
  congr 1
  funext s kd
  rw [mergeDeltaDataElement_eq]
  cases mergeStep kd.1 (s.1.get kd.1) kd.2 <;> rfl

theorem undoMergeDeltaData_eq (c d : DataColl K T) :
    undoMergeDeltaData c d = BMap.mergeM mergeStep c d := by
  unfold undoMergeDeltaData BMap.mergeM
  congr 1
  funext s kd
  unfold undoMergeDeltaDataElement
  rw [mergeDeltaDataElement_eq]
  cases mergeStep kd.1 (s.get kd.1) kd.2 <;> rfl

/-- per-key relation of a successful merge -/
theorem mergeDeltaData_ok {c d r u : DataColl K T} (h : mergeDeltaData c d = .ok (r, u)) (k : K) :
    u.get k = (d.get k).map DataDelta.invert ∧
    match c.get k, d.get k with
    | x, none => r.get k = x
    | none, some y => r.get k = some y
    | some x, some y => x.new = y.old ∧ r.get k = some ⟨x.old, y.new⟩ := by
  rw [mergeDeltaData_eq, BMap.mergeUndoM_ok_iff] at h
  obtain ⟨h, rfl⟩ := h
  refine ⟨BMap.get_mapV _ _ _, ?_⟩
  have hk := (BMap.mergeM_ok_iff _ _ _ _).1 h k
  cases hd : d.get k with
  | none => rw [hd] at hk; cases hc : c.get k <;> simp_all
  | some y =>
    rw [hd] at hk
    simp only [mergeStep_ok] at hk
    cases hc : c.get k <;> simp_all

theorem mergeDeltaData_isOk {c d : DataColl K T}
    (h : ∀ k x y, c.get k = some x → d.get k = some y → x.new = y.old) :
    ∃ r u, mergeDeltaData c d = .ok (r, u) := by
  have : ∃ r, BMap.mergeM mergeStep c d = .ok r := by
    rw [BMap.mergeM_isOk_iff]
    intro k b hb
    cases hc : c.get k with
    | none => exact ⟨some b, mergeStep_ok.2 (Or.inl ⟨rfl, rfl⟩)⟩
    | some x => exact ⟨_, mergeStep_ok.2 (Or.inr ⟨x, rfl, h k x b hc hb, rfl⟩)⟩
  obtain ⟨r, hr⟩ := this
  refine ⟨r, d.mapV (fun _ d => d.invert), ?_⟩
  rw [mergeDeltaData_eq, BMap.mergeUndoM_ok_iff]
  exact ⟨hr, rfl⟩

end data

section amounts
variable {K : Type} [LinearOrder K]

/-- per-key step of `merge_delta_amounts` -/
def amountStep (_ : K) (cur : Option Int) (x : Int) : Except Err (Option Int) :=
  (combineSigned cur x).map (fun n => if n = 0 then none else some n)

theorem mergeAmountElement_eq (c : AmountColl K) (k : K) (x : Int) :
    mergeAmountElement c k x = (amountStep k (c.get k) x).map (c.set k) := by
  unfold mergeAmountElement amountStep
  cases combineSigned (c.get k) x with
  | error e => rfl
  | ok n =>
    simp only [bind, Except.bind, Except.map]
    split <;> rfl

theorem mergeAmounts_eq (c d : AmountColl K) : mergeAmounts c d = BMap.mergeM amountStep c d := by
  unfold mergeAmounts BMap.mergeM
  congr 1
  funext s kx
  rw [mergeAmountElement_eq]
  cases amountStep kx.1 (s.get kx.1) kx.2 <;> rfl

/-- per-key step of `undo_merge_delta_amounts` -/
def undoAmountStep (k : K) (cur : Option Int) (x : Int) : Except Err (Option Int) := do
  let n ← okOr (SAmt.neg x) .deltaUndoNegation
  amountStep k cur n

theorem undoMergeAmounts_eq (c d : AmountColl K) :
    undoMergeAmounts c d = BMap.mergeM undoAmountStep c d := by
  unfold undoMergeAmounts BMap.mergeM
  congr 1
  funext s kx
  unfold undoAmountStep
  simp only [mergeAmountElement_eq]
  cases okOr (SAmt.neg kx.2) Err.deltaUndoNegation with
  | error e => rfl
  | ok n => simp only [bind, Except.bind]; cases amountStep kx.1 (s.get kx.1) n <;> rfl

/-- value of a signed delta at a key (absent = 0) -/
def dval (o : Option Int) : Int := o.getD 0

@[simp] theorem dval_none : dval none = 0 := rfl
@[simp] theorem dval_some (x : Int) : dval (some x) = x := rfl

theorem chk_eq_some {x y : Int} : SAmt.chk x = some y ↔ SAmt.InRange x ∧ x = y := by
  unfold SAmt.chk; split <;> simp_all

theorem chk_isSome {x : Int} (h : SAmt.InRange x) : SAmt.chk x = some x := by
  simp [SAmt.chk, h]

/-- absent or non-zero entry holding a value -/
def norm (x : Int) : Option Int := if x = 0 then none else some x

@[simp] theorem dval_norm (x : Int) : dval (norm x) = x := by
  unfold norm; split <;> simp_all

theorem amountStep_ok {k : K} {cur : Option Int} {x : Int} {r} :
    amountStep k cur x = .ok r ↔
      (cur.isSome → SAmt.InRange (dval cur + x)) ∧ r = norm (dval cur + x) := by
  unfold amountStep combineSigned norm
  cases cur with
  | none => simp [Except.map, eq_comm]
  | some v =>
    simp only [SAmt.add]
    by_cases h : SAmt.InRange (v + x)
    · simp only [chk_isSome h, okOr, Except.map, h, Except.ok.injEq, dval_some, implies_true, true_and,
        @eq_comm _ r]
      split <;> simp_all
    · have : SAmt.chk (v + x) = none := by simp [SAmt.chk, h]
      simp [this, okOr, Except.map, h]

theorem mergeAmounts_ok {c d r : AmountColl K} (h : mergeAmounts c d = .ok r) (k : K) :
    match d.get k with
    | none => r.get k = c.get k
    | some x => r.get k = norm (dval (c.get k) + x) := by
  rw [mergeAmounts_eq] at h
  have hk := (BMap.mergeM_ok_iff _ _ _ _).1 h k
  cases hd : d.get k with
  | none => simpa [hd] using hk
  | some x => rw [hd] at hk; simp only [amountStep_ok] at hk; exact hk.2

theorem mergeAmountElement_ok {c r : AmountColl K} {k : K} {x : Int} :
    mergeAmountElement c k x = .ok r ↔
      ((c.get k).isSome → SAmt.InRange (dval (c.get k) + x)) ∧
      r = c.set k (norm (dval (c.get k) + x)) := by
  rw [mergeAmountElement_eq]
  cases h : amountStep k (c.get k) x with
  | error e =>
    simp only [Except.map, reduceCtorEq, false_iff, not_and]
    intro h1
    have := (amountStep_ok (k := k) (cur := c.get k) (x := x)).2 ⟨h1, rfl⟩
    rw [h] at this; cases this
  | ok o =>
    obtain ⟨h1, rfl⟩ := amountStep_ok.1 h
    simp only [Except.map, Except.ok.injEq]
    constructor
    · rintro rfl; exact ⟨h1, rfl⟩
    · rintro ⟨_, rfl⟩; rfl

/-- exact characterisation of `combine_amount_delta` -/
theorem combineAmountDelta_ok {b : Nat} {o : Option Int} {r : Nat} :
    combineAmountDelta b o = .ok r ↔
      match o with
      | none => r = b
      | some x => (b : Int) < I128 ∧ (b : Int) + x < I128 ∧ (r : Int) = b + x := by
  cases o with
  | none => simp [combineAmountDelta, eq_comm]
  | some x =>
    simp only [combineAmountDelta, bind_eq_ok, okOr_eq_ok]
    constructor
    · rintro ⟨v1, h1, s, h2, h3⟩
      simp only [Amt.intoSigned] at h1
      split at h1 <;> [skip; cases h1]
      rename_i hb
      cases h1
      obtain ⟨h2', rfl⟩ := chk_eq_some.1 h2
      simp only [SAmt.intoUnsigned] at h3
      split at h3 <;> [skip; cases h3]
      cases h3
      refine ⟨hb, h2'.2, by omega⟩
    · rintro ⟨h1, h2, h3⟩
      refine ⟨b, by simp [Amt.intoSigned, h1], b + x, ?_, ?_⟩
      · have hI : (0:Int) < I128 := by decide
        exact chk_eq_some.2 ⟨⟨by omega, h2⟩, rfl⟩
      · simp only [SAmt.intoUnsigned]
        rw [if_pos (by omega)]
        congr 1
        omega

end amounts
theorem I128_eq : I128 = (2:Int)^127 := by norm_num [I128]

theorem Amt_add_some {a b r : Nat} : Amt.add a b = some r ↔ a + b < U128 ∧ r = a + b := by
  unfold Amt.add; split <;> simp_all [eq_comm]

end Verif.Accounting
