import Verif.BlockStatus.Model
import Mathlib.Tactic.Ring

/-! Property theorems for the block status word (C35). -/

namespace Verif.BlockStatus

theorem testBit_lsb (n i : Nat) : Nat.testBit ((1 <<< n) - 1) i = decide (i < n) := by
  rw [Nat.one_shiftLeft, Nat.testBit_two_pow_sub_one]

theorem testBit_getBits (w lo hi i : Nat) :
    (getBits w lo hi).testBit i = (decide (i < hi - lo) && w.testBit (lo + i)) := by
  simp only [getBits, Nat.testBit_and, Nat.testBit_shiftRight, testBit_lsb]
  rw [Bool.and_comm]

theorem testBit_not64 (x i : Nat) (hi : i < 64) : (not64 x).testBit i = !x.testBit i := by
  simp only [not64, Nat.testBit_xor, Nat.testBit_two_pow_sub_one, hi, decide_true, Bool.true_xor]

/-- What setting a range of bits does to each bit below 64. -/
theorem testBit_setBits {w lo hi v r : Nat} (h : setBits w lo hi v = some r) (hl : lo ≤ hi) (i : Nat)
    (hi64 : i < 64) :
    r.testBit i = if lo ≤ i ∧ i < hi then v.testBit (i - lo) else w.testBit i := by
  simp only [setBits] at h
  split at h
  · rename_i hv
    injection h with h
    subst h
    simp only [Nat.testBit_or, Nat.testBit_and, testBit_not64 _ _ hi64, Nat.testBit_shiftLeft,
      testBit_lsb]
    by_cases h1 : lo ≤ i
    · by_cases h2 : i < hi
      · have : i - lo < hi - lo := by omega
        simp [h1, h2, this]
      · have h3 : ¬ i - lo < hi - lo := by omega
        have h4 : v.testBit (i - lo) = false := by
          refine Nat.testBit_lt_two_pow (lt_of_lt_of_le ?_ (Nat.pow_le_pow_right (by decide)
            (by omega : hi - lo ≤ i - lo)))
          rw [Nat.one_shiftLeft] at hv
          have := Nat.two_pow_pos (hi - lo)
          omega
        simp [h1, h2, h3, h4]
    · simp [h1]
  · cases h

theorem setBits_isSome {w lo hi v : Nat} (hv : v < 2 ^ (hi - lo)) :
    ∃ r, setBits w lo hi v = some r := by
  simp only [setBits, Nat.one_shiftLeft]
  rw [if_pos (by omega)]
  exact ⟨_, rfl⟩

theorem setBits_lt {w lo hi v r : Nat} (h : setBits w lo hi v = some r) (hl : lo ≤ hi) (hh : hi ≤ 64)
    (hw : w < 2 ^ 64) : r < 2 ^ 64 := by
  simp only [setBits] at h
  split at h
  · rename_i hv
    injection h with h
    subst h
    refine Nat.or_lt_two_pow (lt_of_le_of_lt Nat.and_le_left hw) ?_
    rw [Nat.one_shiftLeft] at hv
    have h1 : v < 2 ^ (hi - lo) := by
      have := Nat.two_pow_pos (hi - lo)
      omega
    rw [Nat.shiftLeft_eq]
    calc v * 2 ^ lo < 2 ^ (hi - lo) * 2 ^ lo := Nat.mul_lt_mul_of_pos_right h1 (Nat.two_pow_pos lo)
      _ = 2 ^ hi := by rw [← Nat.pow_add]; congr 1; omega
      _ ≤ 2 ^ 64 := Nat.pow_le_pow_right (by decide) hh
  · cases h

/-- Reading back the range just written. -/
theorem getBits_setBits_same {w lo hi v r : Nat} (h : setBits w lo hi v = some r) (hl : lo ≤ hi)
    (hh : hi ≤ 64) : getBits r lo hi = v := by
  apply Nat.eq_of_testBit_eq
  intro i
  rw [testBit_getBits]
  have hv : v < 2 ^ (hi - lo) := by
    simp only [setBits] at h
    split at h
    · rename_i hv
      rw [Nat.one_shiftLeft] at hv
      have := Nat.two_pow_pos (hi - lo)
      omega
    · cases h
  by_cases hi' : i < hi - lo
  · rw [testBit_setBits h hl (lo + i) (by omega), if_pos (by omega)]
    simp [hi']
  · have : v.testBit i = false := Nat.testBit_lt_two_pow (lt_of_lt_of_le hv
      (Nat.pow_le_pow_right (by decide) (by omega)))
    simp [hi', this]

/-- Reading a disjoint range. -/
theorem getBits_setBits_ne {w lo hi v r a b : Nat} (h : setBits w lo hi v = some r) (hl : lo ≤ hi)
    (hb : b ≤ 64) (hd : b ≤ lo ∨ hi ≤ a) : getBits r a b = getBits w a b := by
  apply Nat.eq_of_testBit_eq
  intro i
  rw [testBit_getBits, testBit_getBits]
  by_cases hi' : i < b - a
  · rw [testBit_setBits h hl (a + i) (by omega), if_neg (by omega)]
  · simp [hi']

theorem getBits_zero {lo hi : Nat} : getBits 0 lo hi = 0 := by
  simp [getBits]

/-! ## The independent view of a status word -/

/-- A status as a record of independent fields: the number of the last validation stage (one byte),
three failure flags and the reserved rest. -/
structure View where
  stage : Nat
  failed : Bool
  invalidParent : Bool
  invalidated : Bool
  reserved : Nat
deriving DecidableEq

/-- The fields by plain arithmetic on the word. -/
def view (w : Nat) : View where
  stage := w % 256
  failed := w / 256 % 2 == 1
  invalidParent := w / 512 % 2 == 1
  invalidated := w / 1024 % 2 == 1
  reserved := w / 2048

/-- The word with given fields. -/
def ofView (v : View) : Nat :=
  v.stage + 256 * v.failed.toNat + 512 * v.invalidParent.toNat + 1024 * v.invalidated.toNat +
    2048 * v.reserved

/-- C35. A word is determined by its fields and every combination of fields occurs. -/
theorem C35_view_bijective : (∀ w, ofView (view w) = w) ∧
    (∀ v : View, v.stage < 256 → view (ofView v) = v) ∧
    (∀ v : View, v.stage < 256 → v.reserved < 2 ^ 53 → ofView v < 2 ^ 64) := by
  have hb : ∀ b : Bool, b.toNat = 0 ∧ b = false ∨ b.toNat = 1 ∧ b = true := by decide
  refine ⟨fun w => ?_, fun v hs => ?_, fun v hs hr => ?_⟩
  · simp only [ofView, view]
    have h1 : ∀ n : Nat, (n % 2 == 1).toNat = n % 2 := by
      intro n
      rcases Nat.mod_two_eq_zero_or_one n with h | h <;> simp [h]
    rw [h1, h1, h1]
    omega
  · obtain ⟨s, a, b, c, r⟩ := v
    simp only [view, ofView, View.mk.injEq] at hs ⊢
    have ha := hb a; have hb' := hb b; have hc := hb c
    refine ⟨?_, ?_, ?_, ?_, ?_⟩
    · omega
    · rcases ha with ⟨h, rfl⟩ | ⟨h, rfl⟩
      · simp only [beq_eq_false_iff_ne, ne_eq]; omega
      · simp only [beq_iff_eq]; omega
    · rcases hb' with ⟨h, rfl⟩ | ⟨h, rfl⟩
      · simp only [beq_eq_false_iff_ne, ne_eq]; omega
      · simp only [beq_iff_eq]; omega
    · rcases hc with ⟨h, rfl⟩ | ⟨h, rfl⟩
      · simp only [beq_eq_false_iff_ne, ne_eq]; omega
      · simp only [beq_iff_eq]; omega
    · omega
  · obtain ⟨s, a, b, c, r⟩ := v
    simp only [ofView] at hs hr ⊢
    have ha := hb a; have hb' := hb b; have hc := hb c
    omega

theorem getBits_eq (w lo hi : Nat) : getBits w lo hi = w / 2 ^ lo % 2 ^ (hi - lo) := by
  rw [getBits, Nat.one_shiftLeft, Nat.and_two_pow_sub_one_eq_mod, Nat.shiftRight_eq_div_pow]

theorem view_eq (w : Nat) (hw : w < 2 ^ 64) : view w =
    { stage := getBits w 0 8, failed := getBits w 8 9 == 1, invalidParent := getBits w 9 10 == 1,
      invalidated := getBits w 10 11 == 1, reserved := getBits w 11 64 } := by
  simp only [view, getBits_eq, View.mk.injEq]
  norm_num
  have : w / 2048 < 9007199254740992 := by omega
  omega

/-- C35. Each query reads its own field. -/
theorem C35_queries (w : Nat) :
    lastValidStage w = Stage.fromU64 (view w).stage ∧
    validationFailed w = (view w).failed ∧
    hasInvalidParent w = (view w).invalidParent ∧
    isExplicitlyInvalidated w = (view w).invalidated ∧
    (isOk w = true ↔ (view w).failed = false ∧ (view w).invalidParent = false ∧
      (view w).invalidated = false) := by
  simp only [lastValidStage, validationFailed, hasInvalidParent, isExplicitlyInvalidated, isOk, view,
    getBits_eq]
  refine ⟨by norm_num, ?_, ?_, ?_, ?_⟩
  · rcases Nat.mod_two_eq_zero_or_one (w / 256) with h | h <;> simp [h]
  · rcases Nat.mod_two_eq_zero_or_one (w / 512) with h | h <;> simp [h]
  · rcases Nat.mod_two_eq_zero_or_one (w / 1024) with h | h <;> simp [h]
  · norm_num; omega

/-- A write to one of the ranges in use, seen through the fields. -/
theorem view_setBits {w lo hi v r : Nat} (hw : w < 2 ^ 64) (h : setBits w lo hi v = some r)
    (hl : lo ≤ hi) (hh : hi ≤ 64) : view r =
    { stage := getBits r 0 8, failed := getBits r 8 9 == 1, invalidParent := getBits r 9 10 == 1,
      invalidated := getBits r 10 11 == 1, reserved := getBits r 11 64 } :=
  view_eq r (setBits_lt h hl hh hw)

/-- C35. Recording a stage changes the stage and nothing else. -/
theorem C35_set_stage (w : Nat) (hw : w < 2 ^ 64) (s : Stage) :
    ∃ r, setStage w s = some r ∧ r < 2 ^ 64 ∧ view r = { view w with stage := s.toNat } := by
  obtain ⟨r, hr⟩ := setBits_isSome (w := w) (lo := 0) (hi := 8) (v := s.toNat)
    (by cases s <;> decide)
  refine ⟨r, hr, setBits_lt hr (by decide) (by decide) hw, ?_⟩
  rw [view_setBits hw hr (by decide) (by decide), view_eq w hw,
    getBits_setBits_same hr (by decide) (by decide)]
  simp only [getBits_setBits_ne hr (by decide) (by decide : 9 ≤ 64) (by decide : 9 ≤ 0 ∨ 8 ≤ 8),
    getBits_setBits_ne hr (by decide) (by decide : 10 ≤ 64) (by decide : 10 ≤ 0 ∨ 8 ≤ 9),
    getBits_setBits_ne hr (by decide) (by decide : 11 ≤ 64) (by decide : 11 ≤ 0 ∨ 8 ≤ 10),
    getBits_setBits_ne hr (by decide) (by decide : 64 ≤ 64) (by decide : 64 ≤ 0 ∨ 8 ≤ 11)]

/-- C35. Marking the validation as failed changes that flag and nothing else. -/
theorem C35_set_validation_failed (w : Nat) (hw : w < 2 ^ 64) :
    ∃ r, setValidationFailed w = some r ∧ r < 2 ^ 64 ∧ view r = { view w with failed := true } := by
  obtain ⟨r, hr⟩ := setBits_isSome (w := w) (lo := 8) (hi := 9) (v := 1) (by decide)
  refine ⟨r, hr, setBits_lt hr (by decide) (by decide) hw, ?_⟩
  rw [view_setBits hw hr (by decide) (by decide), view_eq w hw,
    getBits_setBits_same hr (by decide) (by decide)]
  simp only [getBits_setBits_ne hr (by decide) (by decide : 8 ≤ 64) (by decide : 8 ≤ 8 ∨ 9 ≤ 0),
    getBits_setBits_ne hr (by decide) (by decide : 10 ≤ 64) (by decide : 10 ≤ 8 ∨ 9 ≤ 9),
    getBits_setBits_ne hr (by decide) (by decide : 11 ≤ 64) (by decide : 11 ≤ 8 ∨ 9 ≤ 10),
    getBits_setBits_ne hr (by decide) (by decide : 64 ≤ 64) (by decide : 64 ≤ 8 ∨ 9 ≤ 11), beq_self_eq_true]

/-- C35. Marking the parent as invalid changes that flag and nothing else. -/
theorem C35_set_has_invalid_parent (w : Nat) (hw : w < 2 ^ 64) :
    ∃ r, setHasInvalidParent w = some r ∧ r < 2 ^ 64 ∧
      view r = { view w with invalidParent := true } := by
  obtain ⟨r, hr⟩ := setBits_isSome (w := w) (lo := 9) (hi := 10) (v := 1) (by decide)
  refine ⟨r, hr, setBits_lt hr (by decide) (by decide) hw, ?_⟩
  rw [view_setBits hw hr (by decide) (by decide), view_eq w hw,
    getBits_setBits_same hr (by decide) (by decide)]
  simp only [getBits_setBits_ne hr (by decide) (by decide : 8 ≤ 64) (by decide : 8 ≤ 9 ∨ 10 ≤ 0),
    getBits_setBits_ne hr (by decide) (by decide : 9 ≤ 64) (by decide : 9 ≤ 9 ∨ 10 ≤ 8),
    getBits_setBits_ne hr (by decide) (by decide : 11 ≤ 64) (by decide : 11 ≤ 9 ∨ 10 ≤ 10),
    getBits_setBits_ne hr (by decide) (by decide : 64 ≤ 64) (by decide : 64 ≤ 9 ∨ 10 ≤ 11), beq_self_eq_true]

/-- C35. Marking as explicitly invalidated changes that flag and nothing else. -/
theorem C35_set_explicitly_invalidated (w : Nat) (hw : w < 2 ^ 64) :
    ∃ r, setExplicitlyInvalidated w = some r ∧ r < 2 ^ 64 ∧
      view r = { view w with invalidated := true } := by
  obtain ⟨r, hr⟩ := setBits_isSome (w := w) (lo := 10) (hi := 11) (v := 1) (by decide)
  refine ⟨r, hr, setBits_lt hr (by decide) (by decide) hw, ?_⟩
  rw [view_setBits hw hr (by decide) (by decide), view_eq w hw,
    getBits_setBits_same hr (by decide) (by decide)]
  simp only [getBits_setBits_ne hr (by decide) (by decide : 8 ≤ 64) (by decide : 8 ≤ 10 ∨ 11 ≤ 0),
    getBits_setBits_ne hr (by decide) (by decide : 9 ≤ 64) (by decide : 9 ≤ 10 ∨ 11 ≤ 8),
    getBits_setBits_ne hr (by decide) (by decide : 10 ≤ 64) (by decide : 10 ≤ 10 ∨ 11 ≤ 9),
    getBits_setBits_ne hr (by decide) (by decide : 64 ≤ 64) (by decide : 64 ≤ 10 ∨ 11 ≤ 11), beq_self_eq_true]

/-- C35. Clearing the failure flags keeps the stage. -/
theorem C35_clear (w : Nat) (hw : w < 2 ^ 64) :
    ∃ r, withClearedFailBits w = some r ∧ r < 2 ^ 64 ∧ isOk r = true ∧
      view r = { view w with failed := false, invalidParent := false, invalidated := false } := by
  obtain ⟨r, hr⟩ := setBits_isSome (w := w) (lo := 8) (hi := 11) (v := 0) (by decide)
  have h0 : getBits r 8 11 = 0 := getBits_setBits_same hr (by decide) (by decide)
  have hok : isOk r = true := by simp [isOk, h0]
  refine ⟨r, hr, setBits_lt hr (by decide) (by decide) hw, hok, ?_⟩
  have hf := (C35_queries r).2.2.2.2.1 hok
  have hs : (view r).stage = (view w).stage := by
    rw [view_setBits hw hr (by decide) (by decide), view_eq w hw]
    exact getBits_setBits_ne hr (by decide) (by decide) (by decide)
  have hres : (view r).reserved = (view w).reserved := by
    rw [view_setBits hw hr (by decide) (by decide), view_eq w hw]
    exact getBits_setBits_ne hr (by decide) (by decide) (by decide)
  rcases hv : view r with ⟨a, b, c, d, e⟩
  rw [hv] at hf hs hres
  simp_all

/-- The operations a status goes through. -/
inductive Op where
  | advance (s : Stage)
  | validationFailed
  | invalidParent
  | invalidated
  | clear

/-- Apply an operation; `none` is a panic. -/
def apply (w : Nat) : Op → Option Nat
  | .advance s => advance w s
  | .validationFailed => setValidationFailed w
  | .invalidParent => setHasInvalidParent w
  | .invalidated => setExplicitlyInvalidated w
  | .clear => withClearedFailBits w

/-- The intended status: a stage and three flags. -/
structure Status where
  stage : Stage
  failed : Bool
  invalidParent : Bool
  invalidated : Bool
deriving DecidableEq

/-- The intended effect of an operation; `none` when it is not permitted. -/
def Status.apply (s : Status) : Op → Option Status
  | .advance n => if s.stage.next = some n then some { s with stage := n } else none
  | .validationFailed => some { s with failed := true }
  | .invalidParent => some { s with invalidParent := true }
  | .invalidated => some { s with invalidated := true }
  | .clear => some { s with failed := false, invalidParent := false, invalidated := false }

/-- The word stands for the status. -/
def Stands (w : Nat) (s : Status) : Prop :=
  w < 2 ^ 64 ∧ view w = ⟨s.stage.toNat, s.failed, s.invalidParent, s.invalidated, 0⟩

theorem fromU64_toNat (s : Stage) : Stage.fromU64 s.toNat = some s := by cases s <;> rfl

theorem stands_apply {w : Nat} {s : Status} (h : Stands w s) (o : Op) :
    match apply w o, s.apply o with
    | some w', some s' => Stands w' s'
    | none, none => True
    | _, _ => False := by
  obtain ⟨hw, hv⟩ := h
  cases o with
  | advance n =>
    have hst : lastValidStage w = some s.stage := by
      rw [(C35_queries w).1, hv]; exact fromU64_toNat _
    simp only [apply, advance, hst, Status.apply]
    by_cases hn : s.stage.next = some n
    · obtain ⟨r, hr, hr64, hrv⟩ := C35_set_stage w hw n
      simp only [hn, if_true, hr]
      exact ⟨hr64, by rw [hrv, hv]⟩
    · simp only [hn, if_false]
  | validationFailed =>
    obtain ⟨r, hr, hr64, hrv⟩ := C35_set_validation_failed w hw
    simp only [apply, hr, Status.apply]
    exact ⟨hr64, by rw [hrv, hv]⟩
  | invalidParent =>
    obtain ⟨r, hr, hr64, hrv⟩ := C35_set_has_invalid_parent w hw
    simp only [apply, hr, Status.apply]
    exact ⟨hr64, by rw [hrv, hv]⟩
  | invalidated =>
    obtain ⟨r, hr, hr64, hrv⟩ := C35_set_explicitly_invalidated w hw
    simp only [apply, hr, Status.apply]
    exact ⟨hr64, by rw [hrv, hv]⟩
  | clear =>
    obtain ⟨r, hr, hr64, _, hrv⟩ := C35_clear w hw
    simp only [apply, hr, Status.apply]
    exact ⟨hr64, by rw [hrv, hv]⟩

/-- Run a history. -/
def run {A : Type} (f : A → Op → Option A) : A → List Op → Option A
  | a, [] => some a
  | a, o :: r => match f a o with
    | none => none
    | some b => run f b r

/-- C35. Over any history from a fresh status, the word and the intended record of independent
fields stay together: the same operations are refused, and every query gives the record's answer; in
particular the stored stage is never corrupt. -/
theorem C35_refines (ops : List Op) :
    match run apply new ops, run Status.apply ⟨.unchecked, false, false, false⟩ ops with
    | some w, some s => lastValidStage w = some s.stage ∧ validationFailed w = s.failed ∧
        hasInvalidParent w = s.invalidParent ∧ isExplicitlyInvalidated w = s.invalidated ∧
        isOk w = !(s.failed || s.invalidParent || s.invalidated) ∧
        isFullyValid w = some (decide (s.stage = .fullyChecked) &&
          !(s.failed || s.invalidParent || s.invalidated))
    | none, none => True
    | _, _ => False := by
  have gen : ∀ (ops : List Op) (w : Nat) (s : Status), Stands w s →
      match run apply w ops, run Status.apply s ops with
      | some w, some s => Stands w s
      | none, none => True
      | _, _ => False := by
    intro ops
    induction ops with
    | nil => intro w s h; exact h
    | cons o r ih =>
      intro w s h
      have hs := stands_apply h o
      simp only [run]
      rcases ha : apply w o with _ | w' <;> rcases hb : s.apply o with _ | s' <;> rw [ha, hb] at hs
      · trivial
      · exact hs.elim
      · exact hs.elim
      · exact ih w' s' hs
  have h := gen ops new ⟨.unchecked, false, false, false⟩ ⟨by decide, rfl⟩
  revert h
  rcases run apply new ops with _ | w <;>
    rcases run Status.apply ⟨.unchecked, false, false, false⟩ ops with _ | s
  · exact fun _ => trivial
  · exact fun h => h.elim
  · exact fun h => h.elim
  · rintro ⟨hw, hv⟩
    have hq := C35_queries w
    have hst : lastValidStage w = some s.stage := by rw [hq.1, hv]; exact fromU64_toNat _
    have hok : isOk w = !(s.failed || s.invalidParent || s.invalidated) := by
      have h5 := hq.2.2.2.2
      rw [hv] at h5
      rw [Bool.eq_iff_iff, h5]
      simp [and_assoc]
    refine ⟨hst, ?_, ?_, ?_, hok, ?_⟩
    · rw [hq.2.1, hv]
    · rw [hq.2.2.1, hv]
    · rw [hq.2.2.2.1, hv]
    · simp only [isFullyValid, hst, hok]

/-- A history with all kinds of operations: fail, advance twice, clear; the final word is 2.  An
attempt to skip a stage is refused. -/
example : run apply new [.advance .checkBlockOk, .validationFailed, .invalidated,
      .advance .fullyChecked] = some 0b10100000010 ∧
    run apply new [.advance .checkBlockOk, .validationFailed, .advance .fullyChecked, .clear] =
      some 2 ∧
    run apply new [.advance .fullyChecked] = none := by
  decide +kernel

end Verif.BlockStatus
