import Verif.Base.Amount

/-!
# Property C24: amount arithmetic is exact or refused
-/

namespace Verif

/-- representable as an unsigned 128-bit amount -/
def RepU (x : Int) : Prop := 0 ≤ x ∧ x < 2^128
/-- representable as a signed 128-bit amount -/
def RepS (x : Int) : Prop := -2^127 ≤ x ∧ x < 2^127

theorem chk_iff (x r : Int) : SAmt.chk x = some r ↔ RepS x ∧ r = x := by
  have e : I128 = 2^127 := by norm_num [I128]
  unfold SAmt.chk
  have hr : SAmt.InRange x ↔ RepS x := by unfold SAmt.InRange RepS; rw [e]
  rw [← hr]
  split
  · rename_i h; simp only [Option.some.injEq]; constructor
    · rintro rfl; exact ⟨h, rfl⟩
    · rintro ⟨_, rfl⟩; rfl
  · rename_i h; simp only [reduceCtorEq, false_iff]; rintro ⟨h1, _⟩; exact h h1

/-- C24, unsigned: each checked operation yields `r` iff `r` is the exact result and is representable. -/
theorem C24_unsigned_exact (a b r : Nat) :
    (Amt.add a b = some r ↔ RepU ((a:Int) + b) ∧ (r:Int) = a + b) ∧
    (Amt.sub a b = some r ↔ 0 ≤ (a:Int) - b ∧ (r:Int) = a - b) ∧
    (Amt.mul a b = some r ↔ RepU ((a:Int) * b) ∧ (r:Int) = a * b) ∧
    (Amt.div a b = some r ↔ b ≠ 0 ∧ r * b ≤ a ∧ a < (r + 1) * b) ∧
    (Amt.rem a b = some r ↔ b ≠ 0 ∧ r < b ∧ ∃ q, a = q * b + r) := by
  have e : U128 = 2^128 := by norm_num [U128]
  refine ⟨?_, ?_, ?_, ?_, ?_⟩
  · unfold Amt.add RepU
    split <;> simp only [Option.some.injEq, reduceCtorEq, false_iff] <;> omega
  · unfold Amt.sub
    split <;> simp only [Option.some.injEq, reduceCtorEq, false_iff] <;> omega
  · unfold Amt.mul RepU
    rw [← Int.natCast_mul]
    generalize a * b = p
    split <;> simp only [Option.some.injEq, reduceCtorEq, false_iff] <;> omega
  · unfold Amt.div
    split
    · simp_all
    · rename_i h
      have hb : 0 < b := Nat.pos_of_ne_zero h
      simp only [Option.some.injEq, ne_eq, h, not_false_eq_true, true_and]
      constructor
      · rintro rfl
        exact ⟨Nat.div_mul_le_self a b, by rw [Nat.mul_comm]; exact Nat.lt_mul_div_succ a hb⟩
      · rintro ⟨h1, h2⟩
        exact Nat.div_eq_of_lt_le (by linarith) (by linarith)
  · unfold Amt.rem
    split
    · simp_all
    · rename_i h
      have hb : 0 < b := Nat.pos_of_ne_zero h
      simp only [Option.some.injEq, ne_eq, h, not_false_eq_true, true_and]
      constructor
      · rintro rfl
        exact ⟨Nat.mod_lt _ hb, a / b, by rw [Nat.mul_comm]; exact (Nat.div_add_mod a b).symm⟩
      · rintro ⟨h1, q, rfl⟩
        rw [Nat.mul_comm, Nat.mul_add_mod, Nat.mod_eq_of_lt h1]

/-- C24, signed: each checked operation yields `r` iff `r` is the exact result and is representable; division and
remainder truncate towards zero. -/
theorem C24_signed_exact (a b r : Int) :
    (SAmt.add a b = some r ↔ RepS (a + b) ∧ r = a + b) ∧
    (SAmt.sub a b = some r ↔ RepS (a - b) ∧ r = a - b) ∧
    (SAmt.mul a b = some r ↔ RepS (a * b) ∧ r = a * b) ∧
    (SAmt.neg a = some r ↔ RepS (-a) ∧ r = -a) ∧
    (SAmt.div a b = some r ↔ b ≠ 0 ∧ RepS (a.tdiv b) ∧ r = a.tdiv b) := by
  refine ⟨chk_iff _ _, chk_iff _ _, chk_iff _ _, chk_iff _ _, ?_⟩
  unfold SAmt.div
  split
  · simp_all
  · rename_i h; simp [chk_iff, h]

/-- C24, signed remainder: exact, except that the remainder of −2^127 by −1 (which is 0) is refused. -/
theorem C24_signed_rem (a b r : Int) :
    SAmt.rem a b = some r ↔ b ≠ 0 ∧ ¬ (a = -2^127 ∧ b = -1) ∧ r = a.tmod b := by
  have e : I128 = 2^127 := by norm_num [I128]
  unfold SAmt.rem
  rw [e]
  split
  · simp_all
  · split <;> simp_all [eq_comm]

/-- C24, conversions: unsigned to signed iff below 2^127, signed to unsigned iff not negative; both keep the
value, and they are inverse to each other. -/
theorem C24_conversions (a : Nat) (x : Int) :
    (∀ r, Amt.intoSigned a = some r ↔ RepS a ∧ r = a) ∧
    (∀ r : Nat, SAmt.intoUnsigned x = some r ↔ 0 ≤ x ∧ (r : Int) = x) ∧
    (∀ r, Amt.intoSigned a = some r → SAmt.intoUnsigned r = some a) ∧
    (∀ r, RepS x → SAmt.intoUnsigned x = some r → Amt.intoSigned r = some x) := by
  have e : I128 = 2^127 := by norm_num [I128]
  unfold Amt.intoSigned SAmt.intoUnsigned RepS
  rw [e]
  refine ⟨?_, ?_, ?_, ?_⟩
  · intro r
    split <;> simp only [Option.some.injEq, reduceCtorEq, false_iff] <;> omega
  · intro r
    split <;> simp only [Option.some.injEq, reduceCtorEq, false_iff] <;> omega
  · intro r
    split
    · rintro ⟨⟩
      simp
    · rintro ⟨⟩
  · intro r hx
    split
    · rintro ⟨⟩
      rename_i h
      have : ((x.toNat : Nat) : Int) = x := Int.toNat_of_nonneg h
      rw [this, if_pos hx.2]
    · rintro ⟨⟩

theorem foldlM_add (l : List Nat) (s r : Nat) (hs : s < U128) :
    l.foldlM Amt.add s = some r ↔ s + l.sum < U128 ∧ r = s + l.sum := by
  induction l generalizing s with
  | nil => simp [hs, eq_comm]
  | cons a t ih =>
    rw [List.foldlM_cons, List.sum_cons, ← Nat.add_assoc]
    by_cases h : s + a < U128
    · have : Amt.add s a = some (s + a) := by simp [Amt.add, h]
      rw [this]
      exact ih _ h
    · have : Amt.add s a = none := by simp [Amt.add, h]
      rw [this]
      simp only [Option.bind_eq_bind, Option.bind_none, reduceCtorEq, false_iff]
      omega

/-- C24, summation of a list of amounts: exact, refused iff the total is not representable. -/
theorem C24_sum_exact (l : List Nat) (r : Nat) :
    Amt.sum l = some r ↔ l.sum < 2^128 ∧ r = l.sum := by
  have e : U128 = 2^128 := by norm_num [U128]
  unfold Amt.sum
  rw [foldlM_add l 0 r (by rw [e]; omega), e]
  simp

/-- C24: the absolute difference never panics and is exact. -/
theorem C24_abs_diff (a b : Nat) : (Amt.absDiff a b : Int) = |(a:Int) - b| := by
  unfold Amt.absDiff
  split
  · rw [abs_of_nonneg] <;> omega
  · rw [abs_of_nonpos] <;> omega

example : Amt.add (2^128 - 2) 1 = some (2^128 - 1) ∧ Amt.add (2^128 - 1) 1 = none := by decide
example : SAmt.div (-7) 2 = some (-3) ∧ SAmt.div (-2^127) (-1) = none ∧ SAmt.rem (-2^127) (-1) = none := by decide
example : Amt.sum [2^127, 2^127 - 1] = some (2^128 - 1) ∧ Amt.sum [2^127, 2^127] = none := by decide

end Verif
