import Verif.Rolling.Model
import Mathlib.Tactic.Common

namespace Verif.Rolling
variable {α : Type}

/-- What the three filters hold after the history `h`. -/
structure Inv (f : Filter α) (h : List α) : Prop where
  count : f.count < f.max
  ex : ∃ a b c : Bloom α, f.sub.list = [a, b, c] ∧
    ((f.sub.current = 0 ∧ a.items = h.take f.count ∧ c.items = (h.drop f.count).take f.max ∧
        b.items = (h.drop (f.count + f.max)).take f.max) ∨
     (f.sub.current = 1 ∧ b.items = h.take f.count ∧ a.items = (h.drop f.count).take f.max ∧
        c.items = (h.drop (f.count + f.max)).take f.max) ∨
     (f.sub.current = 2 ∧ c.items = h.take f.count ∧ b.items = (h.drop f.count).take f.max ∧
        a.items = (h.drop (f.count + f.max)).take f.max))

theorem new_max (size : Nat) : 0 < (Filter.new α size).max := by
  simp only [Filter.new]; omega

theorem new_size (size : Nat) : size ≤ 2 * (Filter.new α size).max := by
  simp only [Filter.new, subfilters]; omega

theorem insert_max (f : Filter α) (x : α) : (f.insert x).max = f.max := by
  unfold Filter.insert; dsimp only; split <;> rfl

theorem after_max (size : Nat) (h : List α) : (Filter.after size h).max = (Filter.new α size).max := by
  induction h with
  | nil => rfl
  | cons x t ih => rw [Filter.after, insert_max, ih]

theorem inv_new (size : Nat) : Inv (Filter.new α size) [] :=
  ⟨new_max size, ⟨_, _, _, rfl, Or.inr (Or.inr ⟨rfl, by simp, by simp, by simp⟩)⟩⟩

theorem inv_insert {f : Filter α} {h : List α} (i : Inv f h) (x : α) : Inv (f.insert x) (x :: h) := by
  obtain ⟨hc, a, b, c, hl, hi⟩ := i
  obtain ⟨⟨l, cur⟩, count, mx, nx⟩ := f
  simp only at hc hl hi
  subst hl
  by_cases e : count + 1 = mx
  · subst e
    refine ⟨?_, ?_⟩
    · rw [insert_max]; simp [Filter.insert]
    · rcases hi with ⟨rfl, h1, h2, h3⟩ | ⟨rfl, h1, h2, h3⟩ | ⟨rfl, h1, h2, h3⟩ <;>
        simp [Filter.insert, Cyclic.modifyLast, Cyclic.push, Bloom.insert, h1, h2]
  · refine ⟨?_, ?_⟩
    · rw [insert_max]; simp only [Filter.insert, if_neg e]; omega
    · have e1 : count + 1 + mx = (count + mx) + 1 := by omega
      rcases hi with ⟨rfl, h1, h2, h3⟩ | ⟨rfl, h1, h2, h3⟩ | ⟨rfl, h1, h2, h3⟩ <;>
        simp [Filter.insert, Cyclic.modifyLast, Bloom.insert, h1, h2, h3, e, e1]

theorem inv_after (size : Nat) (h : List α) : Inv (Filter.after size h) h := by
  induction h with
  | nil => exact inv_new size
  | cons x t ih => exact inv_insert ih x

variable [DecidableEq α]

theorem mem_split {h : List α} {x : α} {c m : Nat} :
    x ∈ h.take (c + 2 * m) ↔
      x ∈ h.take c ∨ x ∈ (h.drop c).take m ∨ x ∈ (h.drop (c + m)).take m := by
  rw [show c + 2 * m = c + m + m by omega, List.take_add, List.take_add, List.mem_append, List.mem_append, or_assoc]

/-- The filter says yes to what it holds, and otherwise only to what some bloom filter lets through. -/
theorem contains_iff {f : Filter α} {h : List α} (i : Inv f h) (fp : Nat → List α → α → Bool) (x : α) :
    f.contains fp x = true ↔
      x ∈ h.take (f.count + 2 * f.max) ∨ ∃ b ∈ f.sub.list, fp b.serial b.items x = true := by
  obtain ⟨_, a, b, c, hl, hi⟩ := i
  rw [mem_split]
  simp only [Filter.contains, Bloom.contains, hl, List.any_cons, List.any_nil, Bool.or_false, Bool.or_eq_true,
    decide_eq_true_eq, List.mem_cons, List.not_mem_nil, or_false, exists_eq_or_imp, exists_eq_left]
  rcases hi with ⟨_, h1, h2, h3⟩ | ⟨_, h1, h2, h3⟩ | ⟨_, h1, h2, h3⟩ <;> simp only [h1, h2, h3] <;> tauto

end Verif.Rolling
