import Verif.Stake.Model
import Verif.Stake.Spec
import Mathlib.Tactic.FieldSimp
import Mathlib.Tactic.Positivity
import Mathlib.Tactic.Linarith
import Mathlib.Tactic.Ring
import Mathlib.Algebra.Order.Field.Basic
import Mathlib.Data.Rat.Floor

/-!
# Lemmas for C58
-/

namespace Verif.Stake
open Verif

theorem mulIn_eq {m a b c : Nat} : mulIn m a b = some c ↔ a * b < m ∧ a * b = c := by
  unfold mulIn; split <;> simp_all
theorem subIn_eq {a b c : Nat} : subIn a b = some c ↔ b ≤ a ∧ a - b = c := by
  unfold subIn; split <;> simp_all
theorem divIn_eq {a b c : Nat} : divIn a b = some c ↔ b ≠ 0 ∧ a / b = c := by
  unfold divIn; split <;> simp_all

/-- stake below which nothing overflows: a thousand times 2^75 -/
def maxSupply : Nat := 1000 * 2 ^ 75

theorem effective_ok {pledge balance supply e : Nat} (h : effective pledge balance supply = .ok e) :
    balance < supply ∧ pledge ≤ balance ∧ 0 < supply / 1000 ∧
    e = min balance (supply / 1000) - (min balance (supply / 1000) * ((supply / 1000) * (supply / 1000)) -
      ((supply / 1000) * min balance (supply / 1000) - ((supply / 1000) - min balance (supply / 1000)) * min pledge (supply / 1000)) *
        min pledge (supply / 1000)) * 75375728 / 1075375728 / ((supply / 1000) * (supply / 1000)) := by
  simp only [effective, effectiveImpl, bind_eq_ok, okOr_eq_ok, ensure_eq_ok, pure_eq_ok, mulIn_eq, subIn_eq, divIn_eq] at h
  obtain ⟨_, h0, _, h1, _, h2, zn, ⟨-, rfl⟩, z, ⟨-, rfl⟩, z2, ⟨-, rfl⟩, d, ⟨-, rfl⟩, t1, ⟨-, rfl⟩, zs, ⟨-, rfl⟩, r, ⟨-, rfl⟩,
    t2, ⟨-, rfl⟩, sz2, ⟨-, rfl⟩, m, ⟨-, rfl⟩, num, ⟨-, rfl⟩, an, h3, q, ⟨-, rfl⟩, adj, ⟨h4, rfl⟩, _, -, e', ⟨-, rfl⟩, _, -, rfl⟩ := h
  have : an = 1075375728 := by
    have : (75375728 + 1000000000 < U128) := by decide
    rw [if_pos this] at h3
    exact (Option.some.inj h3).symm
  subst this
  simp only [mul_one] at h4 ⊢
  refine ⟨h1, h2, ?_, trivial⟩
  by_contra hz
  have : supply / 1000 = 0 := by omega
  rw [this] at h4
  exact h4 rfl

theorem arith {z g s : Nat} (hg : g ≤ z) (hs : s ≤ g) : (z - g) * s ≤ z * g ∧ (z * g - (z - g) * s) * s ≤ g * (z * z) := by
  have h1 : (z - g) * s ≤ z * g := Nat.mul_le_mul (Nat.sub_le _ _) hs
  refine ⟨h1, ?_⟩
  calc (z * g - (z - g) * s) * s ≤ (z * g) * z := Nat.mul_le_mul (Nat.sub_le _ _) (hs.trans hg)
    _ = g * (z * z) := by ring

theorem effective_total {pledge balance supply : Nat} (h1 : 1000 ≤ supply) (h2 : supply ≤ maxSupply) (hb : balance < supply)
    (hp : pledge ≤ balance) : ∃ e, effective pledge balance supply = .ok e := by
  have hz : supply / 1000 ≤ 2 ^ 75 := by unfold maxSupply at h2; omega
  have hz0 : 0 < supply / 1000 := by omega
  have hsup : supply < U128 := lt_of_le_of_lt h2 (by decide)
  set z := supply / 1000 with hzd
  set g := min balance z with hgd
  set s := min pledge z with hsd
  have hg : g ≤ z := min_le_right _ _
  have hs : s ≤ g := min_le_min_right _ hp
  obtain ⟨a1, a2⟩ := arith hg hs
  have b1 : z * z ≤ 2 ^ 150 := by
    calc z * z ≤ 2 ^ 75 * 2 ^ 75 := Nat.mul_le_mul hz hz
      _ = 2 ^ 150 := by norm_num
  have b2 : g * (z * z) ≤ 2 ^ 225 := by
    calc g * (z * z) ≤ 2 ^ 75 * 2 ^ 150 := Nat.mul_le_mul (hg.trans hz) b1
      _ = 2 ^ 225 := by norm_num
  have b3 : z * g ≤ 2 ^ 150 := by
    calc z * g ≤ 2 ^ 75 * 2 ^ 75 := Nat.mul_le_mul hz (hg.trans hz)
      _ = 2 ^ 150 := by norm_num
  have b4 : (g * (z * z) - (z * g - (z - g) * s) * s) * 75375728 ≤ g * (z * z) * 75375728 := Nat.mul_le_mul_right _ (Nat.sub_le _ _)
  have b5 : (g * (z * z) - (z * g - (z - g) * s) * s) * 75375728 / 1075375728 / (z * z) ≤ g := by
    rw [Nat.div_div_eq_div_mul]
    apply Nat.div_le_of_le_mul
    calc _ ≤ g * (z * z) * 75375728 := b4
      _ ≤ g * (z * z) * 1075375728 := Nat.mul_le_mul_left _ (by norm_num)
      _ = _ := by ring
  have b6 : g < U128 := lt_of_le_of_lt (hg.trans hz) (by decide)
  have u : U256 = 2 ^ 256 := rfl
  refine ⟨g - (g * (z * z) - (z * g - (z - g) * s) * s) * 75375728 / 1075375728 / (z * z), ?_⟩
  simp only [effective, effectiveImpl, bind_eq_ok, okOr_eq_ok, ensure_eq_ok, pure_eq_ok, mulIn_eq, subIn_eq, divIn_eq]
  refine ⟨(), by omega, (), hb, (), hp, supply, ⟨by omega, by omega⟩, z, ⟨by omega, rfl⟩, z * z, ⟨by omega, rfl⟩, z - g, ⟨hg, rfl⟩,
    (z - g) * s, ⟨lt_of_le_of_lt (a1.trans b3) (by decide), rfl⟩, z * g, ⟨lt_of_le_of_lt b3 (by decide), rfl⟩, z * g - (z - g) * s, ⟨a1, rfl⟩, (z * g - (z - g) * s) * s, ⟨lt_of_le_of_lt (a2.trans b2) (by decide), rfl⟩,
    g * (z * z), ⟨lt_of_le_of_lt b2 (by decide), rfl⟩, g * (z * z) - (z * g - (z - g) * s) * s, ⟨a2, rfl⟩, _, ⟨lt_of_le_of_lt (b4.trans (Nat.mul_le_mul_right _ b2)) (by decide), rfl⟩, 1075375728, by decide,
    _, ⟨by norm_num, rfl⟩, _, ⟨?_, rfl⟩, (), lt_of_le_of_lt b5 b6, _, ⟨b5, rfl⟩, (), Nat.sub_le _ _, rfl⟩
  exact Nat.mul_ne_zero (by omega) (by omega)

/-- the numbers of the formula -/
theorem effective_ceil {pledge balance supply e : Nat} (h : effective pledge balance supply = .ok e) :
    IsCeil e (weight influence ((supply / 1000 : Nat) : ℚ) (min pledge (supply / 1000) : Nat) (min balance (supply / 1000) : Nat)) := by
  obtain ⟨h1, h2, h3, he⟩ := effective_ok h
  clear h
  have hg : min balance (supply / 1000) ≤ supply / 1000 := min_le_right _ _
  have hs : min pledge (supply / 1000) ≤ min balance (supply / 1000) := min_le_min_right _ h2
  generalize supply / 1000 = z at *
  generalize min balance z = g at *
  generalize min pledge z = s at *
  obtain ⟨a1, a2⟩ := arith hg hs
  rw [Nat.div_div_eq_div_mul] at he
  have hD : 0 < 1075375728 * (z * z) := by positivity
  obtain ⟨M, hM⟩ : ∃ M, M = g * (z * z) - (z * g - (z - g) * s) * s := ⟨_, rfl⟩
  rw [← hM] at he
  have hMq : (M : ℚ) = g * (z * z) - (z * g - (z - g) * s) * s := by
    rw [hM, Nat.cast_sub a2]
    push_cast [Nat.cast_sub a1, Nat.cast_sub hg]
    ring
  have hzq : (0 : ℚ) < z := by exact_mod_cast h3
  have hx : weight influence z s g = g - (M : ℚ) * 75375728 / (1075375728 * (z * z)) := by
    rw [hMq]
    unfold weight influence
    field_simp
    ring
  have hq1 := Nat.div_mul_le_self (M * 75375728) (1075375728 * (z * z))
  have hq2 := Nat.lt_div_mul_add hD (a := M * 75375728)
  generalize hq : M * 75375728 / (1075375728 * (z * z)) = q at *
  have hDq : (0 : ℚ) < 1075375728 * (z * z) := by positivity
  have c1 : (q : ℚ) ≤ (M : ℚ) * 75375728 / (1075375728 * (z * z)) := by
    rw [le_div_iff₀ hDq]
    exact_mod_cast hq1
  have c2 : (M : ℚ) * 75375728 / (1075375728 * (z * z)) < q + 1 := by
    rw [div_lt_iff₀ hDq, add_mul, one_mul]
    exact_mod_cast hq2
  have hqg : q ≤ g := by
    have : M ≤ g * (z * z) := by rw [hM]; exact Nat.sub_le _ _
    rw [← hq]
    apply Nat.div_le_of_le_mul
    calc M * 75375728 ≤ g * (z * z) * 1075375728 := Nat.mul_le_mul this (by norm_num)
      _ = _ := by ring
  have heq : (e : ℚ) = g - q := by rw [he, Nat.cast_sub hqg]
  rw [IsCeil, hx, heq]
  constructor <;> linarith

theorem okOr_not_panic {α} {o : Option α} : okOr o Err.arithmetic ≠ .error .panic := by cases o <;> simp [okOr]
theorem ensure_not_panic {p : Prop} [Decidable p] {x : Err} (h : x ≠ .panic) : ensure p x ≠ .error .panic := by
  unfold ensure; split <;> simp [h]
theorem bind_not_panic {α β} {a : Except Err α} {f : α → Except Err β} (ha : a ≠ .error .panic) (hf : ∀ x, a = .ok x → f x ≠ .error .panic) :
    (a >>= f) ≠ .error .panic := by
  cases a with
  | error e => simpa [bind, Except.bind] using ha
  | ok x => exact hf x rfl

/-- the `assert!` never fails -/
theorem effective_no_panic {pledge balance supply : Nat} : effective pledge balance supply ≠ .error .panic := by
  unfold effective effectiveImpl
  refine bind_not_panic (ensure_not_panic (by decide)) fun _ _ => ?_
  refine bind_not_panic (ensure_not_panic (by decide)) fun _ _ => ?_
  refine bind_not_panic (ensure_not_panic (by decide)) fun _ _ => ?_
  iterate 14 refine bind_not_panic okOr_not_panic fun _ _ => ?_
  refine bind_not_panic (ensure_not_panic (by decide)) fun _ _ => ?_
  iterate 1 refine bind_not_panic okOr_not_panic fun _ _ => ?_
  rename_i e he
  rw [okOr_eq_ok, subIn_eq] at he
  have := he.2 ▸ Nat.sub_le _ _
  simp [ensure, this, bind, Except.bind, pure, Except.pure]

end Verif.Stake
