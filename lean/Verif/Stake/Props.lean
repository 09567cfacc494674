import Verif.Stake.Lemmas
import Mathlib.Algebra.Order.BigOperators.Group.List

/-!
# C58: the weight of a pool

What a pool operator and their delegators rely on when they decide about pledge and balance, and what the rest of the network relies on:
no pool counts for more than a thousandth of the supply, and splitting a pool gains nothing.
-/

set_option maxRecDepth 100000

namespace Verif.Stake
open Verif

/-! ### facts about the formula -/

theorem IsCeil.mono {m n : Nat} {x y : ℚ} (hm : IsCeil m x) (hn : IsCeil n y) (h : x ≤ y) : m ≤ n := by
  have : (m : ℚ) < n + 1 := by linarith [hm.2, hn.1]
  have : m < n + 1 := by exact_mod_cast this
  omega

theorem IsCeil.unique {m n : Nat} {x : ℚ} (hm : IsCeil m x) (hn : IsCeil n x) : m = n :=
  le_antisymm (hm.mono hn le_rfl) (hn.mono hm le_rfl)

theorem IsCeil.cast (n : Nat) : IsCeil n (n : ℚ) := ⟨le_rfl, by linarith⟩

theorem weight_eq {z s g : ℚ} (hz : 0 < z) :
    weight influence z s g = (g + influence * ((s * z * (g - s) + s * s * g) / (z * z))) / (influence + 1) := by
  unfold weight
  field_simp
  ring

theorem influence_pos : 0 < influence := by unfold influence; norm_num

/-- the weight grows in the balance -/
theorem weight_mono {z s g g' : ℚ} (hz : 0 < z) (hs : 0 ≤ s) (h : g ≤ g') : weight influence z s g ≤ weight influence z s g' := by
  rw [weight_eq hz, weight_eq hz]
  have ha := influence_pos
  have h1 : s * z * (g - s) + s * s * g ≤ s * z * (g' - s) + s * s * g' := by
    have := mul_nonneg (mul_nonneg hs hz.le) (sub_nonneg.2 h)
    have := mul_nonneg (mul_nonneg hs hs) (sub_nonneg.2 h)
    nlinarith
  gcongr

theorem weight_super {z s g s' g' : ℚ} (hz : 0 < z) (hs : 0 ≤ s) (hg : s ≤ g) (hs' : 0 ≤ s') (hg' : s' ≤ g') :
    weight influence z s g + weight influence z s' g' ≤ weight influence z (s + s') (g + g') := by
  rw [weight_eq hz, weight_eq hz, weight_eq hz, ← add_div]
  have ha := influence_pos
  have h1 : (s * z * (g - s) + s * s * g) + (s' * z * (g' - s') + s' * s' * g') ≤
      (s + s') * z * ((g + g') - (s + s')) + (s + s') * (s + s') * (g + g') := by
    have a1 := mul_nonneg (mul_nonneg hs hz.le) (sub_nonneg.2 hg')
    have a2 := mul_nonneg (mul_nonneg hs' hz.le) (sub_nonneg.2 hg)
    have a3 := mul_nonneg (mul_nonneg hs hs') (add_nonneg (hs.trans hg) (hs'.trans hg'))
    have a4 := mul_nonneg (mul_nonneg hs hs) (hs'.trans hg')
    have a5 := mul_nonneg (mul_nonneg hs' hs') (hs.trans hg)
    nlinarith
  have h2 := div_le_div_of_nonneg_right h1 (mul_pos hz hz).le
  rw [add_div] at h2
  have h3 := mul_le_mul_of_nonneg_left h2 ha.le
  apply div_le_div_of_nonneg_right _ (by linarith)
  linarith

/-- how the weight moves with the pledge -/
theorem weight_pledge {z s s' g : ℚ} (hz : 0 < z) :
    weight influence z s' g - weight influence z s g =
      influence / (influence + 1) * ((s' - s) * (z * g - (s + s') * (z - g)) / (z * z)) := by
  rw [weight_eq hz, weight_eq hz]
  have ha := influence_pos
  field_simp
  ring

/-! ### C58 -/

/-- **C58 (formula).**  When the computation succeeds, the result is the weight given by the published formula, rounded up, of the balance and
the pledge each capped at a thousandth of the supply. -/
theorem C58_formula {pledge balance supply e : Nat} (h : effective pledge balance supply = .ok e) :
    IsCeil e (weight influence ((supply / 1000 : Nat) : ℚ) (min pledge (supply / 1000) : Nat) (min balance (supply / 1000) : Nat)) :=
  effective_ceil h

/-- **C58 (total).**  For a supply from 1000 atoms up to `1000 * 2 ^ 75` (the mainnet's is below `2 ^ 66`), the computation succeeds exactly for the pools
whose balance is below the supply and whose pledge is at most the balance. -/
theorem C58_total {pledge balance supply : Nat} (h1 : 1000 ≤ supply) (h2 : supply ≤ 1000 * 2 ^ 75) :
    (∃ e, effective pledge balance supply = .ok e) ↔ balance < supply ∧ pledge ≤ balance := by
  constructor
  · rintro ⟨e, h⟩
    obtain ⟨a, b, -, -⟩ := effective_ok h
    exact ⟨a, b⟩
  · rintro ⟨a, b⟩
    exact effective_total h1 h2 a b

/-- **C58 (cap).**  A pool never counts for more than its balance, nor for more than a thousandth of the supply. -/
theorem C58_cap {pledge balance supply e : Nat} (h : effective pledge balance supply = .ok e) : e ≤ balance ∧ e * 1000 ≤ supply := by
  obtain ⟨-, -, -, he⟩ := effective_ok h
  have : e ≤ min balance (supply / 1000) := by rw [he]; exact Nat.sub_le _ _
  have := min_le_left balance (supply / 1000)
  have := min_le_right balance (supply / 1000)
  omega

/-- **C58 (floor).**  Whatever the pledge, a pool counts for at least `1 / 1.075375728` of its balance up to the cap; without a pledge for exactly that,
rounded up. -/
theorem C58_floor {pledge balance supply e : Nat} (h : effective pledge balance supply = .ok e) :
    min balance (supply / 1000) * 1000000000 ≤ e * 1075375728 ∧
      (pledge = 0 → e * 1075375728 < min balance (supply / 1000) * 1000000000 + 1075375728) := by
  have hc := effective_ceil h
  obtain ⟨h1, h2, h3, he⟩ := effective_ok h
  have hs : min pledge (supply / 1000) ≤ min balance (supply / 1000) := min_le_min_right _ h2
  have h0 : pledge = 0 → min pledge (supply / 1000) = 0 := by rintro rfl; simp
  generalize supply / 1000 = z at *
  generalize min balance z = g at *
  generalize min pledge z = s at *
  have hzq : (0 : ℚ) < z := by exact_mod_cast h3
  have hsq : (s : ℚ) ≤ g := by exact_mod_cast hs
  rw [weight_eq hzq] at hc
  have ha : influence + 1 = 1075375728 / 1000000000 := by unfold influence; norm_num
  constructor
  · have c1 := hc.1
    rw [ha, div_le_iff₀ (by norm_num)] at c1
    have : (0 : ℚ) ≤ influence * ((s * z * (g - s) + s * s * g) / (z * z)) := by
      have := influence_pos
      have := sub_nonneg.2 hsq
      positivity
    have : (g : ℚ) * 1000000000 ≤ e * 1075375728 := by linarith
    exact_mod_cast this
  · intro hp
    have hs0 := h0 hp
    subst hs0
    have c2 := hc.2
    simp only [Nat.cast_zero, zero_mul, zero_div, mul_zero, add_zero] at c2
    rw [ha, ← sub_lt_iff_lt_add, lt_div_iff₀ (by norm_num)] at c2
    have : (e : ℚ) * 1075375728 < g * 1000000000 + 1075375728 := by linarith
    exact_mod_cast this

/-- **C58 (full).**  A pool that pledges a thousandth of the supply counts for exactly that, and more balance or pledge changes nothing. -/
theorem C58_full {pledge balance supply e : Nat} (h : effective pledge balance supply = .ok e) (hp : supply / 1000 ≤ pledge) :
    e = supply / 1000 := by
  have hc := effective_ceil h
  obtain ⟨h1, h2, h3, -⟩ := effective_ok h
  rw [min_eq_right hp, min_eq_right (hp.trans h2)] at hc
  generalize supply / 1000 = z at *
  have hzq : (0 : ℚ) < z := by exact_mod_cast h3
  have : weight influence z z z = z := by
    have ha := influence_pos
    unfold weight
    field_simp
    ring
  rw [this] at hc
  exact hc.unique (IsCeil.cast z)

/-- **C58 (balance).**  With the same pledge a larger balance never counts for less. -/
theorem C58_balance {pledge balance balance' supply e e' : Nat} (h : effective pledge balance supply = .ok e)
    (h' : effective pledge balance' supply = .ok e') (hle : balance ≤ balance') : e ≤ e' := by
  obtain ⟨-, -, h3, -⟩ := effective_ok h
  refine (effective_ceil h).mono (effective_ceil h') (weight_mono (by exact_mod_cast h3) (by positivity) ?_)
  exact_mod_cast min_le_min_right _ hle

/-- **C58 (pledge).**  With the same balance, below the saturation `z` of a thousandth of the supply, a larger pledge never counts for less as long as the pledge
stays up to the documented peak `z * balance / (2 * (z - balance))`, and never counts for more beyond it. -/
theorem C58_pledge {pledge pledge' balance supply e e' : Nat} (h : effective pledge balance supply = .ok e)
    (h' : effective pledge' balance supply = .ok e') (hle : pledge ≤ pledge') (hz : balance ≤ supply / 1000) :
    (2 * pledge' * (supply / 1000 - balance) ≤ supply / 1000 * balance → e ≤ e') ∧
    (supply / 1000 * balance ≤ 2 * pledge * (supply / 1000 - balance) → e' ≤ e) := by
  have hc := effective_ceil h
  have hc' := effective_ceil h'
  obtain ⟨-, h2, h3, -⟩ := effective_ok h
  obtain ⟨-, h2', -, -⟩ := effective_ok h'
  rw [min_eq_left hz, min_eq_left (h2.trans hz)] at hc
  rw [min_eq_left hz, min_eq_left (h2'.trans hz)] at hc'
  generalize supply / 1000 = z at *
  have hzq : (0 : ℚ) < z := by exact_mod_cast h3
  have hd := weight_pledge (s := pledge) (s' := pledge') (g := balance) hzq
  have hleq : (pledge : ℚ) ≤ pledge' := by exact_mod_cast hle
  have hgz : (0 : ℚ) ≤ (z : ℚ) - balance := by rw [sub_nonneg]; exact_mod_cast hz
  have ha := influence_pos
  have hpos : (0 : ℚ) ≤ influence / (influence + 1) := by positivity
  constructor
  · intro hk
    refine hc.mono hc' ?_
    have hk' : (2 : ℚ) * pledge' * (z - balance) ≤ z * balance := by
      have := (Nat.cast_le (α := ℚ)).2 hk
      push_cast [Nat.cast_sub hz] at this
      exact this
    have : (0 : ℚ) ≤ z * balance - (pledge + pledge') * (z - balance) := by nlinarith
    have := mul_nonneg hpos (div_nonneg (mul_nonneg (sub_nonneg.2 hleq) this) (mul_pos hzq hzq).le)
    linarith
  · intro hk
    refine hc'.mono hc ?_
    have hk' : (z : ℚ) * balance ≤ 2 * pledge * (z - balance) := by
      have := (Nat.cast_le (α := ℚ)).2 hk
      push_cast [Nat.cast_sub hz] at this
      exact this
    have h1 : (0 : ℚ) ≤ (pledge + pledge') * (z - balance) - z * balance := by nlinarith
    have := mul_nonneg hpos (div_nonneg (mul_nonneg (sub_nonneg.2 hleq) h1) (mul_pos hzq hzq).le)
    have e1 : influence / (influence + 1) * ((pledge' - pledge) * (z * balance - (pledge + pledge') * (z - balance)) / (z * z)) =
      - (influence / (influence + 1) * ((pledge' - pledge) * ((pledge + pledge') * (z - balance) - z * balance) / (z * z))) := by ring
    rw [e1] at hd
    linarith

theorem super_list {w : ℚ → ℚ → ℚ} (h0 : w 0 0 = 0)
    (hw : ∀ s g s' g', 0 ≤ s → s ≤ g → 0 ≤ s' → s' ≤ g' → w s g + w s' g' ≤ w (s + s') (g + g')) (ps : List (Nat × Nat))
    (h : ∀ p ∈ ps, p.1 ≤ p.2) : (ps.map (fun p => w p.1 p.2)).sum ≤ w ((ps.map (·.1)).sum : Nat) ((ps.map (·.2)).sum : Nat) := by
  induction ps with
  | nil => simp [h0]
  | cons p ps ih =>
    replace ih := ih fun q hq => h q (List.mem_cons_of_mem _ hq)
    have hsum : (ps.map (·.1)).sum ≤ (ps.map (·.2)).sum :=
      List.sum_le_sum fun q hq => h q (List.mem_cons_of_mem _ hq)
    have := hw p.1 p.2 ((ps.map (·.1)).sum : Nat) ((ps.map (·.2)).sum : Nat) (Nat.cast_nonneg _)
      (Nat.cast_le.2 (h p List.mem_cons_self)) (Nat.cast_nonneg _) (Nat.cast_le.2 hsum)
    simp only [List.map_cons, List.sum_cons, Nat.cast_add]
    linarith

theorem weight_zero {a z : ℚ} : weight a z 0 0 = 0 := by simp [weight]

theorem ceil_sum {f : Nat × Nat → ℚ} {ps : List (Nat × Nat)} {es : List Nat} (h : List.Forall₂ (fun p e => IsCeil e (f p)) ps es) :
    (es.sum : ℚ) ≤ (ps.map f).sum + ps.length ∧ (ps ≠ [] → (es.sum : ℚ) < (ps.map f).sum + ps.length) := by
  induction h with
  | nil => simp
  | cons h _ ih =>
    have := h.2
    have := ih.1
    refine ⟨?_, fun _ => ?_⟩ <;> · push_cast [List.map_cons, List.sum_cons, List.length_cons]; linarith

/-- **C58 (split).**  An operator who splits a pool of at most a thousandth of the supply into any pools (pledges and balances adding up) gains nothing
but rounding: less than one atom of weight for each further pool. -/
theorem C58_split {supply e : Nat} {ps : List (Nat × Nat)} {es : List Nat}
    (hs : List.Forall₂ (fun p e => effective p.1 p.2 supply = .ok e) ps es)
    (hm : effective (ps.map (·.1)).sum (ps.map (·.2)).sum supply = .ok e) (hz : (ps.map (·.2)).sum ≤ supply / 1000) (hne : ps ≠ []) :
    es.sum + 1 ≤ e + ps.length := by
  obtain ⟨-, h2, h3, -⟩ := effective_ok hm
  have hc := effective_ceil hm
  rw [min_eq_left hz, min_eq_left (h2.trans hz)] at hc
  have hle : ∀ p ∈ ps, p.1 ≤ p.2 ∧ p.2 ≤ supply / 1000 := by
    intro p hp
    have : p.2 ≤ (ps.map (·.2)).sum := List.single_le_sum (fun _ _ => Nat.zero_le _) _ (List.mem_map_of_mem hp)
    refine ⟨?_, this.trans hz⟩
    obtain ⟨e', -, he'⟩ : ∃ e', e' ∈ es ∧ effective p.1 p.2 supply = .ok e' := by
      clear hm hc hz hne h2 this
      induction hs with
      | nil => simp at hp
      | cons h _ ih =>
        rcases List.mem_cons.1 hp with rfl | hp
        · exact ⟨_, List.mem_cons_self, h⟩
        · obtain ⟨e', a, b⟩ := ih hp
          exact ⟨e', List.mem_cons_of_mem _ a, b⟩
    exact (effective_ok he').2.1
  have hf : List.Forall₂ (fun p e => IsCeil e (weight influence ((supply / 1000 : Nat) : ℚ) p.1 p.2)) ps es := by
    clear hm hc hz hne h2
    induction hs with
    | nil => exact .nil
    | cons h _ ih =>
      have hh := hle _ List.mem_cons_self
      have := effective_ceil h
      rw [min_eq_left hh.2, min_eq_left (hh.1.trans hh.2)] at this
      exact .cons this (ih fun q hq => hle q (List.mem_cons_of_mem _ hq))
  have hzq : (0 : ℚ) < (supply / 1000 : Nat) := by exact_mod_cast h3
  have h4 := (ceil_sum hf).2 hne
  have h5 := super_list weight_zero (fun _ _ _ _ a b c d => weight_super hzq a b c d) ps fun p hp => (hle p hp).1
  have h6 := hc.1
  have : (es.sum : ℚ) < e + ps.length := by linarith
  have : es.sum < e + ps.length := by exact_mod_cast this
  omega

/-! ### the hash -/

/-- **C58 (hash).**  For a 256-bit hash and target the check never panics; in version 1 it passes exactly when the hash is at most the
target times the weight of the pool, in version 0 times the balance. -/
theorem C58_hash {v : Version} {hash target pledge balance supply : Nat} (ht : target < 2 ^ 256) (hb : balance < 2 ^ 128) :
    (checkHash v hash target pledge balance supply ≠ .error .panic) ∧
    (checkHash v hash target pledge balance supply = .ok () ↔ ∃ w, hash ≤ w * target ∧
      match v with
      | .v0 => w = balance
      | .v1 => effective pledge balance supply = .ok w) := by
  have key : ∀ w, w < 2 ^ 128 → compareHash hash target w = if hash ≤ w * target then .ok () else .error .hashTooHigh := by
    intro w hw
    have : w * target < U512 := by
      calc w * target < 2 ^ 128 * 2 ^ 256 := Nat.mul_lt_mul'' hw ht
        _ ≤ U512 := by decide +kernel
    simp only [compareHash, mulIn, this, if_true, okOr]
    by_cases hh : hash ≤ w * target <;> simp [ensure, hh, bind, Except.bind]
  cases v with
  | v0 =>
    simp only [checkHash, key _ hb]
    by_cases hh : hash ≤ balance * target <;> simp [hh]
  | v1 =>
    simp only [checkHash]
    cases he : effective pledge balance supply with
    | error x =>
      have hx : x ≠ .panic := by
        rintro rfl
        exact effective_no_panic he
      simp [bind, Except.bind, hx]
    | ok w =>
      have hw : w < 2 ^ 128 := lt_of_le_of_lt (C58_cap he).1 hb
      simp only [bind, Except.bind, key _ hw]
      by_cases hh : hash ≤ w * target <;> simp [hh]

/-- **C58 (chance).**  At version 1 a hash that wins for a pool also wins for a pool with the same pledge and more balance, and for an easier target. -/
theorem C58_chance {hash target target' pledge balance balance' supply : Nat} (ht : target' < 2 ^ 256) (hb : balance' < 2 ^ 128)
    (h : checkHash .v1 hash target pledge balance supply = .ok ()) (hle : balance ≤ balance') (hlt : target ≤ target') (hsup : balance' < supply)
    (hs : supply ≤ 1000 * 2 ^ 75) : checkHash .v1 hash target' pledge balance' supply = .ok () := by
  obtain ⟨w, hw, he⟩ := (C58_hash (lt_of_le_of_lt hlt ht) (lt_of_le_of_lt hle hb)).2.1 h
  obtain ⟨-, h2, h3, -⟩ := effective_ok he
  obtain ⟨w', he'⟩ := (C58_total (by omega) hs).2 ⟨hsup, h2.trans hle⟩
  refine (C58_hash ht hb).2.2 ⟨w', hw.trans ?_, he'⟩
  exact Nat.mul_le_mul (C58_balance he he' hle) hlt

/-! ### cases -/

/-- the final supply of the mainnet in atoms -/
def mainSupply : Nat := 599990800 * 100000000000

/-- a pool of 40000 coins, all pledged; the same with 200000 coins delegated; the first split in two; a saturated one; and a pool without the supply's bound -/
example : (effective (40000 * 10 ^ 11) (40000 * 10 ^ 11) mainSupply).toOption = some 3720876294538143 ∧
    (effective (40000 * 10 ^ 11) (240000 * 10 ^ 11) mainSupply).toOption = some 22418715810858031 ∧
    (effective (600000 * 10 ^ 11) (700000 * 10 ^ 11) mainSupply).toOption = some (599990800 * 10 ^ 8) ∧
    (effective (2 ^ 127) (2 ^ 127) (2 ^ 128 - 1)).toOption = none ∧ (effective 0 0 999).toOption = none := by decide +kernel

/-- two pools of 20000 coins count for less than one of 40000; pledging half of the balance counts for more than pledging all of it; and above the cap a split does gain -/
example : (effective (20000 * 10 ^ 11) (20000 * 10 ^ 11) mainSupply).toOption = some 1859970849885699 ∧
    (effective (20000 * 10 ^ 11) (40000 * 10 ^ 11) mainSupply).toOption = some 3724614601952857 ∧
    (effective (1200000 * 10 ^ 11) (1200000 * 10 ^ 11) mainSupply).toOption = some (599990800 * 10 ^ 8) := by decide +kernel

/-- a hash that wins at the weight exactly, and the next one -/
example : (checkHash .v1 (3720876294538143 * 2 ^ 180) (2 ^ 180) (40000 * 10 ^ 11) (40000 * 10 ^ 11) mainSupply).isOk = true ∧
    (checkHash .v1 (3720876294538143 * 2 ^ 180 + 1) (2 ^ 180) (40000 * 10 ^ 11) (40000 * 10 ^ 11) mainSupply).isOk = false ∧
    (checkHash .v0 (3720876294538143 * 2 ^ 180 + 1) (2 ^ 180) (40000 * 10 ^ 11) (40000 * 10 ^ 11) mainSupply).isOk = true := by decide +kernel

end Verif.Stake
