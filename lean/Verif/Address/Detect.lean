import Verif.Address.Checksum

/-! One or two wrong symbols change the residue. -/

namespace Verif.Address
open Verif

set_option maxRecDepth 100000 in
theorem far_all : ((List.range 31).all fun e => far 1022 (e + 1)) = true := by decide +kernel

theorem far_symbol {e : Nat} (h0 : e ≠ 0) (h : e < 32) : far 1022 e = true := by
  have := far_all
  rw [List.all_eq_true] at this
  have h1 := this (e - 1) (List.mem_range.mpr (by omega))
  rwa [show e - 1 + 1 = e by omega] at h1

theorem eq_of_xor {a b : Nat} (h : a ^^^ b = 0) : a = b := by
  have : a ^^^ b ^^^ b = a := by rw [Nat.xor_assoc, Nat.xor_self, Nat.xor_zero]
  rw [h, Nat.zero_xor] at this
  exact this.symm

theorem spread_low : ∀ h, h < 32 → spread h % 32 = 0 → h = 0 := by decide

theorem step_zero_inj {x : Nat} (hx : x < 2 ^ 30) (h : step x 0 = 0) : x = 0 := by
  unfold step at h
  rw [Nat.xor_zero] at h
  have h' : (x &&& 0x1ffffff) <<< 5 = spread (x >>> 25) := eq_of_xor h
  have hm : x &&& 0x1ffffff = x % 2 ^ 25 := by
    have := Nat.and_two_pow_sub_one_eq_mod x 25
    simpa using this
  rw [hm, Nat.shiftLeft_eq] at h'
  have hh : x >>> 25 = 0 := by
    apply spread_low
    · rw [Nat.shiftRight_eq_div_pow]; omega
    · rw [← h']; omega
  rw [hh, spread_zero] at h'
  rw [Nat.shiftRight_eq_div_pow] at hh
  omega

theorem zeros_ne : ∀ (n : Nat) {x : Nat}, x < 2 ^ 30 → x ≠ 0 → zeros n x ≠ 0
  | 0, _, _, h => h
  | n + 1, x, hx, h => by
    rw [zeros_succ]
    exact zeros_ne n (step_lt x (by decide)) (fun hz => h (step_zero_inj hx hz))

theorem zeros_ne' (n : Nat) {x : Nat} (hx : x < 2 ^ 30) (h : x ≠ 0) : zeros n x ≠ 0 := zeros_ne n hx h

/-- the number of symbols that are not zero -/
def weight (d : List Nat) : Nat := d.countP (fun v => v != 0)

theorem weight_cons_zero (d : List Nat) : weight (0 :: d) = weight d := by simp [weight]
theorem weight_cons {v : Nat} (h : v ≠ 0) (d : List Nat) : weight (v :: d) = weight d + 1 := by simp [weight, h]

theorem weight_zero : ∀ {d : List Nat}, weight d = 0 → d = List.replicate d.length 0
  | [], _ => rfl
  | v :: d, h => by
    by_cases hv : v = 0
    · subst hv
      rw [weight_cons_zero] at h
      have := weight_zero h
      simp only [List.length_cons, List.replicate_succ]
      rw [← this]
    · rw [weight_cons hv] at h; omega

theorem step_split (x v : Nat) : step x v = step x 0 ^^^ v := by
  unfold step; rw [Nat.xor_zero]

theorem step_zero (v : Nat) : step 0 v = v := by
  rw [step_split]
  have : step 0 0 = 0 := by decide
  rw [this, Nat.zero_xor]

theorem one_more : ∀ (d : List Nat) (x : Nat), x < 2 ^ 30 → x ≠ 0 → (∀ v ∈ d, v < 32) → weight d ≤ 1 →
    (∀ m, 1 ≤ m → m ≤ d.length → 32 ≤ zeros m x) → d.foldl step x ≠ 0
  | [], _, _, h0, _, _, _ => h0
  | v :: d, x, hx, h0, hv, hw, hz => by
    rw [List.foldl_cons]
    by_cases h : v = 0
    · subst h
      rw [weight_cons_zero] at hw
      refine one_more d (step x 0) (step_lt x (by decide)) (fun h => h0 (step_zero_inj hx h)) (fun w hw => hv w (by simp [hw])) hw ?_
      intro m h1 h2
      rw [← zeros_succ]
      exact hz (m + 1) (by omega) (by simp; omega)
    · rw [weight_cons h] at hw
      have hd : d = List.replicate d.length 0 := weight_zero (by omega)
      have hlt : v < 32 := hv v (by simp)
      rw [hd]
      refine zeros_ne d.length (step_lt x hlt) ?_
      rw [step_split]
      intro he
      have e := eq_of_xor he
      have : 32 ≤ zeros 1 x := hz 1 (by omega) (by simp)
      have e2 : zeros 1 x = step x 0 := rfl
      omega

/-- one or two wrong symbols within 1023 -/
theorem detect : ∀ (d : List Nat), (∀ v ∈ d, v < 32) → weight d ≠ 0 → weight d ≤ 2 → d.length ≤ 1023 → d.foldl step 0 ≠ 0
  | [], _, h, _, _ => by simp [weight] at h
  | v :: d, hv, h0, h2, hl => by
    rw [List.foldl_cons]
    by_cases h : v = 0
    · subst h
      rw [weight_cons_zero] at h0 h2
      rw [step_zero]
      exact detect d (fun w hw => hv w (by simp [hw])) h0 h2 (by simp at hl; omega)
    · rw [weight_cons h] at h2
      have hlt : v < 32 := hv v (by simp)
      rw [step_zero]
      refine one_more d v (by omega) h (fun w hw => hv w (by simp [hw])) (by omega) ?_
      intro m h1 h3
      exact far_spec 1022 v m (far_symbol h hlt) h1 (by simp at hl; omega)

/-! ### Differences -/

/-- the number of positions at which two strings differ -/
def differing : List Nat → List Nat → Nat
  | a :: l, b :: l' => (if a = b then 0 else 1) + differing l l'
  | _, _ => 0

theorem differing_weight : ∀ (l l' : List Nat), weight (l.zipWith (· ^^^ ·) l') = differing l l'
  | a :: l, b :: l' => by
    rw [List.zipWith_cons_cons, differing]
    by_cases h : a = b
    · subst h
      rw [Nat.xor_self, weight_cons_zero, differing_weight, if_pos rfl, Nat.zero_add]
    · rw [weight_cons (fun e => h (eq_of_xor e)), differing_weight, if_neg h, Nat.add_comm]
  | [], _ => by simp [differing, weight]
  | _ :: _, [] => by simp [differing, weight]

theorem differing_zero : ∀ {l l' : List Nat}, l.length = l'.length → differing l l' = 0 → l = l'
  | [], [], _, _ => rfl
  | a :: l, b :: l', hl, h => by
    rw [differing] at h
    by_cases e : a = b
    · subst e
      have := differing_zero (l := l) (l' := l') (by simpa using hl) (by omega)
      rw [this]
    · rw [if_neg e] at h; omega
  | [], _ :: _, h, _ => by simp at h
  | _ :: _, [], h, _ => by simp at h

theorem differing_append : ∀ {l l' : List Nat} (m m' : List Nat), l.length = l'.length →
    differing (l ++ m) (l' ++ m') = differing l l' + differing m m'
  | [], [], _, _, _ => by simp [differing]
  | a :: l, b :: l', m, m', h => by
    rw [List.cons_append, List.cons_append, differing, differing, differing_append m m' (by simpa using h)]
    omega
  | [], _ :: _, _, _, h => by simp at h
  | _ :: _, [], _, _, h => by simp at h

theorem differing_map (f : Nat → Nat) : ∀ (l l' : List Nat), differing (l.map f) (l'.map f) ≤ differing l l'
  | a :: l, b :: l' => by
    have := differing_map f l l'
    simp only [List.map_cons, differing]
    by_cases e : a = b
    · subst e; simp; exact this
    · by_cases e2 : f a = f b <;> simp [e, e2] <;> omega
  | [], _ => by simp [differing]
  | _ :: _, [] => by simp [differing]

theorem differing_map_inj (f : Nat → Nat) : ∀ (l l' : List Nat), (∀ a ∈ l, ∀ b ∈ l', f a = f b → a = b) →
    differing (l.map f) (l'.map f) = differing l l'
  | a :: l, b :: l', h => by
    have := differing_map_inj f l l' (fun x hx y hy => h x (by simp [hx]) y (by simp [hy]))
    simp only [List.map_cons, differing, this]
    by_cases e : a = b
    · subst e; simp
    · have : f a ≠ f b := fun e2 => e (h a (by simp) b (by simp) e2)
      simp [e, this]
  | [], _, _ => by simp [differing]
  | _ :: _, [], _ => by simp [differing]

theorem xor_lt32 {a b : Nat} (ha : a < 32) (hb : b < 32) : a ^^^ b < 32 := Nat.xor_lt_two_pow (n := 5) ha hb

theorem zipWith_lt : ∀ (l l' : List Nat), (∀ v ∈ l, v < 32) → (∀ v ∈ l', v < 32) → ∀ v ∈ l.zipWith (· ^^^ ·) l', v < 32
  | a :: l, b :: l', h, h', v, hv => by
    rw [List.zipWith_cons_cons, List.mem_cons] at hv
    rcases hv with rfl | hv
    · exact xor_lt32 (h a (by simp)) (h' b (by simp))
    · exact zipWith_lt l l' (fun w hw => h w (by simp [hw])) (fun w hw => h' w (by simp [hw])) v hv
  | [], _, _, _, v, hv => by simp at hv
  | _ :: _, [], _, _, v, hv => by simp at hv

/-- two words of the same length (at most 1023 symbols) with the same residue, after the same beginning, are equal or differ in
three places -/
theorem words_far {p l l' : List Nat} (hl : l.length = l'.length) (h1023 : l.length ≤ 1023) (h : ∀ v ∈ l, v < 32)
    (h' : ∀ v ∈ l', v < 32) (he : (p ++ l).foldl step 1 = (p ++ l').foldl step 1) : l = l' ∨ 3 ≤ differing l l' := by
  by_cases h3 : 3 ≤ differing l l'
  · exact .inr h3
  · left
    by_cases h0 : differing l l' = 0
    · exact differing_zero hl h0
    · exfalso
      rw [List.foldl_append, List.foldl_append] at he
      have := foldl_step_xor l l' (p.foldl step 1) (p.foldl step 1) hl
      rw [he, Nat.xor_self, Nat.xor_self] at this
      refine detect (l.zipWith (· ^^^ ·) l') (zipWith_lt l l' h h') ?_ ?_ ?_ this.symm
      · rw [differing_weight]; exact h0
      · rw [differing_weight]; omega
      · simp; omega

end Verif.Address
