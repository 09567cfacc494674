import Verif.Uint.Model
import Mathlib.Tactic.Ring
import Mathlib.Tactic.Linarith
import Mathlib.Data.Nat.ModEq

/-! # Lemmas about the word-level arithmetic -/

namespace Verif.Uint
open Verif

/-- the number a list of words stands for -/
def val : List Nat → Nat
  | [] => 0
  | x :: xs => x + W * val xs

/-- `n` proper words -/
def WF (n : Nat) (a : List Nat) : Prop := a.length = n ∧ ∀ x ∈ a, x < W

theorem W_pos : 0 < W := by unfold W; decide

theorem WF.cons {n x a} (h : WF (n+1) (x :: a)) : x < W ∧ WF n a :=
  ⟨h.2 x (by simp), by have := h.1; simpa using this, fun y hy => h.2 y (by simp [hy])⟩

theorem wf_cons {n x a} (hx : x < W) (h : WF n a) : WF (n+1) (x :: a) :=
  ⟨by simp [h.1], by intro y hy; rcases List.mem_cons.1 hy with rfl | hy; exact hx; exact h.2 y hy⟩

theorem val_lt {n a} (h : WF n a) : val a < W ^ n := by
  induction a generalizing n with
  | nil => have := h.1; simp at this; subst this; simp [val]
  | cons x xs ih =>
    obtain ⟨n, rfl⟩ : ∃ m, n = m + 1 := ⟨xs.length, by have := h.1; simp at this; omega⟩
    obtain ⟨hx, hw⟩ := h.cons
    have := ih hw
    simp only [val]
    have h1 : W * (val xs + 1) ≤ W * W ^ n := Nat.mul_le_mul_left _ this
    rw [pow_succ, Nat.mul_comm (W^n)]
    rw [Nat.mul_add] at h1
    omega

theorem val_inj {a b : List Nat} {n} (ha : WF n a) (hb : WF n b) (h : val a = val b) : a = b := by
  induction a generalizing n b with
  | nil => have := ha.1; simp at this; subst this; have := hb.1; simp at this; exact this.symm
  | cons x xs ih =>
    obtain ⟨n, rfl⟩ : ∃ m, n = m + 1 := ⟨xs.length, by have := ha.1; simp at this; omega⟩
    cases b with
    | nil => have := hb.1; simp at this
    | cons y ys =>
      obtain ⟨hx, hw⟩ := ha.cons
      obtain ⟨hy, hv⟩ := hb.cons
      simp only [val] at h
      have h1 : x = y := by
        have := congrArg (· % W) h
        simpa [Nat.add_mul_mod_self_left, Nat.mod_eq_of_lt hx, Nat.mod_eq_of_lt hy] using this
      subst h1
      have h2 : val xs = val ys := Nat.eq_of_mul_eq_mul_left W_pos (by omega)
      rw [ih hw hv h2]

theorem wf_zero (n) : WF n (zero n) := ⟨by simp [zero], by
  intro x hx; rw [zero, List.mem_replicate] at hx; rw [hx.2]; exact W_pos⟩

theorem val_zero (n) : val (zero n) = 0 := by
  induction n with
  | zero => rfl
  | succ n ih => rw [zero, List.replicate_succ, val, ← zero, ih]; simp

theorem val_append (a b : List Nat) : val (a ++ b) = val a + W ^ a.length * val b := by
  induction a with
  | nil => simp [val]
  | cons x xs ih => simp only [List.cons_append, val, ih, List.length_cons, pow_succ]; ring

theorem val_set (a : List Nat) (i x : Nat) (hi : i < a.length) :
    val (a.set i x) + W ^ i * word a i = val a + W ^ i * x := by
  induction a generalizing i with
  | nil => simp at hi
  | cons y ys ih =>
    cases i with
    | zero => simp [val, word]; omega
    | succ i =>
      have := ih i (by simpa using hi)
      simp only [List.set_cons_succ, val, word, List.getD_cons_succ] at this ⊢
      rw [pow_succ]
      have e : W * (val (ys.set i x) + W ^ i * ys.getD i 0) = W * (val ys + W ^ i * x) := by rw [this]
      rw [Nat.mul_add, Nat.mul_add] at e
      have e1 : W ^ i * W * ys.getD i 0 = W * (W ^ i * ys.getD i 0) := by ring
      have e2 : W ^ i * W * x = W * (W ^ i * x) := by ring
      omega

theorem word_lt {n a} (h : WF n a) (i) : word a i < W := by
  unfold word
  rw [List.getD_eq_getElem?_getD]
  cases hh : a[i]? with
  | none => exact W_pos
  | some x => exact h.2 x (List.mem_of_getElem? hh)

theorem word_set (a : List Nat) (i x j : Nat) (hi : i < a.length) :
    word (a.set i x) j = if j = i then x else word a j := by
  unfold word
  rw [List.getD_eq_getElem?_getD, List.getD_eq_getElem?_getD, List.getElem?_set]
  by_cases h : j = i
  · subst h; simp [hi]
  · simp [h, Ne.symm h]

theorem wf_set {n a} (h : WF n a) (i x) (hx : x < W) : WF n (a.set i x) :=
  ⟨by simp [h.1], by
    intro y hy
    rcases List.mem_or_eq_of_mem_set hy with hy | rfl
    · exact h.2 y hy
    · exact hx⟩

theorem word_zero (n i) : word (zero n) i = 0 := by
  unfold word zero
  rw [List.getD_eq_getElem?_getD, List.getElem?_replicate]
  split <;> rfl

theorem val_fromU64 {n x} (hn : 0 < n) : val (fromU64 n x) = x := by
  have := val_set (zero n) 0 x (by simp [zero, hn])
  rw [val_zero, word_zero] at this
  simpa [fromU64, zero] using this

theorem wf_fromU64 {n x} (hx : x < W) : WF n (fromU64 n x) := wf_set (wf_zero n) 0 x hx

theorem val_one {n} (hn : 0 < n) : val (one n) = 1 := val_fromU64 (x := 1) hn

theorem wf_one {n} : WF n (one n) := wf_fromU64 (x := 1) (by unfold W; decide)

/-! ### addition -/

theorem addCarry_spec {n a b} (c : Bool) (ha : WF n a) (hb : WF n b) :
    WF n (addCarry a b c).1 ∧
      val (addCarry a b c).1 + W ^ n * (addCarry a b c).2.toNat = val a + val b + c.toNat := by
  induction a generalizing n b c with
  | nil =>
    have := ha.1; simp at this; subst this
    have := hb.1; simp at this; subst this
    simp [addCarry, val, WF]
  | cons x xs ih =>
    obtain ⟨n, rfl⟩ : ∃ m, n = m + 1 := ⟨xs.length, by have := ha.1; simp at this; omega⟩
    cases b with
    | nil => have := hb.1; simp at this
    | cons y ys =>
      obtain ⟨hx, hw⟩ := ha.cons
      obtain ⟨hy, hv⟩ := hb.cons
      simp only [addCarry]
      generalize hC : (decide (x + y ≥ W) || decide ((x + y) % W + c.toNat ≥ W)) = C
      obtain ⟨h1, h2⟩ := ih C hw hv
      refine ⟨wf_cons (Nat.mod_lt _ W_pos) h1, ?_⟩
      simp only [val]
      have hd : ((x + y) % W + c.toNat) % W + W * C.toNat = x + y + c.toNat := by
        have hc : c.toNat ≤ 1 := Bool.toNat_le c
        have hW : 2 ≤ W := by unfold W; decide
        generalize c.toNat = k at hC hc ⊢
        by_cases h3 : x + y ≥ W
        · have e : (x + y) % W = x + y - W := by
            rw [Nat.mod_eq_sub_mod h3, Nat.mod_eq_of_lt (by omega)]
          rw [e, Nat.mod_eq_of_lt (by omega)]
          simp [h3] at hC; subst hC; simp; omega
        · have e : (x + y) % W = x + y := Nat.mod_eq_of_lt (by omega)
          rw [e] at hC ⊢
          by_cases h4 : x + y + k ≥ W
          · simp [h3, h4] at hC
            subst hC
            have : x + y + k = W := by omega
            rw [this]; simp
          · simp [h3, h4] at hC
            subst hC
            rw [Nat.mod_eq_of_lt (by omega)]; simp
      have e : W * (val (addCarry xs ys C).1 + W ^ n * (addCarry xs ys C).2.toNat) = W * (val xs + val ys + C.toNat) := by
        rw [h2]
      rw [pow_succ]
      have e1 : W ^ n * W * (addCarry xs ys C).2.toNat = W * (W ^ n * (addCarry xs ys C).2.toNat) := by ring
      rw [e1]
      rw [Nat.mul_add, Nat.mul_add, Nat.mul_add] at e
      omega

theorem not_spec {n a} (ha : WF n a) : WF n (not a) ∧ val (not a) + val a + 1 = W ^ n := by
  induction a generalizing n with
  | nil =>
    have := ha.1; simp at this; subst this
    simp [not, val, WF]
  | cons x xs ih =>
    obtain ⟨n, rfl⟩ : ∃ m, n = m + 1 := ⟨xs.length, by have := ha.1; simp at this; omega⟩
    obtain ⟨hx, hw⟩ := ha.cons
    obtain ⟨h1, h2⟩ := ih hw
    have hn : not (x :: xs) = (W - 1 - x) :: not xs := rfl
    rw [hn]
    refine ⟨wf_cons (by omega) h1, ?_⟩
    simp only [val]
    rw [pow_succ, ← h2]
    have : (val (not xs) + val xs + 1) * W = W * val (not xs) + W * val xs + W := by ring
    omega

theorem mod_of_carry {v c X N : Nat} (hv : v < N) (h : v + N * c = X) : v = X % N := by
  rw [← h, Nat.add_mul_mod_self_left, Nat.mod_eq_of_lt hv]

theorem uncheckedSub_spec {n a b} (hn : 0 < n) (ha : WF n a) (hb : WF n b) (h : val b ≤ val a) :
    WF n (uncheckedSub a b) ∧ val (uncheckedSub a b) = val a - val b := by
  obtain ⟨h1, h2⟩ := not_spec hb
  obtain ⟨h3, h4⟩ := addCarry_spec false ha h1
  obtain ⟨h5, h6⟩ := addCarry_spec false h3 (wf_one (n := n))
  have hl : a.length = n := ha.1
  unfold uncheckedSub overflowingAdd
  rw [hl]
  refine ⟨h5, ?_⟩
  rw [val_one hn] at h6
  simp only [Bool.toNat_false, Nat.add_zero] at h4 h6
  generalize (addCarry a (not b) false).2.toNat = c1 at *
  have e : val (addCarry (addCarry a (not b) false).1 (one n) false).1 +
      W ^ n * ((addCarry (addCarry a (not b) false).1 (one n) false).2.toNat + c1) = val a - val b + W ^ n := by
    rw [Nat.mul_add]; omega
  rw [mod_of_carry (val_lt h5) e, Nat.add_mod_right, Nat.mod_eq_of_lt]
  have := val_lt ha; omega

/-! ### order and bit length -/

theorem take_succ_val (a : List Nat) (k : Nat) : val (a.take (k+1)) = val (a.take k) + W ^ k * word a k := by
  by_cases hk : k < a.length
  · rw [List.take_succ_eq_append_getElem hk, val_append]
    have : (a.take k).length = k := by simp; omega
    rw [this]
    simp [val, word, hk]
  · rw [List.take_of_length_le (by omega), List.take_of_length_le (by omega)]
    simp [word, List.getD_eq_getElem?_getD, List.getElem?_eq_none (by omega : a.length ≤ k)]

theorem wf_take {n a} (h : WF n a) (k) (hk : k ≤ n) : WF k (a.take k) :=
  ⟨by have := h.1; simp; omega, fun x hx => h.2 x (List.mem_of_mem_take hx)⟩

theorem cmpFrom_spec {n a b} (ha : WF n a) (hb : WF n b) (k) (hk : k ≤ n) :
    cmpFrom a b k = compare (val (a.take k)) (val (b.take k)) := by
  induction k with
  | zero => simp [cmpFrom]
  | succ k ih =>
    have h1 := val_lt (wf_take ha k (by omega))
    have h2 := val_lt (wf_take hb k (by omega))
    rw [cmpFrom, take_succ_val, take_succ_val]
    have key : ∀ x y : Nat, x < y → ∀ p q : Nat, p < W ^ k → p + W ^ k * x < q + W ^ k * y := by
      intro x y hxy p q hp
      have : W ^ k * (x + 1) ≤ W ^ k * y := Nat.mul_le_mul_left _ hxy
      rw [Nat.mul_add] at this
      omega
    split
    · rename_i hlt
      exact (Nat.compare_eq_lt.2 (key _ _ hlt _ _ h1)).symm
    · split
      · rename_i hgt
        exact (Nat.compare_eq_gt.2 (key _ _ hgt _ _ h2)).symm
      · have e : word a k = word b k := by omega
        rw [ih (by omega), e]
        simp only [compare, compareOfLessAndEq]
        simp only [Nat.add_lt_add_iff_right, Nat.add_right_cancel_iff]

theorem cmp_spec {n a b} (ha : WF n a) (hb : WF n b) : cmp a b = compare (val a) (val b) := by
  have := cmpFrom_spec ha hb n (le_refl _)
  rw [cmp, ha.1, this, List.take_of_length_le (by rw [ha.1]), List.take_of_length_le (by rw [hb.1])]

theorem size_le_64 {x} (h : x < W) : x.size ≤ 64 := Nat.size_le.2 h

theorem leadingZeros_eq (x : Nat) : leadingZeros x = 64 - x.size := by
  unfold leadingZeros
  split
  · rename_i h; subst h; simp
  · rename_i h
    have h1 : x.size = Nat.log2 x + 1 := by
      apply le_antisymm
      · exact Nat.size_le.2 Nat.lt_log2_self
      · exact Nat.lt_size.2 (Nat.log2_self_le h)
    rw [h1]; omega

theorem size_add_mul {p k x : Nat} (hp : p < W ^ k) (hx : 0 < x) : (p + W ^ k * x).size = 64 * k + x.size := by
  have e : W ^ k = 2 ^ (64 * k) := by unfold W; rw [← pow_mul]
  rw [e] at hp ⊢
  apply le_antisymm
  · rw [Nat.size_le, pow_add]
    have h1 : x < 2 ^ x.size := Nat.lt_size_self x
    have : 2 ^ (64*k) * (x + 1) ≤ 2 ^ (64*k) * 2 ^ x.size := Nat.mul_le_mul_left _ h1
    rw [Nat.mul_add] at this
    omega
  · have hs : 0 < x.size := Nat.size_pos.2 hx
    obtain ⟨s, hs'⟩ : ∃ s, x.size = s + 1 := ⟨x.size - 1, by omega⟩
    have h1 : 2 ^ s ≤ x := by
      have := (Nat.lt_size (m := s) (n := x)).1 (by omega)
      exact this
    rw [hs']
    have h2 : 64 * k + s < (p + 2 ^ (64 * k) * x).size := by
      rw [Nat.lt_size, pow_add]
      have := Nat.mul_le_mul_left (2 ^ (64*k)) h1
      omega
    omega

theorem bitsFrom_spec {n a} (ha : WF n a) (k) (hk : k + 1 ≤ n) : bitsFrom a k = (val (a.take (k+1))).size := by
  induction k with
  | zero =>
    rw [bitsFrom, take_succ_val]
    have := size_le_64 (word_lt ha 0)
    simp [val, leadingZeros_eq]; omega
  | succ k ih =>
    rw [bitsFrom, take_succ_val a (k+1)]
    have := size_le_64 (word_lt ha (k+1))
    split
    · rename_i h
      rw [size_add_mul (val_lt (wf_take ha (k+1) (by omega))) h]
      rw [leadingZeros_eq]; omega
    · rename_i h
      have : word a (k+1) = 0 := by omega
      rw [this, ih (by omega)]; simp

theorem bits_spec {n a} (hn : 0 < n) (ha : WF n a) : bits a = (val a).size := by
  have := bitsFrom_spec ha (n-1) (by omega)
  rw [bits, ha.1, this, List.take_of_length_le (by rw [ha.1]; omega)]

/-! ### shifts -/

theorem addAt_ok {n r} (h : WF n r) {i x} (hi : i < n) (hb : word r i + x < W) :
    ∃ r', addAt r i x = .ok r' ∧ WF n r' ∧ val r' = val r + W ^ i * x ∧
      ∀ j, word r' j = if j = i then word r i + x else word r j := by
  refine ⟨r.set i (word r i + x), by simp [addAt, hb, pure, Except.pure], wf_set h _ _ hb, ?_, fun j => word_set _ _ _ _ (by rw [h.1]; exact hi)⟩
  have := val_set r i (word r i + x) (by rw [h.1]; exact hi)
  rw [Nat.mul_add] at this
  omega

theorem W_split {bs} (h : bs ≤ 64) : W = 2 ^ bs * 2 ^ (64 - bs) := by
  unfold W; rw [← pow_add]; congr 1; omega

theorem shl_lo {x bs : Nat} (h : bs ≤ 64) : (x * 2 ^ bs) % W = (x % 2 ^ (64 - bs)) * 2 ^ bs := by
  rw [W_split h, Nat.mul_comm x, Nat.mul_mod_mul_left, Nat.mul_comm]

theorem shl_lo_add {x bs y : Nat} (h : bs ≤ 64) (hy : y < 2 ^ bs) : y + (x * 2 ^ bs) % W < W := by
  rw [shl_lo h]
  have h1 : x % 2 ^ (64 - bs) + 1 ≤ 2 ^ (64 - bs) := Nat.mod_lt _ (by positivity)
  have h2 := Nat.mul_le_mul_right (2 ^ bs) h1
  rw [Nat.add_mul, Nat.mul_comm (2 ^ (64 - bs)), ← W_split h] at h2
  omega

theorem shr_lt {x bs : Nat} (h : bs ≤ 64) (hx : x < W) : x / 2 ^ (64 - bs) < 2 ^ bs := by
  rw [Nat.div_lt_iff_lt_mul (by positivity), ← W_split h]; exact hx

theorem shl_hi {x bs : Nat} (h : bs ≤ 64) : x * 2 ^ bs = (x * 2 ^ bs) % W + W * (x / 2 ^ (64 - bs)) := by
  rw [shl_lo h, W_split h]
  have := Nat.mod_add_div x (2 ^ (64 - bs))
  calc x * 2 ^ bs = (x % 2 ^ (64 - bs) + 2 ^ (64 - bs) * (x / 2 ^ (64 - bs))) * 2 ^ bs := by rw [this]
    _ = _ := by ring

theorem shlStep_ok {n a r} (ha : WF n a) (hr : WF n r) {ws bs k : Nat} (hbs : bs < 64)
    (hz : word r (ws + k) < 2 ^ bs) (hz' : word r (ws + k + 1) = 0) :
    ∃ r', shlStep a ws bs r k = .ok r' ∧ WF n r' ∧ val r' ≡ val r + word a k * 2 ^ bs * W ^ (ws + k) [MOD W ^ n] ∧
      word r' (ws + k + 1) < 2 ^ bs ∧ ∀ j, ws + k + 1 < j → word r' j = word r j := by
  have hl := ha.1
  have hwa := word_lt ha k
  have hz2 : ∀ {m : Nat}, n ≤ m → W ^ m ≡ 0 [MOD W ^ n] := by
    intro m hm
    exact (Nat.modEq_zero_iff_dvd).2 (pow_dvd_pow _ hm)
  have hhi := shl_hi (x := word a k) (bs := bs) (by omega)
  have hhl := shr_lt (bs := bs) (by omega) hwa
  by_cases h1 : k + ws < n
  · obtain ⟨r1, e1, w1, v1, d1⟩ := addAt_ok hr (i := k + ws) (x := (word a k <<< bs) % W) h1 (by
      rw [Nat.shiftLeft_eq]
      exact shl_lo_add (by omega) (by rw [Nat.add_comm k ws]; exact hz))
    rw [Nat.shiftLeft_eq] at v1
    by_cases h2 : bs > 0 ∧ k + ws + 1 < n
    · have h0 : word r1 (k + ws + 1) = 0 := by
        rw [d1, if_neg (by omega), Nat.add_comm k ws]; exact hz'
      obtain ⟨r2, e2, w2, v2, d2⟩ := addAt_ok w1 (i := k + ws + 1) (x := word a k >>> (64 - bs)) h2.2 (by
        rw [h0, Nat.shiftRight_eq_div_pow]
        have : 2 ^ bs ≤ W := by unfold W; exact Nat.pow_le_pow_right (by omega) (by omega)
        omega)
      refine ⟨r2, ?_, w2, ?_, ?_, ?_⟩
      · simp only [shlStep, hl, hbs, h1, h2, true_and, and_true, if_true, e1, bind, Except.bind]
        exact e2
      · rw [v2, v1, Nat.shiftRight_eq_div_pow, Nat.add_comm k ws, pow_succ]
        generalize word a k * 2 ^ bs % W = L at hhi ⊢
        rw [hhi]
        have : ∀ A B C D : Nat, A + B * C + B * W * D = A + (C + W * D) * B := by intros; ring
        rw [this]
      · rw [d2, if_pos (by omega), h0, Nat.zero_add, Nat.shiftRight_eq_div_pow]; exact hhl
      · intro j hj
        rw [d2, if_neg (by omega), d1, if_neg (by omega)]
    · refine ⟨r1, ?_, w1, ?_, ?_, ?_⟩
      · simp only [shlStep, hl, hbs, h1, true_and, if_true, e1, bind, Except.bind, h2, if_false]; rfl
      · rw [v1, Nat.add_comm k ws]
        generalize word a k * 2 ^ bs % W = L at hhi ⊢
        rw [hhi]
        by_cases hb0 : bs = 0
        · subst hb0
          have : word a k / 2 ^ (64 - 0) = 0 := by
            have := hhl; simp at this ⊢; omega
          rw [this]
          have : ∀ A B C : Nat, A + B * C = A + (C + W * 0) * B := by intros; ring
          rw [this]
        · have hn : n ≤ ws + k + 1 := by omega
          have e : ∀ A B C D : Nat, A + (C + W * D) * B = A + B * C + D * (B * W) := by intros; ring
          rw [e, ← pow_succ]
          have := Nat.ModEq.mul_left (word a k / 2 ^ (64 - bs)) (hz2 hn)
          have := Nat.ModEq.add_left (val r + W ^ (ws + k) * L) this
          rw [Nat.mul_zero, Nat.add_zero] at this
          exact this.symm
      · rw [d1, if_neg (by omega), hz']; positivity
      · intro j hj; rw [d1, if_neg (by omega)]
  · refine ⟨r, ?_, hr, ?_, by rw [hz']; positivity, fun _ _ => rfl⟩
    · have h2 : ¬ k + ws + 1 < n := by omega
      simp [shlStep, hl, h1, h2, pure, Except.pure, bind, Except.bind]
    · have := Nat.ModEq.mul_left (word a k * 2 ^ bs) (hz2 (by omega : n ≤ ws + k))
      have := Nat.ModEq.add_left (val r) this
      rw [Nat.mul_zero, Nat.add_zero] at this
      exact this.symm

theorem shl_loop {n a} (ha : WF n a) {ws bs : Nat} (hbs : bs < 64) (k : Nat) (hk : k ≤ n) :
    ∃ r, (List.range k).foldlM (shlStep a ws bs) (zero n) = .ok r ∧ WF n r ∧
      val r ≡ val (a.take k) * (2 ^ bs * W ^ ws) [MOD W ^ n] ∧ word r (ws + k) < 2 ^ bs ∧
      ∀ j, ws + k < j → word r j = 0 := by
  induction k with
  | zero => exact ⟨zero n, rfl, wf_zero n, by simp [val_zero, val]; rfl, by rw [word_zero]; positivity, fun j _ => word_zero n j⟩
  | succ k ih =>
    obtain ⟨r, e, w, v, hz, hz'⟩ := ih (by omega)
    obtain ⟨r', e', w', v', g, g'⟩ := shlStep_ok ha w hbs hz (hz' _ (by omega))
    refine ⟨r', ?_, w', ?_, g, ?_⟩
    · rw [List.range_succ, List.foldlM_append, e]
      show List.foldlM (shlStep a ws bs) r [k] = .ok r'
      rw [List.foldlM_cons, e']; rfl
    · rw [take_succ_val]
      refine v'.trans ?_
      have := Nat.ModEq.add_right (word a k * 2 ^ bs * W ^ (ws + k)) v
      refine this.trans ?_
      have e3 : val (a.take k) * (2 ^ bs * W ^ ws) + word a k * 2 ^ bs * W ^ (ws + k) =
        (val (a.take k) + W ^ k * word a k) * (2 ^ bs * W ^ ws) := by rw [pow_add]; ring
      rw [e3]
    · intro j hj
      rw [g' j (by omega)]; exact hz' j (by omega)

theorem pow_split (s : Nat) : 2 ^ s = 2 ^ (s % 64) * W ^ (s / 64) := by
  unfold W; rw [← pow_mul, ← pow_add]; congr 1; omega

theorem shl_spec {n a} (ha : WF n a) (s : Nat) :
    ∃ r, shl a s = .ok r ∧ WF n r ∧ val r = val a * 2 ^ s % W ^ n := by
  obtain ⟨r, e, w, v, -, -⟩ := shl_loop ha (ws := s / 64) (bs := s % 64) (Nat.mod_lt _ (by omega)) n (le_refl _)
  refine ⟨r, by rw [shl, ha.1]; exact e, w, ?_⟩
  rw [List.take_of_length_le (by rw [ha.1]), ← pow_split] at v
  rw [← v, Nat.mod_eq_of_lt (val_lt w)]

/-! ### right shift -/

theorem val_drop {n a} (ha : WF n a) (i : Nat) : val a / W ^ i = val (a.drop i) := by
  by_cases hi : i ≤ n
  · have e := val_append (a.take i) (a.drop i)
    rw [List.take_append_drop] at e
    have hl : (a.take i).length = i := by rw [List.length_take, ha.1]; omega
    rw [hl] at e
    have := val_lt (wf_take ha i hi)
    rw [e, Nat.add_mul_div_left _ _ (Nat.pow_pos W_pos), Nat.div_eq_of_lt this, Nat.zero_add]
  · have : a.drop i = [] := List.drop_of_length_le (by rw [ha.1]; omega)
    rw [this]
    have h1 := val_lt ha
    have h2 : W ^ n ≤ W ^ i := Nat.pow_le_pow_right W_pos (by omega)
    rw [Nat.div_eq_of_lt (by omega)]; rfl

theorem drop_val (a : List Nat) (i : Nat) : val (a.drop i) = word a i + W * val (a.drop (i+1)) := by
  by_cases hi : i < a.length
  · rw [List.drop_eq_getElem_cons hi, val]
    simp [word, hi]
  · rw [List.drop_of_length_le (by omega), List.drop_of_length_le (by omega)]
    simp [word, val, List.getD_eq_getElem?_getD, List.getElem?_eq_none (by omega : a.length ≤ i)]

theorem shr_digit {x y z bs : Nat} (hbs : bs ≤ 64) (hx : x < W) :
    x / 2 ^ bs + (y * 2 ^ (64 - bs)) % W < W ∧
    (x + W * (y + W * z)) / 2 ^ bs % W = x / 2 ^ bs + (y * 2 ^ (64 - bs)) % W := by
  have h1 : x / 2 ^ bs < 2 ^ (64 - bs) := by
    rw [Nat.div_lt_iff_lt_mul (by positivity), Nat.mul_comm, ← W_split hbs]; exact hx
  have h2 := shl_lo_add (x := y) (y := x / 2 ^ bs) (bs := 64 - bs) (by omega) h1
  refine ⟨h2, ?_⟩
  have e : x + W * (y + W * z) = x + 2 ^ bs * (2 ^ (64 - bs) * (y + W * z)) := by
    rw [← Nat.mul_assoc, ← W_split hbs]
  rw [e, Nat.add_mul_div_left _ _ (by positivity)]
  have e2 : x / 2 ^ bs + 2 ^ (64 - bs) * (y + W * z) = (x / 2 ^ bs + y * 2 ^ (64 - bs)) + W * (2 ^ (64 - bs) * z) := by ring
  rw [e2, Nat.add_mul_mod_self_left, Nat.add_mod, Nat.mod_eq_of_lt (a := x / 2 ^ bs) (by omega), Nat.mod_eq_of_lt h2]

theorem shrStep_ok {n a r} (ha : WF n a) (hr : WF n r) {ws bs k : Nat} (hbs : bs < 64) (hk : ws + k < n)
    (hz : word r k = 0) :
    ∃ r', shrStep a ws bs r k = .ok r' ∧ WF n r' ∧
      val r' = val r + W ^ k * (val a / (2 ^ bs * W ^ ws) / W ^ k % W) ∧ ∀ j, k < j → word r' j = word r j := by
  have hl := ha.1
  have hwa := word_lt ha (ws + k)
  have hd : val a / (2 ^ bs * W ^ ws) / W ^ k % W =
      word a (ws + k) / 2 ^ bs + (word a (ws + k + 1) * 2 ^ (64 - bs)) % W := by
    have e : val a / (2 ^ bs * W ^ ws) / W ^ k = val (a.drop (ws + k)) / 2 ^ bs := by
      rw [← val_drop ha, Nat.div_div_eq_div_mul, Nat.div_div_eq_div_mul, pow_add]
      congr 1; ring
    rw [e, drop_val, drop_val a (ws + k + 1)]
    exact (shr_digit (by omega) hwa).2
  have hb := (shr_digit (y := word a (ws + k + 1)) (z := 0) (by omega : bs ≤ 64) hwa).1
  obtain ⟨r1, e1, w1, v1, d1⟩ := addAt_ok hr (i := k) (x := word a (ws + k) >>> bs) (by omega) (by
    rw [hz, Nat.shiftRight_eq_div_pow]; omega)
  rw [Nat.shiftRight_eq_div_pow] at v1
  by_cases h2 : bs > 0 ∧ ws + k < n - 1
  · obtain ⟨r2, e2, w2, v2, d2⟩ := addAt_ok w1 (i := k) (x := (word a (ws + k + 1) <<< (64 - bs)) % W) (by omega) (by
      rw [d1, if_pos rfl, hz, Nat.shiftRight_eq_div_pow, Nat.shiftLeft_eq, Nat.zero_add]; exact hb)
    rw [Nat.shiftLeft_eq] at v2
    refine ⟨r2, ?_, w2, ?_, ?_⟩
    · simp only [shrStep, hl, h2, true_and, and_true, if_true, e1, bind, Except.bind]; exact e2
    · rw [v2, v1, hd]; ring
    · intro j hj; rw [d2, if_neg (by omega), d1, if_neg (by omega)]
  · refine ⟨r1, ?_, w1, ?_, fun j hj => by rw [d1, if_neg (by omega)]⟩
    · simp only [shrStep, hl, e1, bind, Except.bind, h2, if_false]; rfl
    · have : (word a (ws + k + 1) * 2 ^ (64 - bs)) % W = 0 := by
        by_cases hb0 : bs = 0
        · subst hb0
          have : 2 ^ (64 - 0) = W := rfl
          rw [this, Nat.mul_mod_left]
        · have : word a (ws + k + 1) = 0 := by
            simp [word, List.getD_eq_getElem?_getD, List.getElem?_eq_none (by omega : a.length ≤ ws + k + 1)]
          rw [this]; simp
      rw [v1, hd, this, Nat.add_zero]

theorem shr_loop {n a} (ha : WF n a) {ws bs : Nat} (hbs : bs < 64) (m : Nat) (hm : m ≤ n - ws) :
    ∃ r, (List.range m).foldlM (shrStep a ws bs) (zero n) = .ok r ∧ WF n r ∧
      val r = val a / (2 ^ bs * W ^ ws) % W ^ m ∧ ∀ j, m ≤ j → word r j = 0 := by
  induction m with
  | zero => exact ⟨zero n, rfl, wf_zero n, by simp [val_zero, Nat.mod_one], fun j _ => word_zero n j⟩
  | succ m ih =>
    obtain ⟨r, e, w, v, hz⟩ := ih (by omega)
    obtain ⟨r', e', w', v', g⟩ := shrStep_ok ha w hbs (k := m) (ws := ws) (by omega) (hz _ (le_refl _))
    refine ⟨r', ?_, w', ?_, fun j hj => by rw [g j (by omega)]; exact hz j (by omega)⟩
    · rw [List.range_succ, List.foldlM_append, e]
      show List.foldlM (shrStep a ws bs) r [m] = .ok r'
      rw [List.foldlM_cons, e']; rfl
    · rw [v', v, Nat.mod_pow_succ]

theorem shr_spec {n a} (ha : WF n a) (s : Nat) :
    ∃ r, shr a s = .ok r ∧ WF n r ∧ val r = val a / 2 ^ s := by
  obtain ⟨r, e, w, v, -⟩ := shr_loop ha (ws := s / 64) (bs := s % 64) (Nat.mod_lt _ (by omega)) (n - s / 64) (le_refl _)
  refine ⟨r, by rw [shr, ha.1]; exact e, w, ?_⟩
  rw [v, ← pow_split, Nat.mod_eq_of_lt]
  rw [Nat.div_lt_iff_lt_mul (by positivity)]
  have h1 := val_lt ha
  have h2 : W ^ n ≤ W ^ (n - s / 64) * 2 ^ s := by
    rw [pow_split, Nat.mul_comm (2 ^ _), ← Nat.mul_assoc, ← pow_add]
    have h3 : W ^ n ≤ W ^ (n - s / 64 + s / 64) := Nat.pow_le_pow_right W_pos (by omega)
    have h4 : 1 ≤ 2 ^ (s % 64) := Nat.one_le_two_pow
    calc W ^ n = W ^ n * 1 := by ring
      _ ≤ _ := Nat.mul_le_mul h3 h4
  omega

/-! ### multiplication -/

theorem mulLoop_spec {n a} (ha : WF n a) {rhs carry : Nat} (hr : rhs < W) (hc : carry < W - 1) :
    ∃ r c, mulLoop rhs a carry = .ok (r, c) ∧ WF n r ∧ c < W ∧ val r + W ^ n * c = val a * rhs + carry := by
  induction a generalizing n carry with
  | nil =>
    have := ha.1; simp at this; subst this
    exact ⟨[], carry, rfl, ⟨rfl, by simp⟩, by omega, by simp [val]⟩
  | cons x xs ih =>
    obtain ⟨n, rfl⟩ : ∃ m, n = m + 1 := ⟨xs.length, by have := ha.1; simp at this; omega⟩
    obtain ⟨hx, hw⟩ := ha.cons
    have h1 : x * rhs ≤ (W - 1) * (W - 1) := Nat.mul_le_mul (by omega) (by omega)
    have hW : 2 ≤ W := by unfold W; decide
    have h2 : (x * rhs + carry) / W < W - 1 := by
      rw [Nat.div_lt_iff_lt_mul W_pos]
      obtain ⟨w, hw⟩ : ∃ w, W = w + 1 := ⟨W - 1, by omega⟩
      rw [hw] at h1 hc ⊢
      simp only [Nat.add_sub_cancel] at h1 hc ⊢
      rw [Nat.mul_add]; omega
    have h3 : (x * rhs + carry) / W % W = (x * rhs + carry) / W := Nat.mod_eq_of_lt (by omega)
    obtain ⟨r, c, e, w, hcw, v⟩ := ih (carry := (x * rhs + carry) / W) hw h2
    refine ⟨(x * rhs + carry) % W :: r, c, ?_, wf_cons (Nat.mod_lt _ W_pos) w, hcw, ?_⟩
    · have g3 : x * rhs + carry < (W - 1) * (W - 1) + (W - 1) := by omega
      unfold mulLoop
      simp only [ensure, hc, h1, g3, if_true, h3, e]
      rfl
    · simp only [val]
      have := Nat.mod_add_div (x * rhs + carry) W
      have e4 : W * (val r + W ^ n * c) = W * (val xs * rhs + (x * rhs + carry) / W) := by rw [v]
      rw [Nat.mul_add, Nat.mul_add] at e4
      rw [pow_succ]
      have e5 : W ^ n * W * c = W * (W ^ n * c) := by ring
      have e6 : (x + W * val xs) * rhs = x * rhs + W * (val xs * rhs) := by ring
      omega

theorem mulWord_spec {n a} (ha : WF n a) {rhs : Nat} (hr : rhs < W) :
    ∃ r c, mulWord a rhs = .ok (r, c) ∧ WF n r ∧ c < W ∧ val r + W ^ n * c = val a * rhs := by
  have := mulLoop_spec ha (rhs := rhs) (carry := 0) hr (by unfold W; decide)
  simpa [mulWord] using this

theorem wf_append {n m a b} (ha : WF n a) (hb : WF m b) : WF (n + m) (a ++ b) :=
  ⟨by simp [ha.1, hb.1], by intro x hx; rcases List.mem_append.1 hx with h | h; exact ha.2 x h; exact hb.2 x h⟩

theorem shlWords_spec {n a} (ha : WF n a) (i : Nat) (hi : i ≤ n) :
    WF n (shlWords a i) ∧ val (shlWords a i) = W ^ i * val (a.take (n - i)) := by
  unfold shlWords
  rw [ha.1]
  constructor
  · have := wf_append (wf_zero i) (wf_take ha (n - i) (by omega))
    rwa [Nat.add_sub_cancel' hi] at this
  · rw [val_append, ← zero, val_zero]; simp [zero]

theorem wf_drop {n a} (ha : WF n a) (i : Nat) : WF (n - i) (a.drop i) :=
  ⟨by simp [ha.1], fun x hx => ha.2 x (List.mem_of_mem_drop hx)⟩

theorem shrWords_spec {n a} (ha : WF n a) (i : Nat) (hi : i ≤ n) :
    WF n (shrWords a i) ∧ val (shrWords a i) = val (a.drop i) ∧ ∀ j, n - i ≤ j → word (shrWords a i) j = 0 := by
  unfold shrWords
  refine ⟨?_, ?_, ?_⟩
  · have := wf_append (wf_drop ha i) (wf_zero i)
    rwa [Nat.sub_add_cancel hi] at this
  · rw [val_append, ← zero, val_zero]; simp
  · intro j hj
    unfold word
    rw [List.getD_eq_getElem?_getD, List.getElem?_append_right (by simp [ha.1]; omega), List.getElem?_replicate]
    split <;> rfl

theorem wideStep_spec {n a lo hi} (ha : WF n a) (hlo : WF n lo) (hhi : WF n hi) {rhs i B : Nat}
    (hr : rhs < W) (hi' : i < n) (hB : B < W ^ i) (hv : val lo + W ^ n * val hi = val a * B) :
    ∃ lo' hi'', wideStep a (lo, hi) (rhs, i) = .ok (lo', hi'') ∧ WF n lo' ∧ WF n hi'' ∧
      val lo' + W ^ n * val hi'' = val a * (B + W ^ i * rhs) := by
  obtain ⟨res, c, e, w, hc, v⟩ := mulWord_spec ha hr
  obtain ⟨w1, v1⟩ := shlWords_spec w i (by omega)
  obtain ⟨w2, v2, z2⟩ := shrWords_spec w (n - i) (by omega)
  have w3 := wf_set w2 i c hc
  have v3 := val_set (shrWords res (n - i)) i c (by rw [w2.1]; exact hi')
  rw [z2 i (by omega), v2, Nat.mul_zero, Nat.add_zero] at v3
  obtain ⟨w4, v4⟩ := addCarry_spec false hlo w1
  generalize h5 : addCarry lo (shlWords res i) false = p at w4 v4
  obtain ⟨lo', c0⟩ := p
  obtain ⟨w6, v6⟩ := addCarry_spec c0 hhi w3
  generalize h7 : addCarry hi ((shrWords res (n - i)).set i c) c0 = q at w6 v6
  obtain ⟨hi'', c1⟩ := q
  simp only [Bool.toNat_false, Nat.add_zero] at v4 v6 w4 w6
  have hres : val res = val (res.take (n - i)) + W ^ (n - i) * val (res.drop (n - i)) := by
    have e := val_append (res.take (n - i)) (res.drop (n - i))
    rw [List.take_append_drop] at e
    rw [e, List.length_take, w.1, Nat.min_eq_left (by omega)]
  have hni : W ^ i * W ^ (n - i) = W ^ n := by rw [← pow_add]; congr 1; omega
  have key : val lo' + W ^ n * (val hi'' + W ^ n * c1.toNat) = val a * (B + W ^ i * rhs) := by
    rw [v6, v3]
    have e1 : W ^ n * (val hi + (val (res.drop (n - i)) + W ^ i * c) + c0.toNat) =
      W ^ n * c0.toNat + W ^ n * val hi + W ^ i * (W ^ (n - i) * val (res.drop (n - i))) + W ^ i * (W ^ n * c) := by
      rw [← Nat.mul_assoc (W ^ i) (W ^ (n - i)), hni]; ring
    have e2 : val a * (B + W ^ i * rhs) = val a * B + W ^ i * (val a * rhs) := by ring
    rw [e1, e2, ← v, hres]
    rw [v1] at v4
    rw [Nat.mul_add (W ^ i), Nat.mul_add (W ^ i)]
    omega
  have hc1 : c1 = false := by
    cases c1 with
    | false => rfl
    | true =>
      exfalso
      simp only [Bool.toNat_true, Nat.mul_one] at key
      have b1 : B + W ^ i * rhs < W ^ n := by
        have : W ^ i * (rhs + 1) ≤ W ^ i * W := Nat.mul_le_mul_left _ hr
        rw [← pow_succ, Nat.mul_add] at this
        have h8 : W ^ (i+1) ≤ W ^ n := Nat.pow_le_pow_right W_pos (by omega)
        omega
      have b2 := val_lt ha
      have b3 : val a * (B + W ^ i * rhs) < W ^ n * W ^ n :=
        Nat.mul_lt_mul_of_lt_of_le b2 (by omega) (Nat.pow_pos W_pos)
      rw [Nat.mul_add] at key
      omega
  subst hc1
  refine ⟨lo', hi'', ?_, w4, w6, by simpa using key⟩
  simp only [wideStep, e, bind, Except.bind, overflowingAdd, ha.1, h5, h7, ensure, if_true]
  rfl

theorem wide_loop {n a} (ha : WF n a) (b : List Nat) : ∀ (lo hi : List Nat) (i B : Nat), WF n lo → WF n hi →
    (∀ x ∈ b, x < W) → i + b.length ≤ n → B < W ^ i → val lo + W ^ n * val hi = val a * B →
    ∃ lo' hi', (b.zipIdx i).foldlM (wideStep a) (lo, hi) = .ok (lo', hi') ∧ WF n lo' ∧ WF n hi' ∧
      val lo' + W ^ n * val hi' = val a * (B + W ^ i * val b) := by
  induction b with
  | nil =>
    intro lo hi i B h1 h2 _ _ _ hv
    exact ⟨lo, hi, rfl, h1, h2, by simpa [val] using hv⟩
  | cons x xs ih =>
    intro lo hi i B h1 h2 hb hl hB hv
    simp only [List.length_cons] at hl
    obtain ⟨lo1, hi1, e, w1, w2, v⟩ := wideStep_spec ha h1 h2 (hb x (by simp)) (by omega : i < n) hB hv
    have hx := hb x (by simp)
    obtain ⟨lo2, hi2, e2, w3, w4, v2⟩ := ih lo1 hi1 (i+1) (B + W ^ i * x) w1 w2 (fun y hy => hb y (by simp [hy])) (by omega)
      (by
        have : W ^ i * (x + 1) ≤ W ^ i * W := Nat.mul_le_mul_left _ hx
        rw [← pow_succ, Nat.mul_add] at this
        omega) v
    refine ⟨lo2, hi2, ?_, w3, w4, ?_⟩
    · rw [List.zipIdx_cons, List.foldlM_cons, e]; exact e2
    · rw [v2]; simp only [val, pow_succ]; ring

theorem wideningMul_spec {n a b} (ha : WF n a) (hb : WF n b) :
    ∃ lo hi, wideningMul a b = .ok (lo, hi) ∧ WF n lo ∧ WF n hi ∧ val lo + W ^ n * val hi = val a * val b := by
  have := wide_loop ha b (zero n) (zero n) 0 0 (wf_zero n) (wf_zero n) hb.2 (by rw [hb.1]; omega) (by simp)
    (by simp [val_zero])
  rw [wideningMul, ha.1]
  simpa using this

/-! ### division -/

theorem word_dvd {n a} (ha : WF n a) {i b : Nat} (hb : b ≤ 64) (h : 2 ^ b * W ^ i ∣ val a) : 2 ^ b ∣ word a i := by
  have h1 : 2 ^ b ∣ val a / W ^ i := Nat.dvd_div_of_mul_dvd (by rwa [Nat.mul_comm] at h)
  rw [val_drop ha, drop_val] at h1
  have h2 : 2 ^ b ∣ W * val (a.drop (i+1)) := Dvd.dvd.mul_right (by unfold W; exact pow_dvd_pow 2 hb) _
  exact (Nat.dvd_add_left h2).1 h1

theorem set_bit {n ret} (hr : WF n ret) {shift : Nat} (hs : shift / 64 < n) (hd : 2 ^ (shift + 1) ∣ val ret) :
    WF n (ret.set (shift / 64) (word ret (shift / 64) ||| ((1 <<< (shift % 64)) % W))) ∧
    val (ret.set (shift / 64) (word ret (shift / 64) ||| ((1 <<< (shift % 64)) % W))) = val ret + 2 ^ shift := by
  have hb : shift % 64 < 64 := Nat.mod_lt _ (by omega)
  have e1 : (1 <<< (shift % 64)) % W = 2 ^ (shift % 64) := by
    rw [Nat.shiftLeft_eq, Nat.one_mul, Nat.mod_eq_of_lt]
    unfold W; exact Nat.pow_lt_pow_right (by omega) hb
  have e2 : 2 ^ (shift + 1) = 2 ^ (shift % 64 + 1) * W ^ (shift / 64) := by
    rw [pow_succ, pow_split shift]; ring
  have h1 : 2 ^ (shift % 64 + 1) ∣ word ret (shift / 64) := word_dvd hr (by omega) (e2 ▸ hd)
  have hw := word_lt hr (shift / 64)
  obtain ⟨q, hq⟩ := h1
  have e3 : word ret (shift / 64) ||| 2 ^ (shift % 64) = word ret (shift / 64) + 2 ^ (shift % 64) := by
    rw [hq, Nat.two_pow_add_eq_or_of_lt (Nat.pow_lt_pow_right (by omega) (by omega))]
  have hlt : word ret (shift / 64) + 2 ^ (shift % 64) < W := by
    have e4 : W = 2 ^ (shift % 64 + 1) * 2 ^ (64 - (shift % 64 + 1)) := W_split (by omega)
    rw [hq] at hw ⊢
    rw [e4] at hw ⊢
    have h5 : q < 2 ^ (64 - (shift % 64 + 1)) := Nat.lt_of_mul_lt_mul_left hw
    have h6 : 2 ^ (shift % 64 + 1) * (q + 1) ≤ 2 ^ (shift % 64 + 1) * 2 ^ (64 - (shift % 64 + 1)) := Nat.mul_le_mul_left _ h5
    rw [Nat.mul_add] at h6
    have h7 : 2 ^ (shift % 64) < 2 ^ (shift % 64 + 1) := Nat.pow_lt_pow_right (by omega) (by omega)
    omega
  rw [e1, e3]
  refine ⟨wf_set hr _ _ hlt, ?_⟩
  have h8 := val_set ret (shift / 64) (word ret (shift / 64) + 2 ^ (shift % 64)) (by rw [hr.1]; exact hs)
  rw [Nat.mul_add, Nat.mul_comm (W ^ _) (2 ^ (shift % 64)), ← pow_split] at h8
  omega

theorem divLoop_spec {n : Nat} (hn : 0 < n) {d v : Nat} : ∀ (shift : Nat) (sub sc ret : List Nat), WF n sub → WF n sc → WF n ret →
    shift < 64 * n → val sc = d * 2 ^ shift → val sub < d * 2 ^ (shift + 1) → v = val ret * d + val sub →
    2 ^ (shift + 1) ∣ val ret →
    ∃ q r, divLoop shift sub sc ret = .ok (q, r) ∧ WF n q ∧ WF n r ∧ v = val q * d + val r ∧ val r < d := by
  intro shift
  induction shift with
  | zero =>
    intro sub sc ret h1 h2 h3 hs hsc hlt hv hd
    obtain ⟨sc', e, -, -⟩ := shr_spec h2 1
    have hc := cmp_spec h1 h2
    unfold divLoop
    simp only [e, bind, Except.bind]
    by_cases hf : cmp sub sc ≠ .lt
    · have hle : val sc ≤ val sub := by
        rw [hc] at hf
        by_contra hh
        exact hf (Nat.compare_eq_lt.2 (by omega))
      obtain ⟨w1, v1⟩ := set_bit h3 (shift := 0) (by omega) hd
      obtain ⟨w2, v2⟩ := uncheckedSub_spec hn h1 h2 hle
      simp only [hf, not_false_eq_true, decide_true, if_true, ne_eq]
      refine ⟨_, _, rfl, w1, w2, ?_, ?_⟩
      · rw [v1, v2, hv, Nat.add_mul]; simp only [Nat.pow_zero, Nat.mul_one] at hsc ⊢; omega
      · rw [v2]; simp only [Nat.pow_zero, Nat.mul_one, Nat.zero_add, Nat.pow_one] at hsc hlt ⊢; omega
    · have hle : val sub < val sc := by
        rw [hc] at hf
        by_contra hh
        apply hf
        intro hc'
        have := Nat.compare_eq_lt.1 hc'
        omega
      simp only [hf, decide_false]
      refine ⟨_, _, rfl, h3, h1, hv, ?_⟩
      simpa [hsc] using hle
  | succ s ih =>
    intro sub sc ret h1 h2 h3 hs hsc hlt hv hd
    obtain ⟨sc', e, w, hsc'⟩ := shr_spec h2 1
    have hsc2 : val sc' = d * 2 ^ s := by
      rw [hsc', hsc, pow_succ, ← Nat.mul_assoc]; simp
    have hc := cmp_spec h1 h2
    unfold divLoop
    simp only [e, bind, Except.bind]
    by_cases hf : cmp sub sc ≠ .lt
    · have hle : val sc ≤ val sub := by
        rw [hc] at hf
        by_contra hh
        exact hf (Nat.compare_eq_lt.2 (by omega))
      obtain ⟨w1, v1⟩ := set_bit h3 (shift := s+1) (by omega) hd
      obtain ⟨w2, v2⟩ := uncheckedSub_spec hn h1 h2 hle
      simp only [hf, not_false_eq_true, decide_true, if_true, ne_eq]
      refine ih _ _ _ w2 w w1 (by omega) hsc2 ?_ ?_ ?_
      · rw [v2, hsc]
        have : d * 2 ^ (s + 1 + 1) = d * 2 ^ (s + 1) + d * 2 ^ (s + 1) := by rw [pow_succ 2 (s+1)]; ring
        omega
      · rw [v1, v2, hv, Nat.add_mul, hsc, Nat.mul_comm (2 ^ (s+1)) d]
        rw [hsc] at hle
        omega
      · rw [v1]
        exact Nat.dvd_add (Dvd.dvd.trans (pow_dvd_pow 2 (by omega)) hd) (dvd_refl _)
    · have hle : val sub < val sc := by
        rw [hc] at hf
        by_contra hh
        apply hf
        intro hc'
        have := Nat.compare_eq_lt.1 hc'
        omega
      simp only [hf, decide_false]
      refine ih _ _ _ h1 w h3 (by omega) hsc2 (by rw [← hsc]; exact hle) hv ?_
      exact Dvd.dvd.trans (pow_dvd_pow 2 (by omega)) hd

theorem size_le_n {n a} (ha : WF n a) : (val a).size ≤ 64 * n := by
  rw [Nat.size_le, pow_mul]; exact val_lt ha

theorem divRem_spec {n a b} (hn : 0 < n) (ha : WF n a) (hb : WF n b) (h0 : val b ≠ 0) :
    ∃ q r, divRem a b = .ok (q, r) ∧ WF n q ∧ WF n r ∧ val q = val a / val b ∧ val r = val a % val b := by
  have hsb : 0 < (val b).size := Nat.size_pos.2 (by omega)
  have hbb := bits_spec hn hb
  have hba := bits_spec hn ha
  obtain ⟨t, ht⟩ : ∃ t, (val b).size = t + 1 := ⟨(val b).size - 1, by omega⟩
  have hblo : 2 ^ t ≤ val b := (Nat.lt_size (m := t)).1 (by omega)
  have hbhi : val b < 2 ^ (t + 1) := ht ▸ Nat.lt_size_self _
  have hahi : val a < 2 ^ (val a).size := Nat.lt_size_self _
  have e0 : ensure (bits b ≠ 0) Panic.divisionByZero = .ok () := by
    have h1 : bits b ≠ 0 := by rw [hbb]; omega
    simp [ensure, h1]
  by_cases hlt : bits a < bits b
  · have hab : val a < val b := by
      have : 2 ^ (val a).size ≤ 2 ^ t := Nat.pow_le_pow_right (by omega) (by omega)
      omega
    refine ⟨zero n, a, ?_, wf_zero n, ha, ?_, ?_⟩
    · rw [divRem, e0, if_pos hlt, ha.1]; rfl
    · rw [val_zero, Nat.div_eq_of_lt hab]
    · rw [Nat.mod_eq_of_lt hab]
  · have hs : (bits a - bits b) + (t + 1) = (val a).size := by omega
    generalize hsh : bits a - bits b = s at hs
    have hle := size_le_n ha
    have hfit : val b * 2 ^ s < W ^ n := by
      have h1 : val b * 2 ^ s < 2 ^ (t + 1) * 2 ^ s := Nat.mul_lt_mul_of_pos_right hbhi (by positivity)
      rw [← pow_add] at h1
      have h2 : 2 ^ (t + 1 + s) ≤ 2 ^ (64 * n) := Nat.pow_le_pow_right (by omega) (by omega)
      have h3 : (2:Nat) ^ (64 * n) = W ^ n := by unfold W; rw [← pow_mul]
      omega
    obtain ⟨sc, e1, w1, v1⟩ := shl_spec hb s
    rw [Nat.mod_eq_of_lt hfit] at v1
    obtain ⟨q, r, e2, w2, w3, v2, v3⟩ := divLoop_spec hn (d := val b) (v := val a) s a sc (zero n) ha w1 (wf_zero n) (by omega) v1
      (by
        have h1 : 2 ^ t * 2 ^ (s + 1) ≤ val b * 2 ^ (s + 1) := Nat.mul_le_mul_right _ hblo
        rw [← pow_add] at h1
        have h2 : t + (s + 1) = (val a).size := by omega
        rw [h2] at h1
        omega) (by rw [val_zero]; simp) (by rw [val_zero]; simp)
    refine ⟨q, r, ?_, w2, w3, ?_, ?_⟩
    · rw [divRem, e0, if_neg hlt, hsh, e1, ha.1]; exact e2
    · rw [v2, Nat.add_comm, Nat.add_mul_div_right _ _ (by omega), Nat.div_eq_of_lt v3, Nat.zero_add]
    · rw [v2, Nat.add_comm, Nat.add_mul_mod_self_right, Nat.mod_eq_of_lt v3]

/-! ### bytes -/

/-- number with the given little-endian base 256 digits -/
def leVal : List Nat → Nat
  | [] => 0
  | x :: xs => x + 256 * leVal xs

theorem leVal_append (a b : List Nat) : leVal (a ++ b) = leVal a + 256 ^ a.length * leVal b := by
  induction a with
  | nil => simp [leVal]
  | cons x xs ih => simp only [List.cons_append, leVal, ih, List.length_cons, pow_succ]; ring

theorem wordToBytes_eq (x : Nat) : wordToBytes x = [x % 256, x / 2^8 % 256, x / 2^16 % 256, x / 2^24 % 256, x / 2^32 % 256,
    x / 2^40 % 256, x / 2^48 % 256, x / 2^56 % 256] := by
  have h : ∀ i, (x >>> (8 * i)) &&& 0xff = x / 2 ^ (8 * i) % 256 := by
    intro i
    rw [Nat.shiftRight_eq_div_pow]
    exact Nat.and_two_pow_sub_one_eq_mod _ 8
  simp only [wordToBytes, h]
  simp [List.range, List.range.loop]

theorem wordToBytes_spec {x : Nat} (hx : x < W) :
    (wordToBytes x).length = 8 ∧ (∀ y ∈ wordToBytes x, y < 256) ∧ leVal (wordToBytes x) = x := by
  rw [wordToBytes_eq]
  refine ⟨rfl, ?_, ?_⟩
  · intro y hy
    simp only [List.mem_cons, List.not_mem_nil, or_false] at hy
    rcases hy with rfl | rfl | rfl | rfl | rfl | rfl | rfl | rfl <;> exact Nat.mod_lt _ (by omega)
  · simp only [leVal]
    unfold W at hx
    omega

theorem or_shift {a b i : Nat} (h : a < 2 ^ i) : a ||| (b <<< i) = a + b * 2 ^ i := by
  rw [Nat.or_comm, ← Nat.shiftLeft_add_eq_or_of_lt h, Nat.shiftLeft_eq]; omega

theorem bytesToWord_eight {b0 b1 b2 b3 b4 b5 b6 b7 : Nat} (h0 : b0 < 256) (h1 : b1 < 256) (h2 : b2 < 256) (h3 : b3 < 256)
    (h4 : b4 < 256) (h5 : b5 < 256) (h6 : b6 < 256) (_h7 : b7 < 256) :
    bytesToWord [b0, b1, b2, b3, b4, b5, b6, b7] = leVal [b0, b1, b2, b3, b4, b5, b6, b7] := by
  simp only [bytesToWord, List.range, List.range.loop, List.foldl, word, List.getD_cons_zero, List.getD_cons_succ, leVal]
  rw [or_shift (i := 8 * 0) (by simp)]
  rw [or_shift (i := 8 * 1) (by omega)]
  rw [or_shift (i := 8 * 2) (by omega)]
  rw [or_shift (i := 8 * 3) (by omega)]
  rw [or_shift (i := 8 * 4) (by omega)]
  rw [or_shift (i := 8 * 5) (by omega)]
  rw [or_shift (i := 8 * 6) (by omega)]
  rw [or_shift (i := 8 * 7) (by omega)]
  omega

theorem bytesToWordBe_eight {b0 b1 b2 b3 b4 b5 b6 b7 : Nat} :
    bytesToWordBe [b0, b1, b2, b3, b4, b5, b6, b7] = bytesToWord [b7, b6, b5, b4, b3, b2, b1, b0] := by
  simp only [bytesToWord, bytesToWordBe, List.range, List.range.loop, List.foldl, word, List.getD_cons_zero, List.getD_cons_succ]
  apply Nat.eq_of_testBit_eq
  intro i
  simp only [Nat.testBit_or, Nat.zero_testBit, Bool.false_or]
  simp only [Nat.reduceSub, Nat.reduceMul]
  generalize (b0 <<< 56).testBit i = c0
  generalize (b1 <<< 48).testBit i = c1
  generalize (b2 <<< 40).testBit i = c2
  generalize (b3 <<< 32).testBit i = c3
  generalize (b4 <<< 24).testBit i = c4
  generalize (b5 <<< 16).testBit i = c5
  generalize (b6 <<< 8).testBit i = c6
  generalize (b7 <<< 0).testBit i = c7
  revert c0 c1 c2 c3 c4 c5 c6 c7
  decide

theorem eight_cases {l : List Nat} (h : l.length = 8) : ∃ b0 b1 b2 b3 b4 b5 b6 b7, l = [b0, b1, b2, b3, b4, b5, b6, b7] := by
  match l, h with
  | [b0, b1, b2, b3, b4, b5, b6, b7], _ => exact ⟨b0, b1, b2, b3, b4, b5, b6, b7, rfl⟩

theorem bytesToWord_spec {l : List Nat} (h : l.length = 8) (hb : ∀ x ∈ l, x < 256) : bytesToWord l = leVal l := by
  obtain ⟨b0, b1, b2, b3, b4, b5, b6, b7, rfl⟩ := eight_cases h
  exact bytesToWord_eight (hb _ (by simp)) (hb _ (by simp)) (hb _ (by simp)) (hb _ (by simp)) (hb _ (by simp)) (hb _ (by simp))
    (hb _ (by simp)) (hb _ (by simp))

theorem bytesToWordBe_spec {l : List Nat} (h : l.length = 8) (hb : ∀ x ∈ l, x < 256) : bytesToWordBe l = leVal l.reverse := by
  have h2 := bytesToWord_spec (l := l.reverse) (by simpa using h) (by simpa using hb)
  rw [← h2]
  obtain ⟨b0, b1, b2, b3, b4, b5, b6, b7, rfl⟩ := eight_cases h
  exact bytesToWordBe_eight

theorem leVal_lt {l : List Nat} (hb : ∀ x ∈ l, x < 256) : leVal l < 256 ^ l.length := by
  induction l with
  | nil => simp [leVal]
  | cons x xs ih =>
    have h1 := hb x (by simp)
    have h2 := ih (fun y hy => hb y (by simp [hy]))
    simp only [leVal, List.length_cons, pow_succ]
    omega

theorem leVal_inj : ∀ {a b : List Nat}, a.length = b.length → (∀ x ∈ a, x < 256) → (∀ x ∈ b, x < 256) → leVal a = leVal b → a = b
  | [], [], _, _, _, _ => rfl
  | x :: xs, y :: ys, hl, ha, hb, h => by
    simp only [leVal] at h
    have h1 := ha x (by simp)
    have h2 := hb y (by simp)
    have : x = y := by omega
    subst this
    have ht : leVal xs = leVal ys := by omega
    have e := leVal_inj (a := xs) (b := ys) (by simpa using hl) (fun z hz => ha z (by simp [hz])) (fun z hz => hb z (by simp [hz])) ht
    rw [e]

theorem toBytes_spec {n a} (ha : WF n a) :
    (toBytes a).length = n * 8 ∧ (∀ y ∈ toBytes a, y < 256) ∧ leVal (toBytes a) = val a := by
  induction a generalizing n with
  | nil => have := ha.1; simp at this; subst this; simp [toBytes, leVal, val]
  | cons x xs ih =>
    obtain ⟨n, rfl⟩ : ∃ m, n = m + 1 := ⟨xs.length, by have := ha.1; simp at this; omega⟩
    obtain ⟨hx, hw⟩ := ha.cons
    obtain ⟨h1, h2, h3⟩ := ih hw
    obtain ⟨g1, g2, g3⟩ := wordToBytes_spec hx
    have e : toBytes (x :: xs) = wordToBytes x ++ toBytes xs := by simp [toBytes]
    rw [e]
    refine ⟨by rw [List.length_append, g1, h1]; omega, ?_, ?_⟩
    · intro y hy
      rcases List.mem_append.1 hy with h | h
      · exact g2 y h
      · exact h2 y h
    · rw [leVal_append, g1, g3, h3, val]
      have : (256:Nat) ^ 8 = W := by unfold W; norm_num
      rw [this]

theorem fromBytes_spec {n : Nat} {l : List Nat} (hl : l.length = n * 8) (hb : ∀ x ∈ l, x < 256) :
    WF n (fromBytes n l) ∧ val (fromBytes n l) = leVal l := by
  induction n generalizing l with
  | zero => simp at hl; subst hl; simp [fromBytes, WF, val, leVal]
  | succ n ih =>
    have ht : (l.take 8).length = 8 := by simp; omega
    have hbt : ∀ x ∈ l.take 8, x < 256 := fun x hx => hb x (List.mem_of_mem_take hx)
    obtain ⟨h1, h2⟩ := ih (l := l.drop 8) (by simp; omega) (fun x hx => hb x (List.mem_of_mem_drop hx))
    have h3 := bytesToWord_spec ht hbt
    have h4 := leVal_lt hbt
    rw [ht] at h4
    have e8 : (256:Nat) ^ 8 = W := by unfold W; norm_num
    rw [e8] at h4
    rw [fromBytes]
    refine ⟨wf_cons (by rw [h3]; exact h4) h1, ?_⟩
    rw [val, h3, h2]
    have := leVal_append (l.take 8) (l.drop 8)
    rw [List.take_append_drop, ht, e8] at this
    exact this.symm

theorem wordToBytesBe_eq (x : Nat) : wordToBytesBe x = (wordToBytes x).reverse := rfl

theorem toBeBytes_eq (a : List Nat) : toBeBytes a = (toBytes a).reverse := by
  induction a with
  | nil => rfl
  | cons x xs ih =>
    have e : toBytes (x :: xs) = wordToBytes x ++ toBytes xs := by simp [toBytes]
    rw [e, List.reverse_append, ← ih]
    simp [toBeBytes, wordToBytesBe_eq]

theorem beWords_spec {n : Nat} {l : List Nat} (hl : l.length = n * 8) (hb : ∀ x ∈ l, x < 256) :
    WF n (beWords n l).reverse ∧ val (beWords n l).reverse = leVal l.reverse := by
  induction n generalizing l with
  | zero => simp at hl; subst hl; simp [beWords, WF, val, leVal]
  | succ n ih =>
    have ht : (l.take 8).length = 8 := by simp; omega
    have hbt : ∀ x ∈ l.take 8, x < 256 := fun x hx => hb x (List.mem_of_mem_take hx)
    have hd : (l.drop 8).length = n * 8 := by simp; omega
    obtain ⟨h1, h2⟩ := ih (l := l.drop 8) hd (fun x hx => hb x (List.mem_of_mem_drop hx))
    have h3 := bytesToWordBe_spec ht hbt
    have h4 := leVal_lt (l := (l.take 8).reverse) (by simpa using hbt)
    rw [List.length_reverse, ht] at h4
    have e8 : (256:Nat) ^ 8 = W := by unfold W; norm_num
    rw [e8] at h4
    rw [beWords, List.reverse_cons]
    have w1 : WF 1 [bytesToWordBe (l.take 8)] := ⟨rfl, by intro x hx; simp at hx; subst hx; rw [h3]; exact h4⟩
    refine ⟨wf_append h1 w1, ?_⟩
    rw [val_append, h2, h1.1]
    have := leVal_append (l.drop 8).reverse (l.take 8).reverse
    rw [← List.reverse_append, List.take_append_drop, List.length_reverse, hd] at this
    rw [this, ← h3, val, val, Nat.mul_zero, Nat.add_zero, Nat.mul_comm n 8, pow_mul, e8]

end Verif.Uint
