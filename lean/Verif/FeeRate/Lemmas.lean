import Verif.FeeRate.Model
import Mathlib.Data.List.Basic
import Mathlib.Data.List.Pairwise
import Mathlib.Data.List.Forall2

namespace Verif.FeeRate

theorem computeFee_ok (r s f : Nat) :
    computeFee r s = .ok f ↔ r * s + 999 < U128 ∧ f = (r * s + 999) / 1000 := by
  unfold computeFee Amt.mul Amt.add
  by_cases h1 : r * s < U128
  · by_cases h2 : r * s + 999 < U128
    · simp [h1, h2, okOr, bind, Except.bind, pure, Except.pure, eq_comm]
    · simp [h1, h2, okOr, bind, Except.bind]
  · have h2 : ¬ r * s + 999 < U128 := by omega
    simp [h1, h2, okOr, bind, Except.bind]

theorem computeFee_error (r s : Nat) (e : Err) :
    computeFee r s = .error e ↔ U128 ≤ r * s + 999 ∧ e = .feeOverflow := by
  unfold computeFee Amt.mul Amt.add
  by_cases h1 : r * s < U128
  · by_cases h2 : r * s + 999 < U128
    · have : ¬ U128 ≤ r * s + 999 := by omega
      simp [h1, h2, okOr, bind, Except.bind, pure, Except.pure, this]
    · have : U128 ≤ r * s + 999 := by omega
      simp [h1, h2, okOr, bind, Except.bind, this, eq_comm]
  · have h2 : U128 ≤ r * s + 999 := by omega
    simp [h1, h2, okOr, bind, Except.bind, eq_comm]

theorem fromTotal_ok (f s r : Nat) :
    fromTotal f s = .ok r ↔ f * 1000 < U128 ∧ r = f * 1000 / s := by
  unfold fromTotal Amt.mul
  by_cases h : f * 1000 < U128
  · simp [h, okOr, bind, Except.bind, pure, Except.pure, eq_comm]
  · simp [h, okOr, bind, Except.bind]

theorem ceil_le_iff (n f : Nat) : (n + 999) / 1000 ≤ f ↔ n ≤ f * 1000 := by omega

theorem rate_le_iff (r f s : Nat) (hs : 0 < s) : r ≤ f * 1000 / s ↔ r * s ≤ f * 1000 := by
  rw [Nat.le_div_iff_mul_le hs]

theorem foldl_max_ge (l : List Nat) : ∀ a, a ≤ l.foldl max a ∧ ∀ x ∈ l, x ≤ l.foldl max a := by
  induction l with
  | nil => intro a; simp
  | cons y ys ih =>
    intro a
    obtain ⟨h1, h2⟩ := ih (max a y)
    simp only [List.foldl_cons, List.mem_cons, forall_eq_or_imp]
    exact ⟨by omega, by omega, h2⟩

theorem foldl_max_mem (l : List Nat) : ∀ a, l.foldl max a = a ∨ l.foldl max a ∈ l := by
  induction l with
  | nil => intro a; simp
  | cons y ys ih =>
    intro a
    simp only [List.foldl_cons, List.mem_cons]
    rcases ih (max a y) with h | h
    · rw [h]; rcases Nat.le_total a y with h' | h'
      · right; left; omega
      · left; omega
    · exact Or.inr (Or.inr h)

/-! ## Interpolation -/

theorem interp_inside {p0 p1 : Nat × Nat} {x v : Nat} (h : interp p0 p1 x = some v) (hne : p0.1 < p1.1) :
    p0.1 ≤ x ∧ x ≤ p1.1 ∧ v = (p0.2 * (p1.1 - x) + p1.2 * (x - p0.1)) / (p1.1 - p0.1) := by
  unfold interp at h
  have hne' : p0.1 ≠ p1.1 := by omega
  rw [if_neg hne'] at h
  by_cases hr : x < p0.1 ∨ x > p1.1
  · rw [if_pos hr] at h; simp at h
  · rw [if_neg hr] at h
    simp only [Option.bind_eq_bind, Option.bind_eq_some_iff, Amt.mul, Amt.add] at h
    obtain ⟨a, ha, b, hb, s, hs, h⟩ := h
    simp only [pure, Option.some.injEq] at h
    split at ha <;> simp at ha
    split at hb <;> simp at hb
    split at hs <;> simp at hs
    subst ha; subst hb; subst hs
    exact ⟨by omega, by omega, h.symm⟩

theorem interp_bounds {a b k1 k2 x v lo hi : Nat} (hk : k1 < k2)
    (h : interp (k1, a) (k2, b) x = some v)
    (ha : lo ≤ a ∧ a ≤ hi) (hb : lo ≤ b ∧ b ≤ hi) : lo ≤ v ∧ v ≤ hi := by
  obtain ⟨h1, h2, hv⟩ := interp_inside h hk
  simp only at h1 h2 hv
  obtain ⟨d, rfl⟩ : ∃ d, k2 = k1 + d := ⟨k2 - k1, by omega⟩
  obtain ⟨i, rfl⟩ : ∃ i, x = k1 + i := ⟨x - k1, by omega⟩
  obtain ⟨j, rfl⟩ : ∃ j, d = i + j := ⟨d - i, by omega⟩
  have e1 : k1 + (i + j) - (k1 + i) = j := by omega
  have e2 : k1 + i - k1 = i := by omega
  have e3 : k1 + (i + j) - k1 = i + j := by omega
  rw [e1, e2, e3] at hv
  have hd : 0 < i + j := by omega
  subst hv
  constructor
  · rw [Nat.le_div_iff_mul_le hd]
    nlinarith [Nat.mul_le_mul_right j ha.1, Nat.mul_le_mul_right i hb.1]
  · apply Nat.div_le_of_le_mul
    nlinarith [Nat.mul_le_mul_right j ha.2, Nat.mul_le_mul_right i hb.2]

theorem interp_antitone {a b k1 k2 x y v w : Nat} (hk : k1 < k2) (hab : b ≤ a) (hxy : x ≤ y)
    (h : interp (k1, a) (k2, b) x = some v) (h' : interp (k1, a) (k2, b) y = some w) : w ≤ v := by
  obtain ⟨h1, h2, hv⟩ := interp_inside h hk
  obtain ⟨h3, h4, hw⟩ := interp_inside h' hk
  simp only at h1 h2 hv h3 h4 hw
  rw [hv, hw]
  apply Nat.div_le_div_right
  obtain ⟨e, rfl⟩ : ∃ e, a = b + e := ⟨a - b, by omega⟩
  obtain ⟨i, rfl⟩ : ∃ i, x = k1 + i := ⟨x - k1, by omega⟩
  obtain ⟨j, rfl⟩ : ∃ j, y = k1 + i + j := ⟨y - (k1 + i), by omega⟩
  obtain ⟨l, rfl⟩ : ∃ l, k2 = k1 + i + j + l := ⟨k2 - (k1 + i + j), by omega⟩
  have e1 : k1 + i + j + l - (k1 + i + j) = l := by omega
  have e2 : k1 + i + j - k1 = i + j := by omega
  have e3 : k1 + i + j + l - (k1 + i) = j + l := by omega
  have e4 : k1 + i - k1 = i := by omega
  rw [e1, e2, e3, e4]
  nlinarith [Nat.zero_le (e * j)]

/-! ## The piecewise function -/

/-- keys ascend strictly -/
def Asc (m : List (Nat × Nat)) : Prop := m.Pairwise (fun a b => a.1 < b.1)

/-- clamped values never increase along the keys -/
def Desc (lim : Nat) (m : List (Nat × Nat)) : Prop := m.Pairwise (fun a b => max b.2 lim ≤ max a.2 lim)

theorem getLast?_filter_spec {m : List (Nat × Nat)} (hm : Asc m) {key : Nat} {l : Nat × Nat}
    (h : (m.filter (fun e => e.1 < key)).getLast? = some l) :
    l ∈ m ∧ l.1 < key ∧ ∀ e ∈ m, e.1 < key → e.1 ≤ l.1 := by
  obtain ⟨pre, hp⟩ := List.getLast?_eq_some_iff.1 h
  have hl : l ∈ m.filter (fun e => e.1 < key) := by rw [hp]; simp
  have hs : (m.filter (fun e => decide (e.1 < key))).Pairwise (fun a b => a.1 < b.1) :=
    List.Pairwise.sublist List.filter_sublist hm
  have hl' := List.mem_filter.1 hl
  refine ⟨hl'.1, by simpa using hl'.2, fun e he hk => ?_⟩
  have : e ∈ m.filter (fun e => e.1 < key) := List.mem_filter.2 ⟨he, by simpa using hk⟩
  rw [hp] at this hs
  rcases List.mem_append.1 this with h1 | h1
  · exact Nat.le_of_lt ((List.pairwise_append.1 hs).2.2 e h1 l (by simp))
  · have h2 : e = l := by simpa using h1
    rw [h2]

theorem head?_filter_spec {m : List (Nat × Nat)} (hm : Asc m) {key : Nat} {r : Nat × Nat}
    (h : (m.filter (fun e => key ≤ e.1)).head? = some r) :
    r ∈ m ∧ key ≤ r.1 ∧ ∀ e ∈ m, key ≤ e.1 → r.1 ≤ e.1 := by
  obtain ⟨tl, hp⟩ := List.head?_eq_some_iff.1 h
  have hl : r ∈ m.filter (fun e => key ≤ e.1) := by rw [hp]; simp
  have hs : (m.filter (fun e => decide (key ≤ e.1))).Pairwise (fun a b => a.1 < b.1) :=
    List.Pairwise.sublist List.filter_sublist hm
  have hl' := List.mem_filter.1 hl
  refine ⟨hl'.1, by simpa using hl'.2, fun e he hk => ?_⟩
  have : e ∈ m.filter (fun e => key ≤ e.1) := List.mem_filter.2 ⟨he, by simpa using hk⟩
  rw [hp] at this hs
  rcases List.mem_cons.1 this with h1 | h1
  · rw [h1]
  · exact Nat.le_of_lt ((List.pairwise_cons.1 hs).1 e h1)

theorem asc_inj {m : List (Nat × Nat)} (hm : Asc m) {a b : Nat × Nat} (ha : a ∈ m) (hb : b ∈ m)
    (h : a.1 = b.1) : a = b := by
  induction m with
  | nil => simp at ha
  | cons x xs ih =>
    obtain ⟨h1, h2⟩ := List.pairwise_cons.1 hm
    rcases List.mem_cons.1 ha with rfl | ha' <;> rcases List.mem_cons.1 hb with rfl | hb'
    · rfl
    · have := h1 _ hb'; omega
    · have := h1 _ ha'; omega
    · exact ih h2 ha' hb'

theorem desc_of {m : List (Nat × Nat)} {lim : Nat} (hm : Asc m) (hd : Desc lim m) {a b : Nat × Nat}
    (ha : a ∈ m) (hb : b ∈ m) (h : a.1 ≤ b.1) : max b.2 lim ≤ max a.2 lim := by
  induction m with
  | nil => simp at ha
  | cons x xs ih =>
    obtain ⟨h1, h2⟩ := List.pairwise_cons.1 hm
    obtain ⟨h3, h4⟩ := List.pairwise_cons.1 hd
    rcases List.mem_cons.1 ha with rfl | ha' <;> rcases List.mem_cons.1 hb with rfl | hb'
    · exact Nat.le_refl _
    · exact h3 _ hb'
    · have := h1 _ ha'; omega
    · exact ih h2 h4 ha' hb'

/-- What a successful lookup says. -/
theorem findInterp_spec {m : List (Nat × Nat)} (hm : Asc m) {key v : Nat} (h : findInterp m key = some v) :
    (key, v) ∈ m ∨
    ∃ l ∈ m, ∃ r ∈ m, l.1 < key ∧ key < r.1 ∧ (∀ e ∈ m, e.1 ≤ l.1 ∨ r.1 ≤ e.1) ∧
      interp l r key = some v := by
  unfold findInterp at h
  split at h
  · rename_i e he
    left
    have h1 := List.mem_of_find?_eq_some he
    have h2 := List.find?_some he
    simp only [beq_iff_eq] at h2
    simp only [Option.some.injEq] at h
    rw [← h2, ← h]; exact h1
  · rename_i hnone
    right
    simp only [Option.bind_eq_bind, Option.bind_eq_some_iff] at h
    obtain ⟨l, hl, r, hr, h⟩ := h
    obtain ⟨l1, l2, l3⟩ := getLast?_filter_spec hm hl
    obtain ⟨r1, r2, r3⟩ := head?_filter_spec hm hr
    have hne : key ≠ r.1 := by
      intro e
      have := List.find?_eq_none.1 hnone r r1
      simp [e] at this
    refine ⟨l, l1, r, r1, l2, by omega, fun e he => ?_, h⟩
    by_cases hk : e.1 < key
    · exact Or.inl (l3 e he hk)
    · exact Or.inr (r3 e he (by omega))

theorem seg_bounds {l r : Nat × Nat} {x v lim : Nat} (hlr : l.1 < r.1)
    (hd : max r.2 lim ≤ max l.2 lim) (h : interp l r x = some v) :
    max r.2 lim ≤ max v lim ∧ max v lim ≤ max l.2 lim := by
  rcases Nat.le_total r.2 l.2 with hc | hc
  · have := interp_bounds (lo := r.2) (hi := l.2) hlr h ⟨hc, Nat.le_refl _⟩ ⟨Nat.le_refl _, hc⟩
    omega
  · have := interp_bounds (lo := l.2) (hi := r.2) hlr h ⟨Nat.le_refl _, hc⟩ ⟨hc, Nat.le_refl _⟩
    omega

theorem findInterp_antitone {m : List (Nat × Nat)} {lim : Nat} (hm : Asc m) (hd : Desc lim m)
    {x y v w : Nat} (hxy : x ≤ y) (hx : findInterp m x = some v) (hy : findInterp m y = some w) :
    max w lim ≤ max v lim := by
  rcases findInterp_spec hm hx with h1 | ⟨l, hl, r, hr, hlx, hxr, hgap, hi⟩
  · rcases findInterp_spec hm hy with h2 | ⟨l', hl', r', hr', hlx', hxr', hgap', hi'⟩
    · exact desc_of hm hd h1 h2 hxy
    · have a1 : x ≤ l'.1 := by
        rcases hgap' _ h1 with h | h
        · exact h
        · simp only at h; omega
      have a2 := desc_of hm hd h1 hl' a1
      have a3 := (seg_bounds (lim := lim) (by omega) (desc_of hm hd hl' hr' (by omega)) hi').2
      simp only at a2
      omega
  · have hb := seg_bounds (lim := lim) (by omega : l.1 < r.1) (desc_of hm hd hl hr (by omega)) hi
    rcases findInterp_spec hm hy with h2 | ⟨l', hl', r', hr', hlx', hxr', hgap', hi'⟩
    · have a1 : r.1 ≤ y := by
        rcases hgap _ h2 with h | h
        · simp only at h; omega
        · exact h
      have a2 := desc_of hm hd hr h2 a1
      simp only at a2
      omega
    · have hb' := seg_bounds (lim := lim) (by omega : l'.1 < r'.1) (desc_of hm hd hl' hr' (by omega)) hi'
      rcases hgap _ hl' with h | h
      · -- same segment
        have h3 : l.1 ≤ l'.1 := by
          rcases hgap' _ hl with h' | h'
          · exact h'
          · omega
        have el : l = l' := asc_inj hm hl hl' (by omega)
        have er : r = r' := by
          apply asc_inj hm hr hr'
          have h4 := hgap _ hr'
          have h5 := hgap' _ hr
          omega
        subst el; subst er
        rcases Nat.le_total r.2 l.2 with hc | hc
        · have := interp_antitone (by omega : l.1 < r.1) hc hxy hi hi'
          omega
        · have hdd := desc_of hm hd hl hr (by omega)
          have := interp_bounds (lo := l.2) (hi := r.2) (by omega : l.1 < r.1) hi
            ⟨Nat.le_refl _, hc⟩ ⟨hc, Nat.le_refl _⟩
          omega
      · have := desc_of hm hd hr hl' h
        omega

/-! ## Accumulated sizes -/

theorem accumulate_keys_gt (l : List (Nat × Nat)) (hs : ∀ e ∈ l, 0 < e.2) :
    ∀ acc, ∀ e ∈ accumulate acc l, acc < e.1 := by
  induction l with
  | nil => intro acc e he; simp [accumulate] at he
  | cons x xs ih =>
    intro acc e he
    have hx := hs x (by simp)
    simp only [accumulate, List.mem_cons] at he
    rcases he with rfl | he
    · simp only; omega
    · have := ih (fun e he => hs e (by simp [he])) _ e he; omega

theorem accumulate_asc (l : List (Nat × Nat)) (hs : ∀ e ∈ l, 0 < e.2) : ∀ acc, Asc (accumulate acc l) := by
  induction l with
  | nil => intro acc; simp [accumulate, Asc]
  | cons x xs ih =>
    intro acc
    have hs' : ∀ e ∈ xs, 0 < e.2 := fun e he => hs e (by simp [he])
    simp only [accumulate, Asc, List.pairwise_cons]
    exact ⟨fun e he => accumulate_keys_gt xs hs' _ e he, ih hs' _⟩

theorem accumulate_map_snd (l : List (Nat × Nat)) : ∀ acc, (accumulate acc l).map Prod.snd = l.map Prod.fst := by
  induction l with
  | nil => intro acc; simp [accumulate]
  | cons x xs ih => intro acc; simp [accumulate, ih]

theorem accumulate_desc {lim : Nat} (l : List (Nat × Nat))
    (hd : l.Pairwise (fun a b => max b.1 lim ≤ max a.1 lim)) (acc : Nat) : Desc lim (accumulate acc l) := by
  have h1 : (l.map Prod.fst).Pairwise (fun a b => max b lim ≤ max a lim) := List.pairwise_map.2 hd
  rw [← accumulate_map_snd l acc] at h1
  exact List.pairwise_map.1 h1

theorem accumulate_length (l : List (Nat × Nat)) (acc : Nat) : (accumulate acc l).length = l.length := by
  rw [← List.length_map Prod.snd, accumulate_map_snd, List.length_map]

theorem accumulate_last (l : List (Nat × Nat)) (x : Nat × Nat) : ∀ acc,
    (accumulate acc (l ++ [x])).getLast? = some (acc + (l.map Prod.snd).sum + x.2, x.1) := by
  induction l with
  | nil => intro acc; simp [accumulate]
  | cons y ys ih =>
    intro acc
    simp only [List.cons_append, accumulate, List.getLast?_cons, ih, Option.getD_some, List.map_cons,
      List.sum_cons]
    congr 2; omega

theorem span_first_le_last {m : List (Nat × Nat)} (hm : Asc m) {a b : Nat × Nat}
    (ha : m.head? = some a) (hb : m.getLast? = some b) : a.1 ≤ b.1 := by
  obtain ⟨tl, rfl⟩ := List.head?_eq_some_iff.1 ha
  have := List.mem_of_getLast? hb
  rcases List.mem_cons.1 this with h | h
  · rw [h]
  · exact Nat.le_of_lt ((List.pairwise_cons.1 hm).1 b h)

theorem span_sorted (a b n : Nat) (h : a ≤ b) :
    (span a b n).Pairwise (· ≤ ·) ∧ ∀ x ∈ span a b n, a ≤ x ∧ x ≤ b := by
  unfold span
  split
  · constructor
    · simp
    · intro x hx
      have : x = a := by simpa using hx
      omega
  · rename_i hn
    have hn1 : 0 < n - 1 := by omega
    have hmid : ∀ i, i < n - 2 → (b - a) * (i + 1) / (n - 1) ≤ b - a := by
      intro i hi
      apply Nat.div_le_of_le_mul
      rw [Nat.mul_comm]
      exact Nat.mul_le_mul_right _ (by omega)
    have hle : ∀ x ∈ ((List.range (n - 2)).map (fun i => a + (b - a) * (i + 1) / (n - 1)) ++ [b]),
        a ≤ x ∧ x ≤ b := by
      intro x hx
      rcases List.mem_append.1 hx with h1 | h1
      · obtain ⟨i, hi, rfl⟩ := List.mem_map.1 h1
        have := hmid i (List.mem_range.1 hi)
        generalize (b - a) * (i + 1) / (n - 1) = q at this ⊢
        omega
      · have : x = b := by simpa using h1
        omega
    constructor
    · rw [List.pairwise_cons]
      refine ⟨fun x hx => (hle x hx).1, ?_⟩
      rw [List.pairwise_append]
      refine ⟨?_, by simp, ?_⟩
      · rw [List.pairwise_map]
        apply List.Pairwise.imp _ List.pairwise_lt_range
        intro i j hij
        have : (b - a) * (i + 1) / (n - 1) ≤ (b - a) * (j + 1) / (n - 1) :=
          Nat.div_le_div_right (Nat.mul_le_mul_left _ (by omega))
        omega
      · intro x hx y hy
        have : y = b := by simpa using hy
        rw [this]
        exact (hle x (List.mem_append_left _ hx)).2
    · intro x hx
      rcases List.mem_cons.1 hx with rfl | hx
      · omega
      · exact hle x hx

/-- Every lookup between the first and the last key succeeds when the values are small enough. -/
theorem findInterp_some {m : List (Nat × Nat)} (hm : Asc m) {a b : Nat × Nat} {S T key : Nat}
    (ha : m.head? = some a) (hb : m.getLast? = some b) (h1 : a.1 ≤ key) (h2 : key ≤ b.1)
    (hS : ∀ e ∈ m, e.2 ≤ S) (hT : b.1 ≤ T) (hST : S * T < U128) : ∃ v, findInterp m key = some v := by
  unfold findInterp
  split
  · exact ⟨_, rfl⟩
  · rename_i hnone
    have ham : a ∈ m := List.mem_of_head? ha
    have hbm : b ∈ m := List.mem_of_getLast? hb
    have hak : a.1 ≠ key := by
      intro e; have := List.find?_eq_none.1 hnone a ham; simp [e] at this
    have hf1 : m.filter (fun e => decide (e.1 < key)) ≠ [] := by
      intro h
      have := List.filter_eq_nil_iff.1 h a ham
      simp at this; omega
    have hf2 : m.filter (fun e => decide (key ≤ e.1)) ≠ [] := by
      intro h
      have := List.filter_eq_nil_iff.1 h b hbm
      simp at this; omega
    obtain ⟨l, hl⟩ : ∃ l, (m.filter (fun e => decide (e.1 < key))).getLast? = some l := by
      rw [List.getLast?_eq_some_getLast hf1]; exact ⟨_, rfl⟩
    obtain ⟨r, hr⟩ : ∃ r, (m.filter (fun e => decide (key ≤ e.1))).head? = some r := by
      rw [List.head?_eq_some_head hf2]; exact ⟨_, rfl⟩
    obtain ⟨l1, l2, -⟩ := getLast?_filter_spec hm hl
    obtain ⟨r1, r2, r3⟩ := head?_filter_spec hm hr
    have hrb := r3 b hbm h2
    have hSl := hS l l1
    have hSr := hS r r1
    rw [hl, hr]
    simp only [Option.bind_eq_bind, Option.bind_some, interp]
    rw [if_neg (by omega), if_neg (by omega)]
    have key1 : l.2 * (r.1 - key) + r.2 * (key - l.1) ≤ S * T := by
      have e1 : l.2 * (r.1 - key) ≤ S * (r.1 - key) := Nat.mul_le_mul_right _ hSl
      have e2 : r.2 * (key - l.1) ≤ S * (key - l.1) := Nat.mul_le_mul_right _ hSr
      have e3 : S * (r.1 - key) + S * (key - l.1) = S * (r.1 - key + (key - l.1)) := by ring
      have e4 : S * (r.1 - key + (key - l.1)) ≤ S * T := Nat.mul_le_mul_left _ (by omega)
      omega
    simp only [Amt.mul, Amt.add]
    rw [if_pos (by omega), if_pos (by omega)]
    simp only [Option.bind_some]
    rw [if_pos (by omega)]
    exact ⟨_, rfl⟩

theorem mapM_ok_of_forall {A B : Type} {f : A → Except Err B} : ∀ {l : List A},
    (∀ a ∈ l, ∃ b, f a = .ok b) → ∃ r, l.mapM f = .ok r := by
  intro l
  induction l with
  | nil => intro _; exact ⟨[], rfl⟩
  | cons a as ih =>
    intro h
    obtain ⟨b, hb⟩ := h a (by simp)
    obtain ⟨bs, hbs⟩ := ih (fun a ha => h a (by simp [ha]))
    exact ⟨b :: bs, by rw [List.mapM_cons, hb, hbs]; rfl⟩

theorem mapM_ok_forall {A B : Type} {f : A → Except Err B} : ∀ {l : List A} {r : List B}, l.mapM f = .ok r →
    List.Forall₂ (fun a b => f a = .ok b) l r := by
  intro l
  induction l with
  | nil =>
    intro r h
    simp only [List.mapM_nil, pure, Except.pure, Except.ok.injEq] at h
    subst h; exact .nil
  | cons a as ih =>
    intro r h
    rw [List.mapM_cons] at h
    obtain ⟨b, hb, h⟩ := bind_eq_ok.1 h
    obtain ⟨bs, hbs, h⟩ := bind_eq_ok.1 h
    simp only [pure, Except.pure, Except.ok.injEq] at h
    subst h
    exact .cons hb (ih hbs)

theorem forall2_antitone {m : List (Nat × Nat)} {lim : Nat} (hm : Asc m) (hd : Desc lim m)
    {pts : List Nat} {res : List (Nat × Nat)}
    (hf : List.Forall₂ (fun p q => q.1 = p ∧ ∃ v, findInterp m p = some v ∧ q.2 = max v lim) pts res)
    (hs : pts.Pairwise (· ≤ ·)) : res.Pairwise (fun a b => a.1 ≤ b.1 ∧ b.2 ≤ a.2) := by
  induction hf with
  | nil => simp
  | @cons p q ps qs hpq hrest ih =>
    obtain ⟨hs1, hs2⟩ := List.pairwise_cons.1 hs
    refine List.pairwise_cons.2 ⟨fun b hb => ?_, ih hs2⟩
    obtain ⟨e1, v, hv, e2⟩ := hpq
    obtain ⟨p', hp', f1, w, hw, f2⟩ :
        ∃ p' ∈ ps, b.1 = p' ∧ ∃ v, findInterp m p' = some v ∧ b.2 = max v lim := by
      clear ih hs hs1 hs2
      induction hrest with
      | nil => simp at hb
      | @cons x y xs ys hxy _ ih =>
        rcases List.mem_cons.1 hb with rfl | hb
        · exact ⟨x, by simp, hxy⟩
        · obtain ⟨p', h1, h2⟩ := ih hb
          exact ⟨p', by simp [h1], h2⟩
    have hle := hs1 p' hp'
    refine ⟨by omega, ?_⟩
    rw [e2, f2]
    exact findInterp_antitone hm hd hle hv hw

theorem forall2_mem_right {A B : Type} {R : A → B → Prop} {l : List A} {r : List B} (h : List.Forall₂ R l r)
    {b : B} (hb : b ∈ r) : ∃ a ∈ l, R a b := by
  induction h with
  | nil => simp at hb
  | @cons x y xs ys hxy _ ih =>
    rcases List.mem_cons.1 hb with rfl | hb
    · exact ⟨x, by simp, hxy⟩
    · obtain ⟨p', h1, h2⟩ := ih hb
      exact ⟨p', by simp [h1], h2⟩

theorem forall2_getLast {A B : Type} {R : A → B → Prop} {l : List A} {r : List B} (h : List.Forall₂ R l r)
    {a : A} (ha : l.getLast? = some a) : ∃ b, r.getLast? = some b ∧ R a b := by
  induction h with
  | nil => simp at ha
  | @cons x y xs ys hxy hrest ih =>
    cases hrest with
    | nil =>
      simp only [List.getLast?_singleton, Option.some.injEq] at ha ⊢
      exact ⟨y, rfl, ha ▸ hxy⟩
    | cons h1 h2 =>
      rw [List.getLast?_cons_cons] at ha ⊢
      exact ih ha

theorem span_last {a b n : Nat} (hn : 2 ≤ n) : (span a b n).getLast? = some b := by
  unfold span
  split
  · rename_i h
    have : a = b := by omega
    simp [this]
  · rw [← List.cons_append, List.getLast?_append]; simp

theorem accumulate_mem {l : List (Nat × Nat)} {acc : Nat} {e : Nat × Nat} (he : e ∈ accumulate acc l) :
    ∃ x ∈ l, e.2 = x.1 := by
  have : e.2 ∈ (accumulate acc l).map Prod.snd := List.mem_map_of_mem he
  rw [accumulate_map_snd] at this
  obtain ⟨x, hx, h⟩ := List.mem_map.1 this
  exact ⟨x, hx, h.symm⟩

end Verif.FeeRate
