import Verif.Uint.Lemmas
import Verif.Uint.Spec

/-!
# C39: fixed-width big integers

Every operation of the multi-word integer types is the operation on numbers, checked operations report exactly the results
that do not fit, none of the internal assertions can fail, and no addition inside can overflow.
-/

namespace Verif.Uint
open Verif Spec

set_option maxRecDepth 100000

theorem val_eq_num (a : List Nat) : num a = val a := by
  induction a with
  | nil => rfl
  | cons x xs ih =>
    rw [num, Nat.ofDigits_cons, ← num, ih]; rfl

theorem isWords_iff {n a} : IsWords n a ↔ WF n a := Iff.rfl

theorem pow_eq (n : Nat) : 2 ^ (64 * n) = W ^ n := by unfold W; rw [← pow_mul]

theorem is_iff {n r v} : Is n r v ↔ WF n r ∧ val r = v := by rw [Is, val_eq_num]; rfl

theorem ofDigits_leVal (l : List Nat) : Nat.ofDigits 256 l = leVal l := by
  induction l with
  | nil => rfl
  | cons x xs ih => rw [Nat.ofDigits_cons, ih]; rfl

theorem zero_iff {n b} (hb : WF n b) : b = zero n ↔ val b = 0 :=
  ⟨fun h => by rw [h, val_zero], fun h => val_inj hb (wf_zero n) (by rw [h, val_zero])⟩

/-- **C39** addition gives the sum if it fits and nothing otherwise -/
theorem C39_add {n : Nat} {a b : List Nat} (ha : IsWords n a) (hb : IsWords n b) :
    Exact n (checkedAdd a b) (num a + num b) := by
  obtain ⟨w, v⟩ := addCarry_spec false (isWords_iff.1 ha) (isWords_iff.1 hb)
  have hlt := val_lt w
  unfold Exact checkedAdd overflowingAdd
  rw [val_eq_num, val_eq_num, pow_eq]
  simp only [Bool.toNat_false, Nat.add_zero] at v
  cases hc : (addCarry a b false).2
  · rw [hc] at v
    simp only [Bool.toNat_false, Nat.mul_zero, Nat.add_zero] at v
    exact ⟨fun _ => ⟨_, rfl, w, by rw [val_eq_num]; exact v⟩, fun h => by omega⟩
  · rw [hc] at v
    simp only [Bool.toNat_true, Nat.mul_one] at v
    exact ⟨fun h => by omega, fun _ => rfl⟩

/-- **C39** subtraction gives the difference if there is one and nothing otherwise -/
theorem C39_sub {n : Nat} {a b : List Nat} (hn : 0 < n) (ha : IsWords n a) (hb : IsWords n b) :
    (num b ≤ num a → ∃ r, checkedSub a b = some r ∧ Is n r (num a - num b)) ∧
    (num a < num b → checkedSub a b = none) := by
  have hc := cmp_spec (isWords_iff.1 ha) (isWords_iff.1 hb)
  rw [val_eq_num, val_eq_num]
  constructor
  · intro h
    obtain ⟨w, v⟩ := uncheckedSub_spec hn (isWords_iff.1 ha) (isWords_iff.1 hb) h
    refine ⟨_, ?_, is_iff.2 ⟨w, v⟩⟩
    have : cmp a b ≠ .lt := by
      rw [hc]; intro h'; have := Nat.compare_eq_lt.1 h'; omega
    simp [checkedSub, this]
  · intro h
    have : cmp a b = .lt := by rw [hc]; exact Nat.compare_eq_lt.2 h
    simp [checkedSub, this]

/-- **C39** the double-width product, no assertion failing -/
theorem C39_widening_mul {n : Nat} {a b : List Nat} (ha : IsWords n a) (hb : IsWords n b) :
    ∃ lo hi, wideningMul a b = .ok (lo, hi) ∧ Is n lo (num a * num b % 2 ^ (64 * n)) ∧ Is n hi (num a * num b / 2 ^ (64 * n)) := by
  obtain ⟨lo, hi, e, w1, w2, v⟩ := wideningMul_spec (isWords_iff.1 ha) (isWords_iff.1 hb)
  rw [val_eq_num, val_eq_num, pow_eq, ← v]
  have hlt := val_lt w1
  refine ⟨lo, hi, e, is_iff.2 ⟨w1, ?_⟩, is_iff.2 ⟨w2, ?_⟩⟩
  · rw [Nat.add_mul_mod_self_left, Nat.mod_eq_of_lt hlt]
  · rw [Nat.add_mul_div_left _ _ (Nat.pow_pos W_pos), Nat.div_eq_of_lt hlt, Nat.zero_add]

/-- **C39** multiplication gives the product if it fits and nothing otherwise -/
theorem C39_mul {n : Nat} {a b : List Nat} (ha : IsWords n a) (hb : IsWords n b) :
    ∃ res, checkedMul a b = .ok res ∧ Exact n res (num a * num b) := by
  obtain ⟨lo, hi, e, w1, w2, v⟩ := wideningMul_spec (isWords_iff.1 ha) (isWords_iff.1 hb)
  have hlt := val_lt w1
  refine ⟨if hi = zero a.length then some lo else none, by simp only [checkedMul, e, bind, Except.bind]; rfl, ?_⟩
  rw [val_eq_num, val_eq_num, ← v, ha.1]
  unfold Exact
  rw [pow_eq]
  by_cases hz : hi = zero n
  · rw [if_pos hz, (zero_iff w2).1 hz, Nat.mul_zero, Nat.add_zero]
    exact ⟨fun _ => ⟨lo, rfl, w1, val_eq_num lo⟩, fun h => by omega⟩
  · rw [if_neg hz]
    have h1 : 1 ≤ val hi := by
      have : val hi ≠ 0 := fun h => hz ((zero_iff w2).2 h)
      omega
    have h2 : W ^ n * 1 ≤ W ^ n * val hi := Nat.mul_le_mul_left _ h1
    exact ⟨fun h => by omega, fun _ => rfl⟩

/-- **C39** multiplication by a small number wraps around at the width of the type, no assertion failing -/
theorem C39_mul_u32 {n k : Nat} {a : List Nat} (ha : IsWords n a) (hk : k < 2 ^ 32) :
    ∃ r, mulU32 a k = .ok r ∧ Is n r (num a * k % 2 ^ (64 * n)) := by
  obtain ⟨r, c, e, w, -, v⟩ := mulWord_spec (isWords_iff.1 ha) (rhs := k) (by unfold W; omega)
  refine ⟨r, by simp only [mulU32, e, bind, Except.bind]; rfl, is_iff.2 ⟨w, ?_⟩⟩
  rw [val_eq_num, pow_eq, ← v, Nat.add_mul_mod_self_left, Nat.mod_eq_of_lt (val_lt w)]

/-- **C39** division and remainder are those of numbers; dividing by zero gives nothing, and nothing panics -/
theorem C39_div {n : Nat} {a b : List Nat} (hn : 0 < n) (ha : IsWords n a) (hb : IsWords n b) :
    (num b ≠ 0 → ∃ q r, checkedDiv a b = .ok (some q) ∧ checkedRem a b = .ok (some r) ∧
      Is n q (num a / num b) ∧ Is n r (num a % num b)) ∧
    (num b = 0 → checkedDiv a b = .ok none ∧ checkedRem a b = .ok none) := by
  rw [val_eq_num, val_eq_num]
  have hz := zero_iff (isWords_iff.1 hb)
  constructor
  · intro h
    obtain ⟨q, r, e, w1, w2, v1, v2⟩ := divRem_spec hn (isWords_iff.1 ha) (isWords_iff.1 hb) h
    have hne : b ≠ zero a.length := by rw [ha.1]; exact fun h' => h (hz.1 h')
    refine ⟨q, r, ?_, ?_, is_iff.2 ⟨w1, v1⟩, is_iff.2 ⟨w2, v2⟩⟩
    · simp only [checkedDiv, if_pos hne, e, bind, Except.bind]; rfl
    · simp only [checkedRem, if_pos hne, e, bind, Except.bind]; rfl
  · intro h
    have he : ¬ b ≠ zero a.length := by rw [ha.1]; exact not_not.2 (hz.2 h)
    exact ⟨by simp only [checkedDiv, if_neg he]; rfl, by simp only [checkedRem, if_neg he]; rfl⟩

/-- **C39** the order is the order of the numbers, and different values stand for different numbers -/
theorem C39_order {n : Nat} {a b : List Nat} (ha : IsWords n a) (hb : IsWords n b) :
    cmp a b = compare (num a) (num b) ∧ (num a = num b ↔ a = b) := by
  rw [val_eq_num, val_eq_num]
  exact ⟨cmp_spec (isWords_iff.1 ha) (isWords_iff.1 hb), val_inj (isWords_iff.1 ha) (isWords_iff.1 hb), fun h => by rw [h]⟩

/-- **C39** shifts by any distance multiply and divide by the power of two, dropping what leaves the width -/
theorem C39_shift {n : Nat} {a : List Nat} (ha : IsWords n a) (s : Nat) :
    (∃ r, shl a s = .ok r ∧ Is n r (num a * 2 ^ s % 2 ^ (64 * n))) ∧ (∃ r, shr a s = .ok r ∧ Is n r (num a / 2 ^ s)) := by
  rw [val_eq_num, pow_eq]
  obtain ⟨r, e, w, v⟩ := shl_spec (isWords_iff.1 ha) s
  obtain ⟨r', e', w', v'⟩ := shr_spec (isWords_iff.1 ha) s
  exact ⟨⟨r, e, is_iff.2 ⟨w, v⟩⟩, ⟨r', e', is_iff.2 ⟨w', v'⟩⟩⟩

/-- **C39** the bit length is the least number of bits the number fits in -/
theorem C39_bits {n : Nat} {a : List Nat} (hn : 0 < n) (ha : IsWords n a) (k : Nat) :
    bits a ≤ k ↔ num a < 2 ^ k := by
  rw [bits_spec hn (isWords_iff.1 ha), val_eq_num, Nat.size_le]

/-- **C39** the byte strings are the base-256 digits of the number, least significant first or last, and reading is the
inverse of writing in both orders; strings of any other length are refused -/
theorem C39_bytes {n : Nat} {a l : List Nat} (ha : IsWords n a) (hl : IsBytes l) :
    (IsBytes (toBytes a) ∧ Nat.ofDigits 256 (toBytes a) = num a ∧ toBeBytes a = (toBytes a).reverse) ∧
    fromSlice n (toBytes a) = some a ∧ fromBeSlice n (toBeBytes a) = some a ∧
    (∀ r, fromSlice n l = some r → Is n r (Nat.ofDigits 256 l) ∧ toBytes r = l) ∧
    (∀ r, fromBeSlice n l = some r → Is n r (Nat.ofDigits 256 l.reverse) ∧ toBeBytes r = l) ∧
    (l.length ≠ n * 8 → fromSlice n l = none ∧ fromBeSlice n l = none) ∧
    (l.length = n * 8 → (fromSlice n l).isSome ∧ (fromBeSlice n l).isSome) := by
  obtain ⟨h1, h2, h3⟩ := toBytes_spec (isWords_iff.1 ha)
  have hr := toBeBytes_eq a
  refine ⟨⟨h2, by rw [ofDigits_leVal, val_eq_num]; exact h3, hr⟩, ?_, ?_, ?_, ?_, ?_, ?_⟩
  · obtain ⟨g1, g2⟩ := fromBytes_spec h1 h2
    rw [fromSlice, if_neg (by simp [h1])]
    rw [val_inj g1 (isWords_iff.1 ha) (by rw [g2, h3])]
  · have hb' : ∀ x ∈ (toBytes a).reverse, x < 256 := by simpa using h2
    obtain ⟨g1, g2⟩ := beWords_spec (n := n) (l := (toBytes a).reverse) (by simpa using h1) hb'
    rw [hr, fromBeSlice, if_neg (by simp [h1]), fromBeBytes]
    rw [val_inj g1 (isWords_iff.1 ha) (by rw [g2, List.reverse_reverse, h3])]
  · intro r hr'
    rw [fromSlice] at hr'
    split at hr'
    · cases hr'
    · rename_i hlen
      have hlen : l.length = n * 8 := by omega
      obtain ⟨g1, g2⟩ := fromBytes_spec hlen hl
      cases hr'
      refine ⟨is_iff.2 ⟨g1, by rw [ofDigits_leVal]; exact g2⟩, ?_⟩
      obtain ⟨k1, k2, k3⟩ := toBytes_spec g1
      exact leVal_inj (by rw [k1, hlen]) k2 hl (by rw [k3, g2])
  · intro r hr'
    rw [fromBeSlice] at hr'
    split at hr'
    · cases hr'
    · rename_i hlen
      have hlen : l.length = n * 8 := by omega
      obtain ⟨g1, g2⟩ := beWords_spec hlen hl
      cases hr'
      refine ⟨is_iff.2 ⟨g1, by rw [ofDigits_leVal]; exact g2⟩, ?_⟩
      obtain ⟨k1, k2, k3⟩ := toBytes_spec g1
      rw [toBeBytes_eq, List.reverse_eq_iff]
      refine Eq.symm (leVal_inj (by rw [List.length_reverse]; exact hlen.trans k1.symm) (by intro x hx; exact hl x (by simpa using hx)) k2 ?_)
      rw [← g2]; exact k3.symm
  · intro h
    simp [fromSlice, fromBeSlice, h]
  · intro h
    simp [fromSlice, fromBeSlice, h]

theorem val_pair {x y : Nat} : val [x, y] = x + W * y := by simp [val]

theorem fromU128_spec {n x : Nat} (hn : 1 < n) (hx : x < 2 ^ 128) : Is n (fromU128 n x) x := by
  rw [is_iff]
  have h1 : x % W < W := Nat.mod_lt _ W_pos
  have w1 := wf_set (wf_zero n) 0 (x % W) h1
  have hlt : x / W < W := by unfold W; omega
  have v1 := val_set (zero n) 0 (x % W) (by simp [zero]; omega)
  rw [val_zero, word_zero] at v1
  have hw : word ((zero n).set 0 (x % W)) 1 = 0 := by
    rw [word_set _ _ _ _ (by simp [zero]; omega), if_neg (by omega), word_zero]
  have v2 := val_set ((zero n).set 0 (x % W)) 1 (x / W) (by simp [zero]; omega)
  rw [hw] at v2
  have e : fromU128 n x = ((zero n).set 0 (x % W)).set 1 (x / W) := by
    unfold fromU128 zero
    have : x >>> 64 % W = x / W := by
      rw [Nat.shiftRight_eq_div_pow]
      exact Nat.mod_eq_of_lt hlt
    rw [this]
  rw [e]
  refine ⟨wf_set w1 1 _ hlt, ?_⟩
  have := Nat.mod_add_div x W
  rw [pow_one] at v2
  simp only [pow_zero] at v1
  omega

theorem four_cases {l : List Nat} (h : l.length = 4) : ∃ b0 b1 b2 b3, l = [b0, b1, b2, b3] := by
  match l, h with
  | [b0, b1, b2, b3], _ => exact ⟨b0, b1, b2, b3, rfl⟩

theorem low_val {a0 a1 a2 a3 : Nat} (h : val [a0, a1, a2, a3] < 2 ^ 128) : val [a0, a1] = val [a0, a1, a2, a3] := by
  have e : val [a0, a1, a2, a3] = a0 + W * a1 + W * W * (a2 + W * a3) := by simp only [val]; ring
  have e2 : W * W = 2 ^ 128 := by unfold W; norm_num
  rw [e, e2] at h
  have h0 : a2 + W * a3 = 0 := by
    by_contra hne
    have : 2 ^ 128 * 1 ≤ 2 ^ 128 * (a2 + W * a3) := Nat.mul_le_mul_left _ (by omega)
    omega
  rw [e, h0, val_pair]; omega

theorem low_val' {a : List Nat} (ha : a.length = 4) (h : val a < 2 ^ 128) : val (low128 a) = val a := by
  obtain ⟨a0, a1, a2, a3, rfl⟩ := four_cases ha
  have e : low128 [a0, a1, a2, a3] = [a0, a1] := rfl
  rw [e]
  exact low_val h

/-- **C39** conversions keep the number; narrowing succeeds exactly when the number fits -/
theorem C39_convert {a w : List Nat} (ha : IsWords 4 a) (hw : IsWords 8 w) :
    (∀ n x, 0 < n → x < 2 ^ 64 → Is n (fromU64 n x) x) ∧
    (∀ n x, 1 < n → x < 2 ^ 128 → Is n (fromU128 n x) x) ∧
    Is 8 (widen a) (num a) ∧
    (narrow w = if num w < 2 ^ 256 then some (w.take 4) else none) ∧ (num w < 2 ^ 256 → num (w.take 4) = num w) ∧
    toU128 a = (if num a < 2 ^ 128 then some (num a) else none) := by
  have hwid : ∀ b : List Nat, WF 4 b → WF 8 (widen b) ∧ val (widen b) = val b := by
    intro b hb
    match b, hb with
    | [b0, b1, b2, b3], hb =>
      have e : widen [b0, b1, b2, b3] = [b0, b1, b2, b3] ++ zero 4 := rfl
      rw [e]
      refine ⟨wf_append hb (wf_zero 4), ?_⟩
      rw [val_append, val_zero]; simp
  refine ⟨?_, ?_, is_iff.2 ⟨(hwid a ha).1, by rw [val_eq_num]; exact (hwid a ha).2⟩, ?_, ?_, ?_⟩
  · intro n x hn hx
    exact is_iff.2 ⟨wf_fromU64 hx, val_fromU64 hn⟩
  · intro n x hn hx
    exact fromU128_spec hn hx
  · have hm : WF 4 max256 := ⟨rfl, by intro x hx; rw [max256, List.mem_replicate] at hx; rw [hx.2]; unfold W; decide⟩
    have hv : val max256 = 2 ^ 256 - 1 := by decide +kernel
    have hc := cmp_spec (isWords_iff.1 hw) (hwid _ hm).1
    rw [(hwid _ hm).2, hv] at hc
    rw [narrow, hc, val_eq_num]
    have e : [word w 0, word w 1, word w 2, word w 3] = w.take 4 := by
      match w, hw with
      | [_, _, _, _, _, _, _, _], _ => rfl
    rw [e]
    by_cases h : val w < 2 ^ 256
    · rw [if_pos h, if_neg]
      intro h'; have := Nat.compare_eq_gt.1 h'; omega
    · rw [if_neg h, if_pos]
      exact Nat.compare_eq_gt.2 (by omega)
  · intro h
    rw [val_eq_num] at h ⊢
    rw [val_eq_num]
    have e := val_append (w.take 4) (w.drop 4)
    rw [List.take_append_drop] at e
    have hl : (w.take 4).length = 4 := by simp [hw.1]
    rw [hl] at e
    have e2 : W ^ 4 = 2 ^ 256 := by unfold W; norm_num
    rw [e2] at e
    have h0 : val (w.drop 4) = 0 := by
      by_contra hne
      have : 2 ^ 256 * 1 ≤ 2 ^ 256 * val (w.drop 4) := Nat.mul_le_mul_left _ (by omega)
      omega
    rw [h0] at e; omega
  · have hm := is_iff.1 (fromU128_spec (n := 4) (x := 2 ^ 128 - 1) (by omega) (by omega))
    have hc := cmp_spec (isWords_iff.1 ha) hm.1
    rw [hm.2] at hc
    rw [toU128, hc, val_eq_num]
    by_cases h : val a < 2 ^ 128
    · rw [if_pos h, if_neg (by intro h'; have := Nat.compare_eq_gt.1 h'; omega)]
      refine congrArg some ?_
      have hlow : WF 2 (low128 a) := ⟨rfl, by
        intro x hx
        simp only [low128, List.mem_cons, List.not_mem_nil, or_false] at hx
        rcases hx with rfl | rfl
        · exact word_lt (isWords_iff.1 ha) 0
        · exact word_lt (isWords_iff.1 ha) 1⟩
      have hf : ∀ l : List Nat, l.foldr (fun x acc => x + 256 * acc) 0 = leVal l := by
        intro l; induction l with
        | nil => rfl
        | cons x xs ih => simp only [List.foldr_cons, ih, leVal]
      rw [hf, (toBytes_spec hlow).2.2]
      exact low_val' ha.1 h
    · rw [if_neg h, if_pos (Nat.compare_eq_gt.2 (by omega))]

/-! ### concrete values -/

/-- 256-bit values with carries across words: the sum overflows, the difference exists, one product does not fit and another does -/
example :
    IsWords 4 [2^64-1, 2^64-1, 0, 2^63] ∧ IsWords 4 [1, 5, 0, 2^63] ∧
    checkedAdd [2^64-1, 2^64-1, 0, 2^63] [1, 5, 0, 2^63] = none ∧
    checkedAdd [2^64-1, 2^64-1, 0, 0] [1, 5, 0, 2^63] = some [0, 5, 1, 2^63] ∧
    checkedSub [1, 5, 0, 2^63] [2, 5, 0, 1] = some [2^64-1, 2^64-1, 2^64-1, 2^63-2] ∧
    (checkedMul [0, 1, 0, 0] [0, 0, 0, 1]).toOption = some none ∧
    (checkedMul [3, 1, 0, 0] [0, 7, 0, 0]).toOption = some (some [0, 21, 7, 0]) ∧
    (shl [2^63, 1, 0, 2^63] 65).toOption = some [0, 0, 3, 0] ∧
    (shr [2^63, 1, 0, 2^63] 65).toOption = some [0, 0, 2^62, 0] ∧
    bits [5, 1, 0, 0] = 65 := by
  refine ⟨⟨rfl, by decide +kernel⟩, ⟨rfl, by decide +kernel⟩, ?_⟩
  decide +kernel

/-- a division with a three-word divisor: 9·2^192 + 2^64 + 3 by 2^128 + 7 -/
example : ∃ q r, checkedDiv [3, 1, 0, 9] [7, 0, 1, 0] = .ok (some q) ∧ checkedRem [3, 1, 0, 9] [7, 0, 1, 0] = .ok (some r) ∧
    num q = 9 * 2 ^ 64 - 1 ∧ num r = 2 ^ 128 - 62 * 2 ^ 64 + 10 := by
  obtain ⟨q, r, h1, h2, ⟨-, h3⟩, ⟨-, h4⟩⟩ := (C39_div (n := 4) (a := [3, 1, 0, 9]) (b := [7, 0, 1, 0]) (by omega)
    ⟨rfl, by decide +kernel⟩ ⟨rfl, by decide +kernel⟩).1 (by decide +kernel)
  refine ⟨q, r, h1, h2, ?_, ?_⟩
  · rw [h3]; decide +kernel
  · rw [h4]; decide +kernel

end Verif.Uint
