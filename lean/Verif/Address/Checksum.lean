import Verif.Address.Model

/-! Lemmas about the checksum: it is linear, and its states do not meet. -/

namespace Verif.Address
open Verif

theorem ite_xor (x y : Bool) (g : Nat) :
    (if (x ^^ y) = true then g else 0) = (if x = true then g else 0) ^^^ (if y = true then g else 0) := by
  cases x <;> cases y <;> simp

theorem spread_xor (a b : Nat) : spread (a ^^^ b) = spread a ^^^ spread b := by
  unfold spread
  simp only [Nat.testBit_xor, ite_xor]
  generalize (if a.testBit 0 = true then 0x3b6a57b2 else 0) = a0
  generalize (if b.testBit 0 = true then 0x3b6a57b2 else 0) = b0
  generalize (if a.testBit 1 = true then 0x26508e6d else 0) = a1
  generalize (if b.testBit 1 = true then 0x26508e6d else 0) = b1
  generalize (if a.testBit 2 = true then 0x1ea119fa else 0) = a2
  generalize (if b.testBit 2 = true then 0x1ea119fa else 0) = b2
  generalize (if a.testBit 3 = true then 0x3d4233dd else 0) = a3
  generalize (if b.testBit 3 = true then 0x3d4233dd else 0) = b3
  generalize (if a.testBit 4 = true then 0x2a1462b3 else 0) = a4
  generalize (if b.testBit 4 = true then 0x2a1462b3 else 0) = b4
  ac_rfl

theorem step_xor (a b v w : Nat) : step (a ^^^ b) (v ^^^ w) = step a v ^^^ step b w := by
  unfold step
  rw [Nat.shiftRight_xor_distrib, spread_xor, Nat.and_xor_distrib_right, Nat.shiftLeft_xor_distrib]
  generalize (a &&& 0x1ffffff) <<< 5 = p
  generalize (b &&& 0x1ffffff) <<< 5 = q
  generalize spread (a >>> 25) = r
  generalize spread (b >>> 25) = s
  ac_rfl

theorem spread_lt (b : Nat) : spread b < 2 ^ 30 := by
  unfold spread
  have h : ∀ (x : Bool) (g : Nat), g < 2 ^ 30 → (if x = true then g else 0) < 2 ^ 30 := by
    intro x g hg; cases x
    · exact Nat.two_pow_pos 30
    · exact hg
  exact Nat.xor_lt_two_pow (Nat.xor_lt_two_pow (Nat.xor_lt_two_pow (Nat.xor_lt_two_pow (h _ _ (by decide)) (h _ _ (by decide)))
    (h _ _ (by decide))) (h _ _ (by decide))) (h _ _ (by decide))

theorem step_lt (a : Nat) {v : Nat} (h : v < 32) : step a v < 2 ^ 30 := by
  unfold step
  refine Nat.xor_lt_two_pow (Nat.xor_lt_two_pow ?_ (spread_lt _)) (by omega)
  have : a &&& 0x1ffffff ≤ 0x1ffffff := Nat.and_le_right
  rw [Nat.shiftLeft_eq]
  omega

theorem spread_zero : spread 0 = 0 := by decide

/-- while the state is small, a step just appends the symbol -/
theorem step_small {a v : Nat} (ha : a < 2 ^ 25) (h : v < 32) : step a v = a * 32 + v := by
  unfold step
  have h1 : a &&& 0x1ffffff = a := by
    have := Nat.and_two_pow_sub_one_of_lt_two_pow ha
    simpa using this
  have h2 : a >>> 25 = 0 := by rw [Nat.shiftRight_eq_div_pow]; omega
  rw [h1, h2, spread_zero, Nat.xor_zero]
  have e : a * 32 + v = 2 ^ 5 * a + v := by omega
  rw [e]
  apply Nat.eq_of_testBit_eq
  intro j
  rw [Nat.testBit_two_pow_mul_add a (by omega) j, Nat.testBit_xor, Nat.testBit_shiftLeft]
  by_cases hj : j < 5
  · simp [hj, Nat.not_le.mpr hj]
  · have : v.testBit j = false := by
      apply Nat.testBit_lt_two_pow
      have : 2 ^ 5 ≤ 2 ^ j := Nat.pow_le_pow_right (by decide) (by omega)
      omega
    simp [hj, this]
    omega

/-- the residues of two words of the same length differ by the residue of the difference -/
theorem foldl_step_xor : ∀ (l l' : List Nat) (s s' : Nat), l.length = l'.length →
    l.foldl step s ^^^ l'.foldl step s' = (l.zipWith (· ^^^ ·) l').foldl step (s ^^^ s')
  | [], [], _, _, _ => rfl
  | v :: l, w :: l', s, s', h => by
    simp only [List.foldl_cons, List.zipWith_cons_cons, step_xor]
    exact foldl_step_xor l l' _ _ (by simpa using h)
  | [], _ :: _, _, _, h => by simp at h
  | _ :: _, [], _, _, h => by simp at h

theorem foldl_step_lt : ∀ (l : List Nat) {s : Nat}, s < 2 ^ 30 → (∀ v ∈ l, v < 32) → l.foldl step s < 2 ^ 30
  | [], _, h, _ => h
  | v :: l, s, _, hl => foldl_step_lt l (step_lt s (hl v (by simp))) (fun w hw => hl w (by simp [hw]))

theorem and31 (n : Nat) : n &&& 31 = n % 32 := by
  have := Nat.and_two_pow_sub_one_eq_mod n 5
  simpa using this

theorem six_fold {a b c d e f : Nat} (ha : a < 32) (hb : b < 32) (hc : c < 32) (hd : d < 32) (he : e < 32) (hf : f < 32) :
    [a, b, c, d, e, f].foldl step 0 = ((((a * 32 + b) * 32 + c) * 32 + d) * 32 + e) * 32 + f := by
  simp only [List.foldl_cons, List.foldl_nil]
  rw [step_small (a := 0) (by decide) ha, Nat.zero_mul, Nat.zero_add]
  rw [step_small (a := a) (by omega) hb]
  rw [step_small (a := a * 32 + b) (by omega) hc]
  rw [step_small (a := (a * 32 + b) * 32 + c) (by omega) hd]
  rw [step_small (a := ((a * 32 + b) * 32 + c) * 32 + d) (by omega) he]
  rw [step_small (a := (((a * 32 + b) * 32 + c) * 32 + d) * 32 + e) (by omega) hf]

theorem digits_fold {r : Nat} (h : r < 2 ^ 30) :
    ([5, 4, 3, 2, 1, 0].map (fun i => (r >>> (5 * i)) &&& 31)).foldl step 0 = r := by
  simp only [List.map_cons, List.map_nil, Nat.shiftRight_eq_div_pow, and31]
  rw [six_fold (Nat.mod_lt _ (by decide)) (Nat.mod_lt _ (by decide)) (Nat.mod_lt _ (by decide)) (Nat.mod_lt _ (by decide))
    (Nat.mod_lt _ (by decide)) (Nat.mod_lt _ (by decide))]
  omega

theorem checksum_length (l : List Nat) : (checksum l).length = 6 := rfl

theorem checksum_lt (l : List Nat) : ∀ v ∈ checksum l, v < 32 := by
  intro v hv
  unfold checksum at hv
  simp only [List.mem_map, and31] at hv
  obtain ⟨i, -, rfl⟩ := hv
  exact Nat.mod_lt _ (by decide)

/-- a word with its checksum has the residue of BIP 350 -/
theorem checksum_residue {l : List Nat} (hl : ∀ v ∈ l, v < 32) : (l ++ checksum l).foldl step 1 = target := by
  have hr : (l ++ [0, 0, 0, 0, 0, 0]).foldl step 1 < 2 ^ 30 := by
    apply foldl_step_lt _ (by decide)
    intro v hv
    simp only [List.mem_append, List.mem_cons, List.not_mem_nil, or_false] at hv
    rcases hv with hv | hv
    · exact hl v hv
    · omega
  have hx : (l ++ [0, 0, 0, 0, 0, 0]).foldl step 1 ^^^ target < 2 ^ 30 := Nat.xor_lt_two_pow hr (by decide)
  have hd := digits_fold hx
  have key := foldl_step_xor [0, 0, 0, 0, 0, 0] (checksum l) (l.foldl step 1) 0 rfl
  have hz : List.zipWith (· ^^^ ·) [0, 0, 0, 0, 0, 0] (checksum l) = checksum l := by
    simp [checksum]
  rw [hz, Nat.xor_zero] at key
  rw [List.foldl_append, ← key]
  have : (checksum l).foldl step 0 = (l ++ [0, 0, 0, 0, 0, 0]).foldl step 1 ^^^ target := hd
  rw [this, ← List.foldl_append, ← Nat.xor_assoc, Nat.xor_self, Nat.zero_xor]

/-! ### Errors -/

/-- the state after `n` further zeros -/
def zeros (n x : Nat) : Nat := (List.replicate n 0).foldl step x

theorem zeros_succ (n x : Nat) : zeros (n + 1) x = zeros n (step x 0) := rfl

/-- no state in the next `n` steps is a single symbol -/
def far : Nat → Nat → Bool
  | 0, _ => true
  | n + 1, x =>
    match step x 0 with
    | 0 => false
    | y + 1 => Nat.ble 31 y && far n (y + 1)

theorem far_spec : ∀ (n x m : Nat), far n x = true → 1 ≤ m → m ≤ n → 32 ≤ zeros m x
  | 0, _, m, _, h1, h2 => by omega
  | n + 1, x, m, h, h1, h2 => by
    obtain ⟨m, rfl⟩ : ∃ k, m = k + 1 := ⟨m - 1, by omega⟩
    rw [zeros_succ]
    unfold far at h
    cases hy : step x 0 with
    | zero => rw [hy] at h; simp at h
    | succ y =>
      rw [hy] at h
      simp only [Bool.and_eq_true] at h
      rcases Nat.eq_zero_or_pos m with rfl | hm
      · have := Nat.le_of_ble_eq_true h.1
        show 32 ≤ y + 1
        omega
      · exact far_spec n (y + 1) m h.2 hm (by omega)

end Verif.Address
