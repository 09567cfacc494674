import Verif.Compact.Model
import Mathlib.Tactic.Ring
import Mathlib.Tactic.Linarith
import Mathlib.Tactic.NormNum

/-!
# Properties of compact targets (C25)
-/

namespace Verif.Compact

/-- numbers a compact target can express: at most 23 significant bits times a power of 256 -/
def Expressible (t : Nat) : Prop := ∃ m e, m < 2 ^ 23 ∧ t = m * 256 ^ e

theorem and_two_pow' (c i : Nat) : c &&& 2 ^ i = (c.testBit i).toNat * 2 ^ i := by
  apply Nat.eq_of_testBit_eq
  intro j
  rw [Nat.testBit_and, Nat.testBit_two_pow]
  by_cases h : i = j
  · subst h
    cases hb : c.testBit i <;> simp [Nat.testBit_two_pow]
  · cases hb : c.testBit i <;> simp [h, Nat.testBit_two_pow]

theorem and_bit {c : Nat} (h : c < 2 ^ 24) : (c &&& 0x00800000) ≠ 0 ↔ 2 ^ 23 ≤ c := by
  rw [show (0x00800000 : Nat) = 2 ^ 23 by norm_num, and_two_pow']
  have : c.testBit 23 = decide (c / 2 ^ 23 % 2 = 1) := by
    rw [Nat.testBit_eq_decide_div_mod_eq]
  rw [this]
  by_cases hc : 2 ^ 23 ≤ c
  · rw [decide_eq_true (show c / 2 ^ 23 % 2 = 1 by omega)]
    exact ⟨fun _ => hc, fun _ => by decide⟩
  · rw [decide_eq_false (show ¬ c / 2 ^ 23 % 2 = 1 by omega)]
    exact ⟨fun h => absurd (by simp) h, fun h => absurd h hc⟩

theorem and_mask (c : Nat) : c &&& 0x007FFFFF = c % 2 ^ 23 := by
  rw [show (0x007FFFFF : Nat) = 2 ^ 23 - 1 by norm_num, Nat.and_two_pow_sub_one_eq_mod]

theorem or_pack {m s : Nat} (h : m < 2 ^ 24) : m ||| (s <<< 24) = s * 2 ^ 24 + m := by
  rw [Nat.or_comm, ← Nat.shiftLeft_add_eq_or_of_lt h, Nat.shiftLeft_eq]

theorem pow256 (e : Nat) : 2 ^ (8 * e) = 256 ^ e := by
  rw [pow_mul]; norm_num

theorem shift_right_256 (v e : Nat) : v >>> (8 * e) = v / 256 ^ e := by
  rw [Nat.shiftRight_eq_div_pow, pow256]

/-- decoding of a packed mantissa and size, given that the mantissa is not negative -/
theorem decode_pack {m s : Nat} (hm : m < 2 ^ 23) :
    decode (s * 2 ^ 24 + m) =
      if s ≤ 3 then .ok (m / 256 ^ (3 - s))
      else if m ≠ 0 ∧ (s > 34 ∨ (m > 0xFF ∧ s > 33) ∨ (m > 0xFFFF ∧ s > 32)) then .error (shl256 m (8 * (s - 3)))
      else .ok (shl256 m (8 * (s - 3))) := by
  have h1 : (s * 2 ^ 24 + m) >>> 24 = s := by rw [Nat.shiftRight_eq_div_pow]; omega
  have h2 : (s * 2 ^ 24 + m) &&& 0x007FFFFF = m := by rw [and_mask]; omega
  have h3 : (s * 2 ^ 24 + m) &&& 0x00800000 = 0 := by
    rw [show (0x00800000 : Nat) = 2 ^ 23 by norm_num, and_two_pow', Nat.testBit_eq_decide_div_mod_eq]
    rw [decide_eq_false (show ¬ (s * 2 ^ 24 + m) / 2 ^ 23 % 2 = 1 by omega)]
    simp
  unfold decode
  simp only [h1, h2, h3]
  by_cases hs : s ≤ 3
  · rw [if_pos hs, if_pos hs, if_pos hs, shift_right_256, if_neg]
    rintro (⟨-, h⟩ | ⟨-, h⟩)
    · exact h rfl
    · omega
  · rw [if_neg hs, if_neg hs, if_neg hs]
    by_cases hc : m ≠ 0 ∧ (s > 34 ∨ (m > 0xFF ∧ s > 33) ∨ (m > 0xFFFF ∧ s > 32))
    · rw [if_pos hc, if_pos (Or.inr hc)]
    · rw [if_neg hc, if_neg]
      rintro (⟨-, h⟩ | h)
      · exact h rfl
      · exact hc h

/-- number of bytes -/
theorem byte_size (v : Nat) : v < 256 ^ ((v.size + 7) / 8) ∧ (v ≠ 0 → 256 ^ ((v.size + 7) / 8 - 1) ≤ v) ∧
    (v = 0 ↔ (v.size + 7) / 8 = 0) := by
  have h1 : v < 2 ^ v.size := Nat.lt_size_self v
  refine ⟨?_, fun h0 => ?_, ?_⟩
  · rw [← pow256]
    exact lt_of_lt_of_le h1 (Nat.pow_le_pow_right (by decide) (by omega))
  · have hs : 0 < v.size := Nat.size_pos.2 (Nat.pos_of_ne_zero h0)
    rw [← pow256]
    have : 2 ^ (v.size - 1) ≤ v := Nat.lt_size.1 (by omega)
    exact le_trans (Nat.pow_le_pow_right (by decide) (by omega)) this
  · constructor
    · rintro rfl; simp
    · intro h
      have : v.size = 0 := by omega
      exact Nat.size_eq_zero.1 this

theorem bitLen_eq (v : Nat) : bitLen v = v.size := by
  unfold bitLen
  split
  · rename_i h; subst h; simp
  · rename_i h
    apply le_antisymm
    · exact Nat.lt_size.2 (Nat.log2_self_le h)
    · exact Nat.size_le.2 Nat.lt_log2_self

/-- what `encode` produces, with the exponent chosen minimal -/
theorem encode_spec (v : Nat) (hv : v < W256) : ∃ e, v / 256 ^ e < 2 ^ 23 ∧ (e ≠ 0 → 2 ^ 23 ≤ v / 256 ^ (e - 1)) ∧
    decode (encode v) = .ok (v / 256 ^ e * 256 ^ e) ∧ encode v < 2 ^ 32 := by
  obtain ⟨b1, b2, b3⟩ := byte_size v
  have hS : (v.size + 7) / 8 ≤ 32 := by
    have : v.size ≤ 256 := Nat.size_le.2 hv
    omega
  unfold encode
  rw [bitLen_eq]
  generalize (v.size + 7) / 8 = S at b1 b2 b3 hS
  by_cases h3 : S ≤ 3
  · -- small values
    have hv24 : v < 2 ^ 24 := lt_of_lt_of_le b1 (by
      calc 256 ^ S ≤ 256 ^ 3 := Nat.pow_le_pow_right (by decide) h3
        _ = 2 ^ 24 := by norm_num)
    have hc : (v % 2 ^ 64) <<< (8 * (3 - S)) = v * 256 ^ (3 - S) := by
      rw [Nat.mod_eq_of_lt (by omega), Nat.shiftLeft_eq, pow256]
    have hc24 : v * 256 ^ (3 - S) < 2 ^ 24 := by
      have : v * 256 ^ (3 - S) < 256 ^ S * 256 ^ (3 - S) := Nat.mul_lt_mul_of_pos_right b1 (Nat.pow_pos (by decide))
      rw [← pow_add, show S + (3 - S) = 3 by omega] at this
      omega
    simp only [if_pos h3, hc, and_bit hc24]
    by_cases hbig : 2 ^ 23 ≤ v * 256 ^ (3 - S)
    · simp only [if_pos hbig]
      rw [Nat.shiftRight_eq_div_pow, Nat.mod_eq_of_lt (a := v * 256 ^ (3 - S) / 2 ^ 8) (by omega),
        Nat.mod_eq_of_lt (by rw [Nat.shiftLeft_eq]; omega), or_pack (by omega), decode_pack (by omega)]
      by_cases hS3 : S = 3
      · subst hS3
        simp only [Nat.sub_self, pow_zero, Nat.mul_one] at hbig ⊢
        refine ⟨1, by omega, fun _ => by simpa using hbig, ?_, by omega⟩
        rw [if_neg (by omega), if_neg (by omega)]
        unfold shl256 W256
        rw [Nat.shiftLeft_eq, Nat.mod_eq_of_lt (by omega)]
        norm_num
      · refine ⟨0, ?_, by simp, ?_, by omega⟩
        · have : v < 256 ^ S := b1
          have h2 : 256 ^ S ≤ 256 ^ 2 := Nat.pow_le_pow_right (by decide) (by omega)
          simp only [pow_zero, Nat.div_one]
          omega
        · rw [if_pos (by omega)]
          simp only [pow_zero, Nat.div_one, Nat.mul_one]
          congr 1
          have : (3 - S) = (3 - (S + 1)) + 1 := by omega
          rw [this, pow_succ, ← Nat.mul_assoc, show (2 : Nat) ^ 8 = 256 by norm_num,
            Nat.mul_div_cancel _ (by decide : 0 < 256), Nat.mul_div_cancel _ (Nat.pow_pos (by decide))]
    · simp only [if_neg hbig]
      rw [Nat.mod_eq_of_lt (a := v * 256 ^ (3 - S)) (by omega), Nat.mod_eq_of_lt (by rw [Nat.shiftLeft_eq]; omega),
        or_pack (by omega), decode_pack (by omega)]
      refine ⟨0, ?_, by simp, ?_, by omega⟩
      · have : v ≤ v * 256 ^ (3 - S) := Nat.le_mul_of_pos_right _ (Nat.pow_pos (by decide))
        simp only [pow_zero, Nat.div_one]; omega
      · rw [if_pos h3]
        simp only [pow_zero, Nat.div_one, Nat.mul_one]
        rw [Nat.mul_div_cancel _ (Nat.pow_pos (by decide))]
  · -- large values
    have hv0 : v ≠ 0 := fun h => by have := b3.1 h; omega
    have b2 := b2 hv0
    simp only [if_neg h3, shift_right_256]
    have hmul : ∀ a b : Nat, 256 ^ (a + b) = 256 ^ a * 256 ^ b := fun a b => pow_add _ _ _
    have hup : v / 256 ^ (S - 3) < 2 ^ 24 := by
      rw [Nat.div_lt_iff_lt_mul (Nat.pow_pos (by decide)), show (2 : Nat) ^ 24 = 256 ^ 3 by norm_num, ← pow_add,
        show 3 + (S - 3) = S by omega]
      exact b1
    have hlo : 2 ^ 16 ≤ v / 256 ^ (S - 3) := by
      rw [Nat.le_div_iff_mul_le (Nat.pow_pos (by decide)), show (2 : Nat) ^ 16 = 256 ^ 2 by norm_num, ← pow_add,
        show 2 + (S - 3) = S - 1 by omega]
      exact b2
    have hsmallpow : ∀ m e : Nat, m * 256 ^ e ≤ v → shl256 m (8 * e) = m * 256 ^ e := by
      intro m e h
      unfold shl256
      rw [Nat.shiftLeft_eq, pow256, Nat.mod_eq_of_lt (lt_of_le_of_lt h hv)]
    rw [Nat.mod_eq_of_lt (a := v / 256 ^ (S - 3)) (b := 2 ^ 64) (by omega)]
    simp only [and_bit hup]
    by_cases hbig : 2 ^ 23 ≤ v / 256 ^ (S - 3)
    · simp only [if_pos hbig]
      have hdd : v / 256 ^ (S - 3) / 2 ^ 8 = v / 256 ^ (S - 2) := by
        rw [Nat.div_div_eq_div_mul, show (2 : Nat) ^ 8 = 256 ^ 1 by norm_num, ← pow_add]
        congr 2; omega
      have hm23 : v / 256 ^ (S - 2) < 2 ^ 23 := by rw [← hdd]; omega
      rw [Nat.shiftRight_eq_div_pow, hdd, Nat.mod_eq_of_lt (a := v / 256 ^ (S - 2)) (by omega),
        Nat.mod_eq_of_lt (by rw [Nat.shiftLeft_eq]; omega), or_pack (by omega), decode_pack hm23]
      refine ⟨S - 2, hm23, fun _ => by rw [show S - 2 - 1 = S - 3 by omega]; exact hbig, ?_, by omega⟩
      rw [if_neg (by omega), if_neg, show S + 1 - 3 = S - 2 by omega, hsmallpow _ _ (Nat.div_mul_le_self _ _)]
      have hm16 : v / 256 ^ (S - 2) < 2 ^ 16 := by rw [← hdd]; omega
      omega
    · simp only [if_neg hbig]
      rw [Nat.mod_eq_of_lt (a := v / 256 ^ (S - 3)) (by omega), Nat.mod_eq_of_lt (by rw [Nat.shiftLeft_eq]; omega),
        or_pack (by omega), decode_pack (by omega)]
      refine ⟨S - 3, by omega, fun h => ?_, ?_, by omega⟩
      · have : v / 256 ^ (S - 3 - 1) / 256 = v / 256 ^ (S - 3) := by
          rw [Nat.div_div_eq_div_mul, show (256 : Nat) ^ (S - 3 - 1) * 256 = 256 ^ (S - 3) by
            rw [← pow_succ]; congr 1; omega]
        omega
      · rw [if_neg h3, if_neg (by omega), hsmallpow _ _ (Nat.div_mul_le_self _ _)]

/-- **C25 (encoding rounds down to the nearest expressible target).**  Encoding any target and decoding it back gives the
largest expressible number not above it. -/
theorem C25_round_down (v : Nat) (hv : v < 2 ^ 256) : ∃ t, decode (encode v) = .ok t ∧ Expressible t ∧ t ≤ v ∧
    (∀ x, Expressible x → x ≤ v → x ≤ t) ∧ (v - t) * 2 ^ 15 ≤ t := by
  obtain ⟨e, h1, h2, h3, -⟩ := encode_spec v hv
  refine ⟨_, h3, ⟨_, e, h1, rfl⟩, Nat.div_mul_le_self _ _, ?_, ?_⟩
  · rintro x ⟨m, k, hm, rfl⟩ hx
    rcases Nat.le_total e k with hk | hk
    · obtain ⟨j, rfl⟩ := Nat.exists_eq_add_of_le hk
      rw [pow_add, show m * (256 ^ e * 256 ^ j) = m * 256 ^ j * 256 ^ e by ring] at hx ⊢
      exact Nat.mul_le_mul_right _ ((Nat.le_div_iff_mul_le (Nat.pow_pos (by decide))).2 hx)
    · rcases Nat.eq_zero_or_pos e with rfl | he
      · have : k = 0 := by omega
        subst this
        simpa using hx
      · rcases Nat.lt_or_ge k e with hlt | hge
        · have h4 := h2 (by omega)
          have h5 : 2 ^ 15 ≤ v / 256 ^ e := by
            have : v / 256 ^ (e - 1) / 256 = v / 256 ^ e := by
              rw [Nat.div_div_eq_div_mul, show (256 : Nat) ^ (e - 1) * 256 = 256 ^ e by
                rw [← pow_succ]; congr 1; omega]
            omega
          calc m * 256 ^ k ≤ 2 ^ 23 * 256 ^ (e - 1) :=
                Nat.mul_le_mul (by omega) (Nat.pow_le_pow_right (by decide) (by omega))
            _ = 2 ^ 15 * 256 ^ e := by
                rw [show (256 : Nat) ^ e = 256 ^ (e - 1) * 256 by rw [← pow_succ]; congr 1; omega]; ring
            _ ≤ v / 256 ^ e * 256 ^ e := Nat.mul_le_mul_right _ h5
        · have : k = e := by omega
          subst this
          exact Nat.mul_le_mul_right _ ((Nat.le_div_iff_mul_le (Nat.pow_pos (by decide))).2 hx)
  · rcases Nat.eq_zero_or_pos e with rfl | he
    · simp
    · have h4 := h2 (by omega)
      have h5 : 2 ^ 15 ≤ v / 256 ^ e := by
        have : v / 256 ^ (e - 1) / 256 = v / 256 ^ e := by
          rw [Nat.div_div_eq_div_mul, show (256 : Nat) ^ (e - 1) * 256 = 256 ^ e by
            rw [← pow_succ]; congr 1; omega]
        omega
      have h6 : v - v / 256 ^ e * 256 ^ e ≤ 256 ^ e := by
        have := Nat.div_add_mod v (256 ^ e)
        have h7 := Nat.mod_lt v (show 0 < 256 ^ e from Nat.pow_pos (by decide))
        rw [Nat.mul_comm] at this
        omega
      calc (v - v / 256 ^ e * 256 ^ e) * 2 ^ 15 ≤ 256 ^ e * 2 ^ 15 := Nat.mul_le_mul_right _ h6
        _ = 2 ^ 15 * 256 ^ e := Nat.mul_comm _ _
        _ ≤ _ := Nat.mul_le_mul_right _ h5

/-- **C25 (decoding is exact).**  A compact value is decoded only if the number it stands for, mantissa × 256^(size-3)
rounded down, fits 256 bits; it is never truncated at the top.  The result is expressible. -/
theorem C25_decode_exact (c t : Nat) (h : decode c = .ok t) :
    t = c % 2 ^ 23 * 256 ^ (c / 2 ^ 24) / 256 ^ 3 ∧ t < 2 ^ 256 ∧ Expressible t := by
  have hm : c % 2 ^ 23 < 2 ^ 23 := Nat.mod_lt _ (by decide)
  unfold decode at h
  simp only [and_mask] at h
  rw [Nat.shiftRight_eq_div_pow] at h
  generalize c % 2 ^ 23 = m at h hm
  generalize c / 2 ^ 24 = s at h
  by_cases hs : s ≤ 3
  · simp only [if_pos hs] at h
    split at h
    · cases h
    · cases h
      have e : m >>> (8 * (3 - s)) = m * 256 ^ s / 256 ^ 3 := by
        rw [shift_right_256]
        have : (256 : Nat) ^ 3 = 256 ^ (3 - s) * 256 ^ s := by rw [← pow_add]; congr 1; omega
        rw [this, Nat.mul_div_mul_right _ _ (Nat.pow_pos (by decide))]
      refine ⟨e, ?_, ?_⟩
      · rw [shift_right_256]
        have : m / 256 ^ (3 - s) ≤ m := Nat.div_le_self _ _
        omega
      · refine ⟨m >>> (8 * (3 - s)), 0, ?_, by simp⟩
        rw [shift_right_256]
        have : m / 256 ^ (3 - s) ≤ m := Nat.div_le_self _ _
        omega
  · simp only [if_neg hs] at h
    split at h
    · cases h
    · rename_i hc
      cases h
      have hfit : m * 256 ^ (s - 3) < 2 ^ 256 := by
        by_cases h0 : m = 0
        · subst h0; simp
        · have hc2 : ¬ (s > 34 ∨ (m > 0xFF ∧ s > 33) ∨ (m > 0xFFFF ∧ s > 32)) := fun x => hc (Or.inr ⟨h0, x⟩)
          have key : ∀ a b : Nat, m < a → s - 3 ≤ b → a * 256 ^ b ≤ 2 ^ 256 → m * 256 ^ (s - 3) < 2 ^ 256 := by
            intro a b h1 h2 h3
            refine lt_of_lt_of_le ?_ h3
            exact lt_of_le_of_lt (Nat.mul_le_mul_left _ (Nat.pow_le_pow_right (by decide) h2))
              (Nat.mul_lt_mul_of_pos_right h1 (Nat.pow_pos (by decide)))
          by_cases h1 : m ≤ 0xFF
          · exact key (2 ^ 8) 31 (by omega) (by omega) (by norm_num)
          · by_cases h2 : m ≤ 0xFFFF
            · exact key (2 ^ 16) 30 (by omega) (by omega) (by norm_num)
            · exact key (2 ^ 23) 29 (by omega) (by omega) (by norm_num)
      have e : shl256 m (8 * (s - 3)) = m * 256 ^ (s - 3) := by
        unfold shl256 W256
        rw [Nat.shiftLeft_eq, pow256, Nat.mod_eq_of_lt hfit]
      rw [e]
      refine ⟨?_, hfit, m, _, hm, rfl⟩
      have : (256 : Nat) ^ s = 256 ^ (s - 3) * 256 ^ 3 := by rw [← pow_add]; congr 1; omega
      rw [this, ← Nat.mul_assoc, Nat.mul_div_cancel _ (by norm_num)]

theorem sign_bit (c : Nat) : c &&& 0x00800000 ≠ 0 ↔ c / 2 ^ 23 % 2 = 1 := by
  rw [show (0x00800000 : Nat) = 2 ^ 23 by norm_num, and_two_pow', Nat.testBit_eq_decide_div_mod_eq]
  by_cases h : c / 2 ^ 23 % 2 = 1 <;> simp [h]

/-- **C25 (what is decoded).**  A compact value is decoded exactly when the number it stands for is zero, or the sign bit
is clear and the number fits 256 bits. -/
theorem C25_decode_iff (c t : Nat) : decode c = .ok t ↔
    t = c % 2 ^ 23 * 256 ^ (c / 2 ^ 24) / 256 ^ 3 ∧ (t = 0 ∨ (c / 2 ^ 23 % 2 = 0 ∧ t < 2 ^ 256)) := by
  have hm : c % 2 ^ 23 < 2 ^ 23 := Nat.mod_lt _ (by decide)
  -- the word of the code is zero exactly when the number is
  have hword : ∀ m s : Nat, ((if s ≤ 3 then m >>> (8 * (3 - s)) else m) = 0 ↔ m * 256 ^ s / 256 ^ 3 = 0) := by
    intro m s
    by_cases hs : s ≤ 3
    · rw [if_pos hs, shift_right_256]
      have : (256 : Nat) ^ 3 = 256 ^ (3 - s) * 256 ^ s := by rw [← pow_add]; congr 1; omega
      rw [this, Nat.mul_div_mul_right _ _ (Nat.pow_pos (by decide))]
    · rw [if_neg hs]
      have : (256 : Nat) ^ s = 256 ^ (s - 3) * 256 ^ 3 := by rw [← pow_add]; congr 1; omega
      rw [this, ← Nat.mul_assoc, Nat.mul_div_cancel _ (by norm_num)]
      have := Nat.pow_pos (n := s - 3) (show 0 < 256 by decide)
      rw [Nat.mul_eq_zero]
      omega
  constructor
  · intro h
    obtain ⟨h1, h2, -⟩ := C25_decode_exact c t h
    refine ⟨h1, ?_⟩
    by_cases h0 : t = 0
    · exact .inl h0
    · refine .inr ⟨?_, h2⟩
      by_contra hsign
      have hb : c / 2 ^ 23 % 2 = 1 := by omega
      unfold decode at h
      simp only [and_mask] at h
      rw [Nat.shiftRight_eq_div_pow, if_pos (Or.inl ⟨fun hw => h0 (by rw [h1]; exact (hword _ _).1 hw),
        (sign_bit c).2 hb⟩)] at h
      cases h
  · rintro ⟨h1, h2⟩
    cases hd : decode c with
    | ok t' => rw [(C25_decode_exact c t' hd).1, ← h1]
    | error e =>
      exfalso
      unfold decode at hd
      simp only [and_mask] at hd
      rw [Nat.shiftRight_eq_div_pow] at hd
      have hz := hword (c % 2 ^ 23) (c / 2 ^ 24)
      have hbig : ¬ c / 2 ^ 24 ≤ 3 → (if c / 2 ^ 24 ≤ 3 then (c % 2 ^ 23) >>> (8 * (3 - c / 2 ^ 24)) else c % 2 ^ 23) =
        c % 2 ^ 23 := fun h => if_neg h
      generalize (if c / 2 ^ 24 ≤ 3 then (c % 2 ^ 23) >>> (8 * (3 - c / 2 ^ 24)) else c % 2 ^ 23) = W at hd hz hbig
      generalize (if c / 2 ^ 24 ≤ 3 then W else shl256 (c % 2 ^ 23) (8 * (c / 2 ^ 24 - 3))) = V at hd
      split at hd
      · rename_i hc
        have hw0 : W ≠ 0 := by
          rcases hc with hc | hc <;> exact hc.1
        have ht0 : t ≠ 0 := by
          intro h0
          exact hw0 (hz.2 (by rw [← h1, h0]))
        rcases h2 with h2 | ⟨h2, h3⟩
        · exact ht0 h2
        rcases hc with hc | hc
        · have := (sign_bit c).1 hc.2; omega
        · generalize c % 2 ^ 23 = m at *
          generalize c / 2 ^ 24 = s at *
          have hs : ¬ s ≤ 3 := by
            intro hs
            rcases hc.2 with h | ⟨-, h⟩ | ⟨-, h⟩ <;> omega
          rw [hbig hs] at hc hw0
          have e : (256 : Nat) ^ s = 256 ^ (s - 3) * 256 ^ 3 := by rw [← pow_add]; congr 1; omega
          rw [e, ← Nat.mul_assoc, Nat.mul_div_cancel _ (by norm_num)] at h1
          have key : ∀ a b : Nat, a ≤ m → b ≤ s - 3 → 2 ^ 256 ≤ a * 256 ^ b → False := by
            intro a b k1 k2 k3
            have := Nat.mul_le_mul k1 (Nat.pow_le_pow_right (show 0 < 256 by decide) k2)
            omega
          rcases hc.2 with h | ⟨h, h'⟩ | ⟨h, h'⟩
          · exact key 1 32 (by omega) (by omega) (by norm_num)
          · exact key (2 ^ 8) 31 (by omega) (by omega) (by norm_num)
          · exact key (2 ^ 16) 30 (by omega) (by omega) (by norm_num)
      · cases hd

/-- **C25 (decoded targets survive re-encoding).** -/
theorem C25_stable (c t : Nat) (h : decode c = .ok t) : decode (encode t) = .ok t := by
  obtain ⟨-, h1, h2⟩ := C25_decode_exact c t h
  obtain ⟨t', e, -, h3, h4, -⟩ := C25_round_down t h1
  rw [e]
  have := h4 t h2 (le_refl _)
  congr 1; omega

/-- **C25 (order is kept).**  A larger target never encodes to a smaller one; the encoding is a 32-bit number. -/
theorem C25_monotone (v w : Nat) (hvw : v ≤ w) (hw : w < 2 ^ 256) (a b : Nat) (ha : decode (encode v) = .ok a)
    (hb : decode (encode w) = .ok b) : a ≤ b ∧ encode v < 2 ^ 32 := by
  obtain ⟨a', e1, e2, e3, -, -⟩ := C25_round_down v (by omega)
  obtain ⟨b', f1, -, -, f4, -⟩ := C25_round_down w hw
  rw [ha] at e1; cases e1
  rw [hb] at f1; cases f1
  obtain ⟨_, _, _, _, h⟩ := encode_spec v (by unfold W256; omega)
  exact ⟨f4 a e2 (by omega), h⟩

/-- non-vacuity -/
example : encode 0x12345678 = 0x04123456 ∧ (decode 0x04123456).toOption = some 0x12345600 ∧ encode 0x80 = 0x02008000 ∧
    (decode 0x02008000).toOption = some 0x80 ∧ (decode 0x04923456).toOption = none ∧ (decode 0xff123456).toOption = none ∧
    (decode 0x01803456).toOption = some 0 ∧
    encode (2 ^ 256 - 1) = 0x2100ffff := by
  decide +kernel

end Verif.Compact
