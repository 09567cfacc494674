import Verif.Decimal.Lemmas
import Mathlib.Tactic.Positivity
import Mathlib.Algebra.Order.Field.Basic

/-!
# Properties of decimal amounts (C23) and per-thousand ratios (C26)
-/

set_option maxRecDepth 100000

namespace Verif.Decimal
open Verif

theorem value_eq {d : Dec} {a k : Nat} : d.value = (a : ℚ) / 10 ^ k ↔ a * 10 ^ d.decimals = d.mantissa * 10 ^ k := by
  unfold Dec.value
  have h1 : (10 : ℚ) ^ d.decimals ≠ 0 := by positivity
  have h2 : (10 : ℚ) ^ k ≠ 0 := by positivity
  rw [div_eq_div_iff h1 h2]
  constructor
  · intro h; exact_mod_cast h.symm
  · intro h; exact_mod_cast h.symm

theorem value_digits {i f : List Char} :
    Dec.value ⟨num i * 10 ^ f.length + num f, f.length⟩ = value i f := by
  unfold Dec.value value
  have h1 : (10 : ℚ) ^ f.length ≠ 0 := by positivity
  simp only
  push_cast
  field_simp

/-- **C23 (parsing is exact).**  Whatever string is accepted reads as a decimal number, and the result is that number, with
as many decimals as were written. -/
theorem C23_parse_exact (s : List Char) (d : Dec) (h : parse s = .ok d) :
    ∃ i f, Reads s i f ∧ d.value = value i f ∧ d.decimals = f.length ∧ d.mantissa < U128 ∧ d.decimals < 256 := by
  obtain ⟨i, f, hr⟩ := parse_reads_of h (by simp) (by simp) (by simp) (by simp)
  refine ⟨i, f, hr, ?_⟩
  rw [parse_reads hr] at h
  simp only [bind_eq_ok, ensure_eq_ok, pure_eq_ok] at h
  obtain ⟨_, h1, _, h2, _, h3, _, h4, _, h5, rfl⟩ := h
  exact ⟨value_digits, rfl, h5, h4⟩

/-- **C23 (what is accepted).**  A decimal number of at most 257 bytes and 255 decimals is accepted if its digits, taken as
one integer, fit 128 bits. -/
theorem C23_parse_accepts (s i f : List Char) (hr : Reads s i f) (hl : byteLen s ≤ 257) (hf : f.length ≤ 255)
    (hm : num (i ++ f) < U128) : parse s = .ok ⟨num (i ++ f), f.length⟩ := by
  rw [num_append] at hm ⊢
  have h1 : num i ≤ num i * 10 ^ f.length := Nat.le_mul_of_pos_right _ (Nat.pow_pos (by decide))
  rw [parse_reads hr]
  simp only [ensure, hl, hm, if_true, (show num i < U128 by omega), (show num f < U128 by omega),
    (show f.length < 256 by omega)]
  rfl

/-- a string reads as a number in one way only -/
theorem C23_reads_unique (s i f i' f' : List Char) (h : Reads s i f) (h' : Reads s i' f') : value i f = value i' f' := by
  -- the reading determines the list of characters left after trimming and removing underscores
  have key : ∀ {i f : List Char}, Reads s i f → splitDot ((trimSpaces s).filter (· ≠ '_')) = (i, f) := by
    rintro i f ⟨pre, mid, post, rfl, hpre, hpost, hmid, hi, hf, hlen⟩
    have hsp : ∀ c ∈ mid, c ≠ ' ' := by
      intro c hc e
      subst e
      have : ' ' ∈ mid.filter (· ≠ '_') := List.mem_filter.2 ⟨hc, by decide⟩
      rcases hmid with h | ⟨h, rfl⟩
      · rw [h, List.mem_append, List.mem_cons] at this
        rcases this with h | h | h
        · exact (digit_ne (hi _ h)).1 rfl
        · exact absurd h (by decide)
        · exact (digit_ne (hf _ h)).1 rfl
      · rw [h] at this
        exact (digit_ne (hi _ this)).1 rfl
    have hmn : mid ≠ [] := by
      rintro rfl
      rcases hmid with h | ⟨h, rfl⟩
      · simp at h
      · simp at h; subst h; simp at hlen
    rw [trim_eq hpre hpost hsp hmn]
    rcases hmid with h | ⟨h, rfl⟩
    · rw [h]; exact splitDot_dot (fun c hc => (digit_ne (hi _ hc)).2.2.1)
    · rw [h]; exact splitDot_none (fun c hc => (digit_ne (hi _ hc)).2.2.1)
  have e := (key h).symm.trans (key h')
  simp only [Prod.mk.injEq] at e
  rw [e.1, e.2]

/-- **C23 (decimal amounts round-trip).**  Every decimal amount prints to a string that parses back to the same mantissa and
number of decimals. -/
theorem C23_decimal_round_trip (d : Dec) (hm : d.mantissa < U128) (hk : d.decimals ≤ 255) : parse d.show = .ok d := by
  obtain ⟨i, f, hr, hf, hn, hb⟩ := show_reads (d := d)
  have hl := showNat_length hm
  have hb : byteLen d.show ≤ 257 := by omega
  have := C23_parse_accepts d.show i f hr hb (by omega) (by rw [num_append, hn]; exact hm)
  rw [this, num_append, hn, hf]

/-- **C23 (amounts round-trip).**  For every amount and number of decimals (at most 38 if the amount is zero) the printed
amount parses back to itself. -/
theorem C23_amount_round_trip (a k : Nat) (ha : a < U128) (hk : k ≤ 255) (h0 : a = 0 → k ≤ 38) :
    fromFixed (intoFixed a k) k = some a := by
  obtain ⟨m', k', e1, e2, e3, e4⟩ := strip_spec a k
  have hm : m' < U128 := by
    have : m' ≤ m' * 10 ^ (k - k') := Nat.le_mul_of_pos_right _ (Nat.pow_pos (by decide))
    omega
  have hp : parse (intoFixed a k) = .ok ⟨m', k'⟩ := by
    have := C23_decimal_round_trip ⟨m', k'⟩ hm (by simp only; omega)
    unfold intoFixed fromAmountNoPadding fromAmountFull Dec.withoutPadding
    rw [e1]; exact this
  unfold fromFixed
  rw [hp]
  show Dec.toAmount ⟨m', k'⟩ k = some a
  rw [toAmount_some]
  refine ⟨?_, ha, h0⟩
  simp only
  rw [e3, mul_assoc, ← pow_add]; congr 2; omega

/-- zero with more than 38 decimals prints as "0", which is then refused -/
theorem C23_zero_many_decimals_refused (k : Nat) (h : 38 < k) : fromFixed (intoFixed 0 k) k = none := by
  have hs : ∀ k, strip 0 k = ⟨0, 0⟩ := by
    intro k
    induction k with
    | zero => rfl
    | succ k ih => unfold strip; simpa using ih
  have : intoFixed 0 k = ['0'] := by
    unfold intoFixed fromAmountNoPadding fromAmountFull Dec.withoutPadding
    rw [hs]; rfl
  rw [this]
  have hp : parse ['0'] = .ok ⟨0, 0⟩ := by rfl
  unfold fromFixed
  rw [hp]
  show Dec.toAmount ⟨0, 0⟩ k = none
  cases e : Dec.toAmount ⟨0, 0⟩ k with
  | none => rfl
  | some a =>
    rw [toAmount_some] at e
    obtain ⟨e1, -, e3⟩ := e
    simp at e1
    omega

/-- **C23 (amounts are exact).**  Parsing with `k` decimals gives amount `a` exactly when the string is accepted and denotes
`a / 10^k`; digits beyond the decimals are never dropped. -/
theorem C23_amount_exact (s : List Char) (k a : Nat) (h : fromFixed s k = some a) :
    ∃ i f, Reads s i f ∧ value i f = (a : ℚ) / 10 ^ k ∧ a < U128 := by
  simp only [fromFixed, Option.bind_eq_some_iff] at h
  obtain ⟨d, h1, h2⟩ := h
  cases hp : parse s with
  | error e => rw [hp] at h1; cases h1
  | ok d' =>
    rw [hp] at h1; cases h1
    obtain ⟨i, f, hr, hv, -⟩ := C23_parse_exact s d hp
    obtain ⟨g1, g2, -⟩ := toAmount_some.1 h2
    exact ⟨i, f, hr, by rw [← hv]; exact value_eq.2 g1, g2⟩

/-- conversely, an accepted string that denotes `a / 10^k` gives `a` -/
theorem C23_amount_accepts (s i f : List Char) (k a : Nat) (hr : Reads s i f) (hl : byteLen s ≤ 257) (hf : f.length ≤ 255)
    (hm : num (i ++ f) < U128) (ha : a < U128) (hv : value i f = (a : ℚ) / 10 ^ k) (h0 : a = 0 → k ≤ 38) :
    fromFixed s k = some a := by
  unfold fromFixed
  rw [C23_parse_accepts s i f hr hl hf hm]
  show Dec.toAmount _ k = some a
  rw [toAmount_some]
  refine ⟨?_, ha, h0⟩
  apply value_eq.1
  rw [num_append, value_digits]; exact hv

/-- **C23 (when parsing panics).**  The parser panics exactly on a dot followed by 256 digits whose value fits 128 bits; on
everything else it returns a result or an error. -/
theorem C23_parse_panics_iff (s : List Char) : parse s = .error .panicked ↔
    ∃ f, s = '.' :: f ∧ AllDigits f ∧ f.length = 256 ∧ num f < U128 := by
  constructor
  · intro h
    obtain ⟨i, f, hr⟩ := parse_reads_of h (by simp) (by simp) (by simp) (by simp)
    rw [parse_reads hr] at h
    have hb : byteLen s ≤ 257 := by
      by_contra hc
      simp only [ensure, hc, if_false] at h; cases h
    have h1 : num i < U128 := by
      by_contra hc
      simp only [ensure, hb, hc, if_true, if_false] at h; cases h
    have h2 : num f < U128 := by
      by_contra hc
      simp only [ensure, hb, h1, hc, if_true, if_false] at h; cases h
    have h3 : 256 ≤ f.length := by
      by_contra hc
      have hc : f.length < 256 := by omega
      simp only [ensure, hb, h1, h2, hc, if_true] at h
      split at h <;> cases h
    obtain ⟨pre, mid, post, rfl, hpre, hpost, hmid, hi, hf, hlen⟩ := hr
    rcases hmid with hmid | ⟨-, rfl⟩
    · have l1 : (mid.filter (· ≠ '_')).length ≤ mid.length := List.length_filter_le _ _
      have l2 : (mid.filter (· ≠ '_')).length = i.length + (f.length + 1) := by rw [hmid]; simp
      have l3 := byteLen_ge (pre ++ mid ++ post)
      rw [List.length_append, List.length_append] at l3
      have z1 : pre = [] := List.eq_nil_of_length_eq_zero (by omega)
      have z2 : post = [] := List.eq_nil_of_length_eq_zero (by omega)
      have z3 : i = [] := List.eq_nil_of_length_eq_zero (by omega)
      have z4 : f.length = 256 := by omega
      have z5 : mid.filter (· ≠ '_') = mid :=
        List.filter_sublist.eq_of_length_le (by omega)
      subst z1 z2 z3
      refine ⟨f, ?_, hf, z4, h2⟩
      rw [z5] at hmid
      simpa using hmid
    · simp at h3
  · rintro ⟨f, rfl, hf, hl, hn⟩
    have hr : Reads ('.' :: f) [] f := by
      refine ⟨[], '.' :: f, [], by simp, by simp, by simp, Or.inl ?_, (by intro c hc; cases hc), hf, by omega⟩
      rw [List.nil_append, List.filter_eq_self]
      intro c hc
      rcases List.mem_cons.1 hc with rfl | hc
      · decide
      · simpa using (digit_ne (hf c hc)).2.1
    have hb : byteLen ('.' :: f) ≤ 257 := by
      rw [byteLen_cons, byteLen_digits hf, hl]; decide
    rw [parse_reads hr]
    have h0 : num [] < U128 := by decide
    have h3 : ¬ f.length < 256 := by omega
    simp only [ensure, hb, h0, hn, h3, if_true, if_false]
    rfl

/-- the panic is reachable -/
theorem C23_parse_panics : parse ('.' :: List.replicate 256 '0') = .error .panicked := by
  rw [C23_parse_panics_iff]
  refine ⟨_, rfl, fun c hc => ?_, by simp, by rw [num_zeros]; decide⟩
  rw [List.eq_of_mem_replicate hc]; decide

theorem applySign_neg {x : Int} (h1 : -I128 ≤ x) (h2 : x < 0) : applySign true x.natAbs = some x := by
  have hmn : ((((U128 - 1) / 2 + 1 : Nat)) : Int) = I128 := by decide
  unfold applySign Amt.intoSigned
  generalize (U128 - 1) / 2 + 1 = mn at *
  generalize I128 = I at *
  by_cases h : x.natAbs = mn
  · rw [if_pos ⟨rfl, h⟩]; congr 1; omega
  · rw [if_neg (fun c => h c.2), if_pos (by omega)]
    simp only [Option.map_some, if_true]
    congr 1; omega

theorem applySign_pos {x : Int} (h1 : 0 ≤ x) (h2 : x < I128) : applySign false x.natAbs = some x := by
  unfold applySign Amt.intoSigned
  rw [if_neg (fun c => by cases c.1), if_pos (by omega)]
  simp only [Option.map_some, Bool.false_eq_true, if_false]
  congr 1; omega

/-- **C23 (signed amounts round-trip)**, including the smallest one -/
theorem C23_signed_round_trip (x : Int) (k : Nat) (h1 : -I128 ≤ x) (h2 : x < I128) (hk : k ≤ 255) (h0 : x = 0 → k ≤ 38) :
    fromFixedSigned (intoFixedSigned x k) k = some x := by
  have hIU : I128 + I128 = (U128 : Int) := by decide
  have hI0 : 0 < I128 := by decide
  have hx : x.natAbs < U128 := by
    generalize I128 = I at *
    generalize U128 = U at *
    omega
  have hrt := C23_amount_round_trip x.natAbs k hx hk (by intro h; exact h0 (by omega))
  unfold intoFixedSigned
  by_cases hn : x < 0
  · rw [if_pos hn]
    show (fromFixed (intoFixed x.natAbs k) k).bind (applySign true) = _
    rw [hrt, Option.bind_some]
    exact applySign_neg h1 hn
  · rw [if_neg hn]
    have hh : (intoFixed x.natAbs k).head? ≠ some '-' := by
      intro he
      obtain ⟨i, f, hr, -, -, -⟩ := show_reads (d := fromAmountNoPadding x.natAbs k)
      have hmem : '-' ∈ intoFixed x.natAbs k := List.mem_of_mem_head? he
      obtain ⟨pre, mid, post, e, hpre, hpost, hmid, hi, hf, -⟩ := hr
      unfold intoFixed at hmem
      rw [e, List.mem_append, List.mem_append] at hmem
      rcases hmem with (h | h) | h
      · exact absurd (hpre _ h) (by decide)
      · have : '-' ∈ mid.filter (· ≠ '_') := List.mem_filter.2 ⟨h, by decide⟩
        rcases hmid with h | ⟨h, rfl⟩
        · rw [h, List.mem_append, List.mem_cons] at this
          rcases this with h | h | h
          · exact (digit_ne (hi _ h)).2.2.2.2.2.2.1 rfl
          · exact absurd h (by decide)
          · exact (digit_ne (hf _ h)).2.2.2.2.2.2.1 rfl
        · rw [h] at this
          exact (digit_ne (hi _ this)).2.2.2.2.2.2.1 rfl
      · exact absurd (hpost _ h) (by decide)
    unfold fromFixedSigned
    split
    · rename_i heq
      rw [heq] at hh
      exact absurd rfl hh
    · rw [hrt, Option.bind_some]
      exact applySign_pos (by omega) h2

theorem value_strip (d : Dec) : d.withoutPadding.value = d.value := by
  obtain ⟨m', k', e1, e2, e3, e4⟩ := strip_spec d.mantissa d.decimals
  unfold Dec.withoutPadding
  rw [e1]
  refine value_eq.2 ?_
  simp only
  rw [e3, mul_assoc, ← pow_add]; congr 2; omega

/-- **C23 (subtraction is exact)** -/
theorem C23_subtract_exact (l r x : Dec) (h : subtract l r = some x) : x.value = l.value - r.value := by
  simp only [subtract, Option.bind_eq_bind, Option.bind_eq_some_iff, withDecimals_some, sub_some, Option.some.injEq] at h
  obtain ⟨l', ⟨h1, h2, h3, rfl⟩, r', ⟨h4, h5, h6, rfl⟩, m, ⟨h7, rfl⟩, rfl⟩ := h
  rw [value_strip, ← value_strip r]
  generalize r.withoutPadding = r at *
  simp only at h7
  have hl : l.value = ((l.mantissa * 10 ^ (max l.decimals r.decimals - l.decimals) : Nat) : ℚ) /
      10 ^ (max l.decimals r.decimals) := by
    rw [value_eq, mul_assoc, ← pow_add]; congr 2; omega
  have hr : r.value = ((r.mantissa * 10 ^ (max l.decimals r.decimals - r.decimals) : Nat) : ℚ) /
      10 ^ (max l.decimals r.decimals) := by
    rw [value_eq, mul_assoc, ← pow_add]; congr 2; omega
  rw [hl, hr]
  unfold Dec.value
  simp only
  rw [Nat.cast_sub h7]
  ring

/-- **C23 (subtraction within one currency).**  Two amounts of a currency with at most 38 decimals, printed with at most 38
decimals, are subtracted successfully exactly when the result is not negative. -/
theorem C23_subtract_same_currency (l r : Dec) (a b k : Nat) (hl : l.value = (a : ℚ) / 10 ^ k)
    (hr : r.value = (b : ℚ) / 10 ^ k) (ha : a < U128) (hlm : l.mantissa < U128) (hk : k ≤ 38)
    (hld : l.decimals ≤ 38) : (subtract l r).isSome = true ↔ b ≤ a := by
  have h10 : (0 : ℚ) < 10 ^ k := by positivity
  constructor
  · intro h
    obtain ⟨x, hx⟩ := Option.isSome_iff_exists.1 h
    have := C23_subtract_exact l r x hx
    have hx0 : 0 ≤ x.value := by unfold Dec.value; exact div_nonneg (Nat.cast_nonneg _) (by positivity)
    rw [this, hl, hr, ← sub_div] at hx0
    have : (0 : ℚ) ≤ a - b := by
      by_contra hc
      have := div_neg_of_neg_of_pos (not_le.1 hc) h10
      linarith
    have : (b : ℚ) ≤ a := by linarith
    exact_mod_cast this
  · intro hba
    obtain ⟨m', k', e1, e2, e3, e4⟩ := strip_spec r.mantissa r.decimals
    have hp : ∀ n : Nat, 0 < 10 ^ n := fun n => Nat.pow_pos (by decide)
    have h38 : ∀ n : Nat, n ≤ 38 → 10 ^ n < U128 := fun n hn =>
      lt_of_le_of_lt (Nat.pow_le_pow_right (by decide) hn) (by decide : 10 ^ 38 < U128)
    have hrv : Dec.value ⟨m', k'⟩ = (b : ℚ) / 10 ^ k := by
      rw [← hr, ← value_strip r]; unfold Dec.withoutPadding; rw [e1]
    rw [value_eq] at hl hrv
    simp only at hrv
    -- k' ≤ k
    have hkk : k' ≤ k := by
      by_contra hc
      rcases e4 with h | h
      · omega
      · apply h
        obtain ⟨j, hj⟩ : ∃ j, k' = k + (j + 1) := ⟨k' - k - 1, by omega⟩
        rw [hj, pow_add, show b * (10 ^ k * 10 ^ (j + 1)) = (b * 10 ^ (j + 1)) * 10 ^ k by ring] at hrv
        have := Nat.eq_of_mul_eq_mul_right (hp k) hrv
        rw [← this, pow_succ, ← mul_assoc]; omega
    have hb' : b = m' * 10 ^ (k - k') := by
      have : (10 : Nat) ^ k = 10 ^ (k - k') * 10 ^ k' := by rw [← pow_add]; congr 1; omega
      rw [this, ← mul_assoc] at hrv
      exact Nat.eq_of_mul_eq_mul_right (hp k') hrv
    -- cross-multiplied comparison
    have hcmp : m' * 10 ^ l.decimals ≤ l.mantissa * 10 ^ k' := by
      have h1 : m' * 10 ^ l.decimals * 10 ^ k ≤ l.mantissa * 10 ^ k' * 10 ^ k := by
        have e5 : m' * 10 ^ l.decimals * 10 ^ k = b * 10 ^ k' * 10 ^ l.decimals := by rw [hrv]; ring
        have e6 : l.mantissa * 10 ^ k' * 10 ^ k = a * 10 ^ l.decimals * 10 ^ k' := by rw [hl]; ring
        rw [e5, e6, show b * 10 ^ k' * 10 ^ l.decimals = b * (10 ^ l.decimals * 10 ^ k') by ring,
          show a * 10 ^ l.decimals * 10 ^ k' = a * (10 ^ l.decimals * 10 ^ k') by ring]
        exact Nat.mul_le_mul_right _ hba
      exact Nat.le_of_mul_le_mul_right h1 (hp k)
    have goal : ∃ x, subtract l r = some x := by
      simp only [subtract, Dec.withoutPadding, e1, Option.bind_eq_bind, Option.bind_eq_some_iff, withDecimals_some, sub_some,
        Option.some.injEq]
      rcases Nat.le_total k' l.decimals with hle | hle
      · rw [Nat.max_eq_left hle]
        have hs : m' * 10 ^ (l.decimals - k') ≤ l.mantissa := by
          have : (10 : Nat) ^ l.decimals = 10 ^ (l.decimals - k') * 10 ^ k' := by rw [← pow_add]; congr 1; omega
          rw [this, ← mul_assoc] at hcmp
          exact Nat.le_of_mul_le_mul_right hcmp (hp k')
        exact ⟨_, _, ⟨le_refl _, h38 _ (by omega), by simpa using hlm, rfl⟩, _, ⟨hle, h38 _ (by omega), by omega, rfl⟩, _,
          ⟨by simpa using hs, rfl⟩, rfl⟩
      · rw [Nat.max_eq_right hle]
        have hs : m' ≤ l.mantissa * 10 ^ (k' - l.decimals) := by
          have : (10 : Nat) ^ k' = 10 ^ (k' - l.decimals) * 10 ^ l.decimals := by rw [← pow_add]; congr 1; omega
          rw [this, ← mul_assoc] at hcmp
          exact Nat.le_of_mul_le_mul_right hcmp (hp _)
        have hla : l.mantissa * 10 ^ (k - l.decimals) = a := by
          have : (10 : Nat) ^ k = 10 ^ (k - l.decimals) * 10 ^ l.decimals := by rw [← pow_add]; congr 1; omega
          rw [this, ← mul_assoc] at hl
          exact (Nat.eq_of_mul_eq_mul_right (hp _) hl).symm
        have hle2 : l.mantissa * 10 ^ (k' - l.decimals) ≤ a := by
          rw [← hla]
          exact Nat.mul_le_mul_left _ (Nat.pow_le_pow_right (by decide) (by omega))
        exact ⟨_, _, ⟨hle, h38 _ (by omega), by omega, rfl⟩, _, ⟨le_refl _, h38 _ (by omega), by simp; omega, rfl⟩, _,
          ⟨by simpa using hs, rfl⟩, rfl⟩
    obtain ⟨x, hx⟩ := goal
    rw [hx]; rfl

/-- beyond 38 decimals the documented guarantee of subtraction fails: subtracting zero is refused -/
theorem C23_subtract_zero_refused : subtract ⟨5, 50⟩ ⟨0, 50⟩ = none := by decide +kernel

/-- non-vacuity -/
example : intoFixed 1234500 4 = "123.45".toList ∧ fromFixed "123.45".toList 4 = some 1234500 ∧
    fromFixed " 1_23.4500 ".toList 4 = some 1234500 ∧ fromFixed "0.00001".toList 4 = none ∧
    intoFixedSigned (-I128) 11 = "-1701411834604692317316873037.15884105728".toList ∧
    fromFixedSigned "-1701411834604692317316873037.15884105728".toList 11 = some (-I128) ∧
    (Dec.show ⟨7, 3⟩) = "0.007".toList ∧ subtract ⟨1234500, 4⟩ ⟨45, 2⟩ = some ⟨123, 0⟩ := by
  decide +kernel

example : Reads " 1_23.4500 ".toList "123".toList "4500".toList := by
  refine ⟨[' '], "1_23.4500".toList, [' '], by decide, by decide, by decide, Or.inl (by decide), ?_, ?_, by decide⟩ <;>
    unfold AllDigits <;> decide

/-! ### per-thousand ratios -/

/-- **C26 (range).**  Every way to obtain a ratio - constructor, text, bytes - yields at most 1000. -/
theorem C26_range : (∀ v r, perThousand v = some r → r = v ∧ r ≤ 1000) ∧ (∀ v, 1000 < v → perThousand v = none) ∧
    (∀ s r, perThousandParse s = some r → r ≤ 1000) ∧
    (∀ inp r rest, perThousandDecode inp = some (r, rest) → r ≤ 1000) := by
  have h1 : ∀ v r, perThousand v = some r → r = v ∧ r ≤ 1000 := by
    intro v r h
    unfold perThousand at h
    split at h
    · cases h; exact ⟨rfl, by assumption⟩
    · cases h
  refine ⟨h1, fun v hv => ?_, fun s r h => ?_, fun inp r rest h => ?_⟩
  · unfold perThousand; rw [if_neg (by omega)]
  · simp only [perThousandParse, Option.bind_eq_some_iff] at h
    obtain ⟨a, -, h⟩ := h
    split at h
    · exact (h1 _ _ h).2
    · cases h
  · unfold perThousandDecode at h
    split at h
    · rw [Option.map_eq_some_iff] at h
      obtain ⟨v, hv, e⟩ := h
      cases e
      exact (h1 _ _ hv).2
    · cases h

/-- **C26 (bytes).**  Encoding then decoding returns the ratio and leaves the following bytes; two bytes of any larger number
are refused. -/
theorem C26_encode_decode (v : Nat) (hv : v ≤ 1000) (rest : List Nat) :
    perThousandDecode (perThousandEncode v ++ rest) = some (v, rest) ∧
    ∀ lo hi, 1000 < lo + 256 * hi → perThousandDecode (lo :: hi :: rest) = none := by
  constructor
  · show (perThousand (v % 256 + 256 * (v / 256))).map _ = _
    rw [Nat.mod_add_div]
    unfold perThousand
    rw [if_pos hv]; rfl
  · intro lo hi h
    show (perThousand _).map _ = _
    unfold perThousand
    rw [if_neg (by omega)]; rfl

theorem show_chars (a k : Nat) : ∀ c ∈ intoFixed a k, c ≠ '%' ∧ isWhite c = false := by
  obtain ⟨i, f, hr, -, -, -⟩ := show_reads (d := fromAmountNoPadding a k)
  obtain ⟨pre, mid, post, e, hpre, hpost, hmid, hi, hf, -⟩ := hr
  -- a printed amount has only digits and at most one dot
  have gen : ∀ d : Dec, ∀ c ∈ d.show, c = '.' ∨ c ∈ ['0', '1', '2', '3', '4', '5', '6', '7', '8', '9'] := by
    intro d c hc
    unfold Dec.show at hc
    split at hc
    · simp only at hc
      rw [List.mem_append, List.mem_cons] at hc
      have hB : ∀ c ∈ List.replicate (d.decimals + 1 - (showNat d.mantissa).length) '0' ++ showNat d.mantissa,
          c ∈ ['0', '1', '2', '3', '4', '5', '6', '7', '8', '9'] := by
        intro c hc
        rcases List.mem_append.1 hc with hc | hc
        · rw [List.eq_of_mem_replicate hc]; decide
        · exact showNat_digits _ c hc
      rcases hc with hc | hc | hc
      · exact Or.inr (hB c (List.mem_of_mem_take hc))
      · exact Or.inl hc
      · exact Or.inr (hB c (List.mem_of_mem_drop hc))
    · exact Or.inr (showNat_digits _ c hc)
  intro c hc
  rcases gen _ c hc with rfl | h
  · decide
  · exact ⟨(digit_ne h).2.2.2.2.2.1, (digit_ne h).2.2.2.2.2.2.2⟩

theorem reverse_head_last {s : List Char} {c : Char} : (s ++ [c]).reverse = c :: s.reverse := by simp

/-- **C26 (text round-trip).**  Both printed forms of a ratio, percentage and decimal, parse back to the ratio. -/
theorem C26_text_round_trip (v : Nat) (hv : v ≤ 1000) :
    perThousandParse (percentStr v) = some v ∧ perThousandParse (decimalStr v) = some v := by
  have hU : v < U128 := lt_of_le_of_lt hv (by decide)
  have hne : ∀ k, intoFixed v k ≠ [] := by
    intro k e
    have := C23_amount_round_trip v k hU
    obtain ⟨i, f, ⟨pre, mid, post, e2, -, -, hmid, -, -, hlen⟩, -, -, -⟩ := show_reads (d := fromAmountNoPadding v k)
    have e3 : (fromAmountNoPadding v k).show = [] := e
    rw [e3] at e2
    have hm : mid = [] := by
      have := congrArg List.length e2
      simp at this
      exact List.eq_nil_of_length_eq_zero (by omega)
    subst hm
    rcases hmid with h | ⟨h, rfl⟩
    · simp at h
    · simp at h; subst h; simp at hlen
  have hdw : ∀ k, ((intoFixed v k).dropWhile isWhite) = intoFixed v k := fun k =>
    dropWhile_none (fun c hc => (show_chars v k c (List.mem_of_mem_head? hc)).2)
  constructor
  · have he : endsPercent (percentStr v) = true := by
      unfold endsPercent percentStr
      have : (intoFixed v 1 ++ ['%']).dropWhile isWhite = intoFixed v 1 ++ ['%'] := by
        apply dropWhile_none
        intro c hc
        cases hs : intoFixed v 1 with
        | nil => exact absurd hs (hne 1)
        | cons x l =>
          rw [hs] at hc
          simp only [List.cons_append, List.head?_cons, Option.mem_def, Option.some.injEq] at hc
          subst hc
          exact (show_chars v 1 x (by rw [hs]; simp)).2
      rw [this, reverse_head_last]
      rw [List.dropWhile_cons]
      simp [isWhite]
    have hstrip : ((percentStr v).reverse.dropWhile (fun c => decide (c = '%'))).reverse = intoFixed v 1 := by
      unfold percentStr
      rw [reverse_head_last, List.dropWhile_cons]
      simp only [decide_true, if_true]
      rw [dropWhile_none, List.reverse_reverse]
      intro c hc
      have : c ∈ intoFixed v 1 := List.mem_reverse.1 (List.mem_of_mem_head? hc)
      simpa using (show_chars v 1 c this).1
    simp only [perThousandParse, he, if_true, hstrip]
    rw [C23_amount_round_trip v 1 hU (by omega) (by omega)]
    show (if v < 65536 then perThousand v else none) = some v
    rw [if_pos (by omega)]
    unfold perThousand
    rw [if_pos hv]
  · have he : endsPercent (decimalStr v) = false := by
      unfold endsPercent decimalStr
      rw [hdw]
      rw [dropWhile_none (fun c hc => (show_chars v 3 c (List.mem_reverse.1 (List.mem_of_mem_head? hc))).2)]
      simp only [decide_eq_false_iff_not]
      intro h
      have : '%' ∈ intoFixed v 3 := List.mem_reverse.1 (List.mem_of_mem_head? h)
      exact (show_chars v 3 _ this).1 rfl
    simp only [perThousandParse, he]
    unfold decimalStr
    simp only [Bool.false_eq_true, if_false]
    rw [C23_amount_round_trip v 3 hU (by omega) (by omega)]
    show (if v < 65536 then perThousand v else none) = some v
    rw [if_pos (by omega)]
    unfold perThousand
    rw [if_pos hv]

/-- **C26 (text is exact).**  An accepted text is either a decimal number equal to the ratio, or a decimal number followed by
percent signs whose hundredth is the ratio. -/
theorem C26_text_exact (s : List Char) (r : Nat) (h : perThousandParse s = some r) :
    (∃ i f, Reads s i f ∧ value i f = (r : ℚ) / 1000) ∨
    (∃ t n i f, s = t ++ List.replicate n '%' ∧ Reads t i f ∧ value i f / 100 = (r : ℚ) / 1000) := by
  simp only [perThousandParse, Option.bind_eq_some_iff] at h
  obtain ⟨a, h1, h2⟩ := h
  have hra : r = a := by
    split at h2
    · exact (C26_range.1 _ _ h2).1
    · cases h2
  subst hra
  by_cases he : endsPercent s = true
  · right
    rw [if_pos he] at h1
    obtain ⟨i, f, hr, hv, -⟩ := C23_amount_exact _ _ _ h1
    refine ⟨_, (s.reverse.takeWhile (fun c => decide (c = '%'))).length, i, f, ?_, hr, ?_⟩
    · have hrep : List.replicate (s.reverse.takeWhile (fun c => decide (c = '%'))).length '%' =
          (s.reverse.takeWhile (fun c => decide (c = '%'))).reverse := by
        symm
        rw [List.eq_replicate_iff]
        refine ⟨by simp, fun c hc => ?_⟩
        simpa using List.mem_takeWhile_imp (List.mem_reverse.1 hc)
      rw [hrep, ← List.reverse_append, List.takeWhile_append_dropWhile, List.reverse_reverse]
    · rw [hv]; norm_num; ring
  · left
    rw [if_neg he] at h1
    obtain ⟨i, f, hr, hv, -⟩ := C23_amount_exact _ _ _ h1
    exact ⟨i, f, hr, by rw [hv]; norm_num⟩

/-- non-vacuity -/
example : percentStr 125 = "12.5%".toList ∧ decimalStr 125 = "0.125".toList ∧ perThousandParse "12.5%".toList = some 125 ∧
    perThousandParse "100.1%".toList = none ∧ perThousandParse "0.0005".toList = none ∧ perThousandParse "1".toList = some 1000 := by
  decide +kernel

end Verif.Decimal
