import Verif.Decimal.Spec
import Mathlib.Tactic.FieldSimp
import Mathlib.Tactic.NormNum
import Mathlib.Tactic.Linarith
import Mathlib.Tactic.Ring
import Mathlib.Tactic.FinCases
import Mathlib.Data.List.TakeWhile

/-!
# Lemmas about decimal strings
-/

namespace Verif.Decimal
open Verif

theorem sub_some {a b r : Nat} : Amt.sub a b = some r ↔ b ≤ a ∧ r = a - b := by
  unfold Amt.sub
  split <;> simp_all [eq_comm]

theorem mul_some {a b r : Nat} : Amt.mul a b = some r ↔ a * b < U128 ∧ r = a * b := by
  unfold Amt.mul
  split <;> simp_all [eq_comm]

theorem add_some {a b r : Nat} : Amt.add a b = some r ↔ a + b < U128 ∧ r = a + b := by
  unfold Amt.add
  split <;> simp_all [eq_comm]

theorem powTen_some {e r : Nat} : powTen e = some r ↔ 10 ^ e < U128 ∧ r = 10 ^ e := by
  unfold powTen
  split <;> simp_all [eq_comm]

/-! ### digits -/

theorem isDigit_iff {c : Char} : isDigit c = true ↔ c ∈ ['0', '1', '2', '3', '4', '5', '6', '7', '8', '9'] := by
  constructor
  · intro h
    simp only [isDigit, decide_eq_true_eq] at h
    have h1 : 48 ≤ c.toNat := h.1
    have h2 : c.toNat ≤ 57 := h.2
    have h3 : c = Char.ofNat c.toNat := (Char.ofNat_toNat c).symm
    have : c.toNat = 48 ∨ c.toNat = 49 ∨ c.toNat = 50 ∨ c.toNat = 51 ∨ c.toNat = 52 ∨ c.toNat = 53 ∨ c.toNat = 54 ∨
      c.toNat = 55 ∨ c.toNat = 56 ∨ c.toNat = 57 := by omega
    rcases this with e | e | e | e | e | e | e | e | e | e <;> rw [h3, e] <;> decide
  · intro h
    fin_cases h <;> decide

theorem allDigits_iff {l : List Char} : l.all isDigit = true ↔ AllDigits l := by
  simp only [List.all_eq_true, AllDigits, isDigit_iff]

theorem digit_ne {c : Char} (h : c ∈ ['0', '1', '2', '3', '4', '5', '6', '7', '8', '9']) :
    c ≠ ' ' ∧ c ≠ '_' ∧ c ≠ '.' ∧ c.utf8Size = 1 ∧ digitVal c < 10 ∧ c ≠ '%' ∧ c ≠ '-' ∧ isWhite c = false := by
  fin_cases h <;> decide

theorem num_nil : num [] = 0 := rfl

theorem num_append (a b : List Char) : num (a ++ b) = num a * 10 ^ b.length + num b := by
  unfold num
  rw [List.reverse_append, List.map_append, Nat.ofDigits_append, List.length_map, List.length_reverse]
  ring

theorem num_singleton (c : Char) : num [c] = digitVal c := by
  simp [num, digitVal]

theorem num_cons (c : Char) (l : List Char) : num (c :: l) = digitVal c * 10 ^ l.length + num l := by
  rw [show c :: l = [c] ++ l from rfl, num_append, num_singleton]

theorem num_lt {l : List Char} (h : AllDigits l) : num l < 10 ^ l.length := by
  induction l with
  | nil => simp [num_nil]
  | cons c l ih =>
    rw [num_cons, List.length_cons, pow_succ]
    have h1 := ih (fun x hx => h x (by simp [hx]))
    have h2 := (digit_ne (h c (by simp))).2.2.2.2.1
    have h3 : digitVal c * 10 ^ l.length ≤ 9 * 10 ^ l.length := Nat.mul_le_mul_right _ (by omega)
    omega

theorem num_zeros (k : Nat) : num (List.replicate k '0') = 0 := by
  induction k with
  | zero => rfl
  | succ k ih => rw [List.replicate_succ, num_cons, ih]; simp [digitVal]

theorem foldlM_num {l : List Char} {a n : Nat} (ha : a < U128) :
    l.foldlM u128Step a = some n ↔ a * 10 ^ l.length + num l < U128 ∧ n = a * 10 ^ l.length + num l := by
  induction l generalizing a with
  | nil => simp [num_nil, ha, eq_comm]
  | cons c l ih =>
    rw [List.foldlM_cons, num_cons, List.length_cons]
    have e : a * 10 ^ (l.length + 1) + (digitVal c * 10 ^ l.length + num l) = (a * 10 + digitVal c) * 10 ^ l.length + num l := by
      ring
    rw [e]
    have hpos : 0 < 10 ^ l.length := Nat.pow_pos (by decide)
    have hge : a * 10 + digitVal c ≤ (a * 10 + digitVal c) * 10 ^ l.length := Nat.le_mul_of_pos_right _ hpos
    show (u128Step a c).bind _ = _ ↔ _
    by_cases hs : a * 10 + digitVal c < U128
    · have : u128Step a c = some (a * 10 + digitVal c) := by
        unfold u128Step
        rw [mul_some.2 ⟨by omega, rfl⟩]
        exact add_some.2 ⟨hs, rfl⟩
      rw [this]
      exact ih hs
    · have : u128Step a c = none := by
        unfold u128Step Amt.mul
        split
        · show Amt.add _ _ = none
          unfold Amt.add
          rw [if_neg hs]
        · rfl
      rw [this]
      constructor
      · intro h; cases h
      · rintro ⟨h, -⟩
        omega

theorem parseU128_some {l : List Char} {n : Nat} :
    parseU128 (emptyToZero l) = some n ↔ num l < U128 ∧ n = num l := by
  unfold emptyToZero parseU128
  by_cases h : l = []
  · subst h
    rw [if_pos rfl, if_neg (by simp), foldlM_num (by decide)]
    simp [num_nil, num_singleton, digitVal]
  · rw [if_neg h, if_neg h, foldlM_num (by decide)]
    simp

/-! ### printing numbers -/

theorem digitChar_mem {n : Nat} (h : n < 10) :
    digitChar n ∈ ['0', '1', '2', '3', '4', '5', '6', '7', '8', '9'] ∧ digitVal (digitChar n) = n := by
  have : n = 0 ∨ n = 1 ∨ n = 2 ∨ n = 3 ∨ n = 4 ∨ n = 5 ∨ n = 6 ∨ n = 7 ∨ n = 8 ∨ n = 9 := by omega
  rcases this with e | e | e | e | e | e | e | e | e | e <;> subst e <;> decide

theorem showAux_spec (f n : Nat) (h : n < f) :
    AllDigits (showAux f n) ∧ num (showAux f n) = n ∧ 0 < (showAux f n).length ∧
    (1 < (showAux f n).length → 10 ^ ((showAux f n).length - 1) ≤ n) := by
  induction f generalizing n with
  | zero => omega
  | succ f ih =>
    unfold showAux
    split
    · rename_i hn
      obtain ⟨h1, h2⟩ := digitChar_mem hn
      refine ⟨?_, by rw [num_singleton, h2], by simp, by simp⟩
      intro c hc
      rw [List.mem_singleton] at hc
      subst hc; exact h1
    · rename_i hn
      obtain ⟨i1, i2, i3, i4⟩ := ih (n / 10) (by omega)
      obtain ⟨h1, h2⟩ := digitChar_mem (n := n % 10) (by omega)
      refine ⟨?_, ?_, by simp, ?_⟩
      · intro c hc
        rw [List.mem_append, List.mem_singleton] at hc
        rcases hc with hc | rfl
        · exact i1 c hc
        · exact h1
      · rw [num_append, i2, num_singleton, h2]
        simp; omega
      · intro _
        rw [List.length_append, List.length_singleton, Nat.add_sub_cancel]
        by_cases hl : 1 < (showAux f (n / 10)).length
        · have := i4 hl
          obtain ⟨k, hk⟩ : ∃ k, (showAux f (n / 10)).length = k + 1 := ⟨_, (Nat.succ_pred_eq_of_pos i3).symm⟩
          rw [hk] at this ⊢
          rw [Nat.add_sub_cancel] at this
          rw [pow_succ]
          omega
        · have : (showAux f (n / 10)).length = 1 := by omega
          rw [this]; omega

theorem showNat_digits (n : Nat) : AllDigits (showNat n) := (showAux_spec (n + 1) n (by omega)).1
theorem num_showNat (n : Nat) : num (showNat n) = n := (showAux_spec (n + 1) n (by omega)).2.1
theorem showNat_pos (n : Nat) : 0 < (showNat n).length := (showAux_spec (n + 1) n (by omega)).2.2.1

theorem showNat_length {n : Nat} (h : n < U128) : (showNat n).length ≤ 39 := by
  by_contra hc
  have := (showAux_spec (n + 1) n (by omega)).2.2.2
  have h1 : 1 < (showNat n).length := by omega
  have h2 := this h1
  have h3 : 10 ^ 39 ≤ 10 ^ ((showNat n).length - 1) := Nat.pow_le_pow_right (by decide) (by omega)
  have h4 : U128 < 10 ^ 39 := by decide
  have h5 : 10 ^ ((showNat n).length - 1) ≤ n := h2
  omega

/-! ### trimming and splitting -/

theorem dropWhile_none {p : Char → Bool} {l : List Char} (h : ∀ c ∈ l.head?, p c = false) : l.dropWhile p = l := by
  cases l with
  | nil => rfl
  | cons c l => rw [List.dropWhile_cons, h c (by simp)]; simp

theorem dropWhile_append_all {p : Char → Bool} {a b : List Char} (h : ∀ c ∈ a, p c = true) :
    (a ++ b).dropWhile p = b.dropWhile p := by
  induction a with
  | nil => rfl
  | cons c a ih =>
    rw [List.cons_append, List.dropWhile_cons, h c (by simp)]
    simp only [if_true]
    exact ih (fun x hx => h x (by simp [hx]))

theorem trim_eq {pre mid post : List Char} (h1 : ∀ c ∈ pre, c = ' ') (h2 : ∀ c ∈ post, c = ' ')
    (h3 : ∀ c ∈ mid, c ≠ ' ') (h4 : mid ≠ []) : trimSpaces (pre ++ mid ++ post) = mid := by
  unfold trimSpaces
  rw [List.append_assoc, dropWhile_append_all (fun c hc => by simp [h1 c hc])]
  have e : (mid ++ post).dropWhile (fun c => decide (c = ' ')) = mid ++ post := by
    apply dropWhile_none
    intro c hc
    cases mid with
    | nil => exact absurd rfl h4
    | cons x m =>
      simp only [List.cons_append, List.head?_cons, Option.mem_def, Option.some.injEq] at hc
      subst hc
      simpa using h3 x (by simp)
  rw [e, List.reverse_append, dropWhile_append_all (fun c hc => by
    simp [h2 c (List.mem_reverse.1 hc)])]
  rw [dropWhile_none, List.reverse_reverse]
  intro c hc
  have : c ∈ mid.reverse := List.mem_of_mem_head? hc
  simpa using h3 c (List.mem_reverse.1 this)

theorem trim_split (s : List Char) : ∃ pre post, s = pre ++ trimSpaces s ++ post ∧ (∀ c ∈ pre, c = ' ') ∧
    (∀ c ∈ post, c = ' ') := by
  refine ⟨s.takeWhile (· = ' '), ((s.dropWhile (· = ' ')).reverse.takeWhile (· = ' ')).reverse, ?_, ?_, ?_⟩
  · unfold trimSpaces
    rw [List.append_assoc, ← List.reverse_append, List.takeWhile_append_dropWhile, List.reverse_reverse,
      List.takeWhile_append_dropWhile]
  · intro c hc
    simpa using List.mem_takeWhile_imp hc
  · intro c hc
    simpa using List.mem_takeWhile_imp (List.mem_reverse.1 hc)

theorem splitDot_none {i : List Char} (h : ∀ c ∈ i, c ≠ '.') : splitDot i = (i, []) := by
  unfold splitDot
  have : i.dropWhile (fun c => decide (c ≠ '.')) = [] := by
    rw [List.dropWhile_eq_nil_iff]
    intro c hc; simpa using h c hc
  rw [this]

theorem splitDot_dot {i f : List Char} (h : ∀ c ∈ i, c ≠ '.') : splitDot (i ++ '.' :: f) = (i, f) := by
  have e1 : (i ++ '.' :: f).dropWhile (fun c => decide (c ≠ '.')) = '.' :: f := by
    rw [dropWhile_append_all (fun c hc => by simpa using h c hc)]
    rfl
  have e2 : (i ++ '.' :: f).takeWhile (fun c => decide (c ≠ '.')) = i := by
    rw [List.takeWhile_append_of_pos (fun c hc => by simpa using h c hc)]
    simp
  unfold splitDot
  rw [e1]
  simp only
  rw [e2]

theorem splitDot_cases (s : List Char) :
    s = (splitDot s).1 ++ '.' :: (splitDot s).2 ∨ (s = (splitDot s).1 ∧ (splitDot s).2 = []) := by
  unfold splitDot
  cases h : s.dropWhile (fun c => decide (c ≠ '.')) with
  | nil => right; exact ⟨rfl, rfl⟩
  | cons x f =>
    left
    have hx : x = '.' := by
      have := List.head?_dropWhile_not (p := fun c : Char => decide (c ≠ '.')) s
      rw [h] at this
      simpa using this
    subst hx
    simp only
    conv_lhs => rw [← List.takeWhile_append_dropWhile (p := fun c => decide (c ≠ '.')) (l := s), h]

theorem byteLen_append (a b : List Char) : byteLen (a ++ b) = byteLen a + byteLen b := by
  simp [byteLen]

theorem byteLen_cons (c : Char) (b : List Char) : byteLen (c :: b) = c.utf8Size + byteLen b := by
  simp [byteLen]

theorem byteLen_ge (a : List Char) : a.length ≤ byteLen a := by
  induction a with
  | nil => exact Nat.le_refl _
  | cons c a ih =>
    rw [byteLen_cons, List.length_cons]
    have := Char.utf8Size_pos c
    omega

theorem byteLen_digits {a : List Char} (h : AllDigits a) : byteLen a = a.length := by
  induction a with
  | nil => rfl
  | cons c a ih =>
    rw [byteLen_cons, List.length_cons, ih (fun x hx => h x (by simp [hx])), (digit_ne (h c (by simp))).2.2.2.1]
    omega

/-! ### the parser -/

/-- the parser, given how its input reads -/
theorem parse_reads {s i f : List Char} (h : Reads s i f) : parse s = (do
    ensure (byteLen s ≤ 257) PErr.stringTooLong
    ensure (num i < U128) PErr.intParse
    ensure (num f < U128) PErr.intParse
    ensure (f.length < 256) PErr.panicked
    ensure (num i * 10 ^ f.length + num f < U128) PErr.outOfRange
    pure ⟨num i * 10 ^ f.length + num f, f.length⟩) := by
  obtain ⟨pre, mid, post, rfl, hpre, hpost, hmid, hi, hf, hlen⟩ := h
  have hne : mid.filter (· ≠ '_') ≠ [] := by
    rcases hmid with h | ⟨h, rfl⟩
    · rw [h]; simp
    · rw [h]; intro e; subst e; simp at hlen
  have hmn : mid ≠ [] := by rintro rfl; exact hne rfl
  have hsp : ∀ c ∈ mid, c ≠ ' ' := by
    intro c hc e
    subst e
    have : ' ' ∈ mid.filter (· ≠ '_') := List.mem_filter.2 ⟨hc, by decide⟩
    rcases hmid with h | ⟨h, rfl⟩
    · rw [h, List.mem_append, List.mem_cons] at this
      rcases this with h | h | h
      · exact (digit_ne (hi _ h)).1 rfl
      · exact absurd h (by decide)
      · exact (digit_ne (hf _ h)).1 rfl
    · rw [h] at this
      exact (digit_ne (hi _ this)).1 rfl
  have hsplit : splitDot (mid.filter (· ≠ '_')) = (i, f) := by
    rcases hmid with h | ⟨h, rfl⟩
    · rw [h]; exact splitDot_dot (fun c hc => (digit_ne (hi _ hc)).2.2.1)
    · rw [h]; exact splitDot_none (fun c hc => (digit_ne (hi _ hc)).2.2.1)
  unfold parse
  rw [trim_eq hpre hpost hsp hmn]
  simp only [hsplit]
  have hall : (i ++ f).all isDigit = true := by
    rw [allDigits_iff]
    intro c hc
    rcases List.mem_append.1 hc with h | h
    · exact hi c h
    · exact hf c h
  simp only [hall]
  rw [show ensure (mid.filter (· ≠ '_') ≠ []) PErr.emptyString = .ok () from ensure_eq_ok.2 hne,
    show ensure (i.length + f.length > 0) PErr.noDigits = .ok () from ensure_eq_ok.2 hlen]
  have conv : ∀ l : List Char, okOr (parseU128 (emptyToZero l)) PErr.intParse =
      (ensure (num l < U128) PErr.intParse >>= fun _ => .ok (num l)) := by
    intro l
    by_cases hl : num l < U128
    · rw [parseU128_some.2 ⟨hl, rfl⟩, show ensure (num l < U128) PErr.intParse = .ok () from ensure_eq_ok.2 hl]
      rfl
    · have : parseU128 (emptyToZero l) = none := by
        cases h : parseU128 (emptyToZero l) with
        | none => rfl
        | some n => exact absurd (parseU128_some.1 h).1 hl
      rw [this]
      unfold ensure
      rw [if_neg hl]; rfl
  rw [conv, conv]
  have hm : (okOr (if num i = 0 then some 0 else (powTen f.length).bind (fun t => Amt.mul (num i) t)) PErr.outOfRange >>=
      fun sh => okOr (Amt.add sh (num f)) PErr.outOfRange >>= fun m => (pure ⟨m, f.length⟩ : Except PErr Dec)) =
      (ensure (num i * 10 ^ f.length + num f < U128) PErr.outOfRange >>=
        fun _ => pure ⟨num i * 10 ^ f.length + num f, f.length⟩) := by
    by_cases h0 : num i = 0
    · rw [if_pos h0, h0]
      simp only [Nat.zero_mul, Nat.zero_add]
      show okOr (Amt.add 0 (num f)) _ >>= _ = _
      unfold Amt.add ensure
      simp only [Nat.zero_add]
      split <;> rfl
    · rw [if_neg h0]
      have hge : 10 ^ f.length ≤ num i * 10 ^ f.length := Nat.le_mul_of_pos_left _ (Nat.pos_of_ne_zero h0)
      unfold powTen Amt.mul ensure
      split
      · simp only [Option.bind_some]
        split
        · show okOr (Amt.add _ (num f)) _ >>= _ = _
          unfold Amt.add
          split <;> rfl
        · rw [if_neg (by omega)]; rfl
      · rw [if_neg (by omega)]; rfl
  by_cases hb : byteLen (pre ++ mid ++ post) ≤ 257
  · by_cases h1 : num i < U128
    · by_cases h2 : num f < U128
      · by_cases h3 : f.length < 256
        · simp only [ensure, hb, h1, h2, h3, if_true]
          exact hm
        · simp only [ensure, hb, h1, h2, h3, if_true, if_false]; rfl
      · simp only [ensure, hb, h1, h2, if_true, if_false]; rfl
    · simp only [ensure, hb, h1, if_true, if_false]; rfl
  · simp only [ensure, hb, if_false]; rfl

/-- whatever gets past the syntax checks reads as a number -/
theorem parse_reads_of {s : List Char} {x : Except PErr Dec} (h : parse s = x)
    (h1 : x ≠ .error .stringTooLong) (h2 : x ≠ .error .emptyString) (h3 : x ≠ .error .illegalChar)
    (h4 : x ≠ .error .noDigits) : ∃ i f, Reads s i f := by
  by_cases g1 : byteLen s ≤ 255 + 2
  · by_cases g2 : (trimSpaces s).filter (· ≠ '_') = []
    · exfalso
      apply h2
      rw [← h]
      simp only [parse, ensure, g1, g2, if_true, ne_eq, not_true, if_false]; rfl
    · by_cases g3 : ((splitDot ((trimSpaces s).filter (· ≠ '_'))).1 ++
          (splitDot ((trimSpaces s).filter (· ≠ '_'))).2).all isDigit = true
      · by_cases g4 : (splitDot ((trimSpaces s).filter (· ≠ '_'))).1.length +
          (splitDot ((trimSpaces s).filter (· ≠ '_'))).2.length > 0
        · obtain ⟨pre, post, e, hpre, hpost⟩ := trim_split s
          rw [allDigits_iff] at g3
          exact ⟨_, _, pre, _, post, e, hpre, hpost, splitDot_cases _,
            fun c hc => g3 c (List.mem_append_left _ hc), fun c hc => g3 c (List.mem_append_right _ hc), g4⟩
        · exfalso
          apply h4
          rw [← h]
          simp only [parse, ensure, g1, g2, g3, g4, if_true, ne_eq, not_false_iff, if_false]; rfl
      · exfalso
        apply h3
        rw [← h]
        simp only [parse, ensure, g1, g2, g3, if_true, ne_eq, not_false_iff, if_false]; rfl
  · exfalso
    apply h1
    rw [← h]
    simp only [parse, ensure, g1, if_false]; rfl

/-! ### printing decimal amounts -/

theorem show_reads {d : Dec} : ∃ i f, Reads d.show i f ∧ f.length = d.decimals ∧
    num i * 10 ^ f.length + num f = d.mantissa ∧
    byteLen d.show ≤ max (showNat d.mantissa).length (d.decimals + 1) + 1 := by
  unfold Dec.show
  by_cases h : d.decimals > 0
  · rw [if_pos h]
    simp only
    set B := List.replicate (d.decimals + 1 - (showNat d.mantissa).length) '0' ++ showNat d.mantissa with hB
    have hBd : AllDigits B := by
      intro c hc
      rw [hB, List.mem_append] at hc
      rcases hc with hc | hc
      · rw [List.eq_of_mem_replicate hc]; decide
      · exact showNat_digits _ c hc
    have hBn : num B = d.mantissa := by
      rw [hB, num_append, num_zeros, num_showNat]; omega
    have hBl : B.length = max (showNat d.mantissa).length (d.decimals + 1) := by
      rw [hB, List.length_append, List.length_replicate]
      omega
    have htk : AllDigits (B.take (B.length - d.decimals)) := fun c hc => hBd c (List.mem_of_mem_take hc)
    have hdr : AllDigits (B.drop (B.length - d.decimals)) := fun c hc => hBd c (List.mem_of_mem_drop hc)
    have hfl : (B.drop (B.length - d.decimals)).length = d.decimals := by
      rw [List.length_drop]; omega
    refine ⟨B.take (B.length - d.decimals), B.drop (B.length - d.decimals), ⟨[], _, [], by simp; rfl, by simp, by simp,
      Or.inl ?_, htk, hdr, by omega⟩, hfl, ?_, ?_⟩
    · rw [List.filter_eq_self]
      intro c hc
      rw [List.mem_append, List.mem_cons] at hc
      rcases hc with hc | rfl | hc
      · simpa using (digit_ne (htk c hc)).2.1
      · decide
      · simpa using (digit_ne (hdr c hc)).2.1
    · rw [← num_append, List.take_append_drop, hBn]
    · rw [byteLen_append, byteLen_cons, byteLen_digits htk, byteLen_digits hdr, List.length_take, List.length_drop]
      have : '.'.utf8Size = 1 := by decide
      rw [this]
      omega
  · rw [if_neg h]
    have h0 : d.decimals = 0 := by omega
    refine ⟨showNat d.mantissa, [], ⟨[], showNat d.mantissa, [], by simp, by simp, by simp, Or.inr ⟨?_, rfl⟩,
      showNat_digits _, (by intro c hc; cases hc), by have := showNat_pos d.mantissa; simpa using this⟩, by simp [h0], ?_, ?_⟩
    · rw [List.filter_eq_self]
      intro c hc
      simpa using (digit_ne (showNat_digits _ c hc)).2.1
    · simp [num_showNat, num_nil]
    · rw [byteLen_digits (showNat_digits _)]
      omega

/-! ### padding -/

theorem strip_spec (m k : Nat) : ∃ m' k', strip m k = ⟨m', k'⟩ ∧ k' ≤ k ∧ m = m' * 10 ^ (k - k') ∧
    (k' = 0 ∨ m' % 10 ≠ 0) := by
  induction k generalizing m with
  | zero => exact ⟨m, 0, rfl, le_refl _, by simp, Or.inl rfl⟩
  | succ k ih =>
    unfold strip
    split
    · rename_i h
      obtain ⟨m', k', e1, e2, e3, e4⟩ := ih (m / 10)
      refine ⟨m', k', e1, by omega, ?_, e4⟩
      have : k + 1 - k' = (k - k') + 1 := by omega
      rw [this, pow_succ, ← mul_assoc, ← e3]
      omega
    · rename_i h
      exact ⟨m, k + 1, rfl, le_refl _, by simp, Or.inr h⟩

theorem withDecimals_some {d r : Dec} {k : Nat} : d.withDecimals k = some r ↔
    d.decimals ≤ k ∧ 10 ^ (k - d.decimals) < U128 ∧ d.mantissa * 10 ^ (k - d.decimals) < U128 ∧
    r = ⟨d.mantissa * 10 ^ (k - d.decimals), k⟩ := by
  simp only [Dec.withDecimals, Option.bind_eq_bind, Option.bind_eq_some_iff, sub_some, powTen_some, mul_some,
    Option.some.injEq]
  constructor
  · rintro ⟨_, ⟨h1, rfl⟩, _, ⟨h2, rfl⟩, _, ⟨h3, rfl⟩, rfl⟩
    exact ⟨h1, h2, h3, rfl⟩
  · rintro ⟨h1, h2, h3, rfl⟩
    exact ⟨_, ⟨h1, rfl⟩, _, ⟨h2, rfl⟩, _, ⟨h3, rfl⟩, rfl⟩

/-- conversion to an amount is exact, and succeeds whenever the exact result exists -/
theorem toAmount_some {d : Dec} {k a : Nat} : d.toAmount k = some a ↔
    a * 10 ^ d.decimals = d.mantissa * 10 ^ k ∧ a < U128 ∧ (a = 0 → k ≤ 38) := by
  obtain ⟨m', k', e1, e2, e3, e4⟩ := strip_spec d.mantissa d.decimals
  simp only [Dec.toAmount, Dec.withoutPadding, e1, Option.map_eq_some_iff, withDecimals_some]
  have hp : ∀ n : Nat, 0 < 10 ^ n := fun n => Nat.pow_pos (by decide)
  have hsplit : (10 : Nat) ^ d.decimals = 10 ^ (d.decimals - k') * 10 ^ k' := by
    rw [← pow_add]; congr 1; omega
  have hred : a * 10 ^ d.decimals = d.mantissa * 10 ^ k ↔ a * 10 ^ k' = m' * 10 ^ k := by
    rw [hsplit, e3, show a * (10 ^ (d.decimals - k') * 10 ^ k') = 10 ^ (d.decimals - k') * (a * 10 ^ k') by ring,
      show m' * 10 ^ (d.decimals - k') * 10 ^ k = 10 ^ (d.decimals - k') * (m' * 10 ^ k) by ring]
    exact Nat.mul_right_inj (Nat.pos_iff_ne_zero.1 (hp _))
  rw [hred]
  constructor
  · rintro ⟨_, ⟨h1, h2, h3, rfl⟩, rfl⟩
    refine ⟨?_, h3, fun h0 => ?_⟩
    · simp only
      rw [mul_assoc, ← pow_add]; congr 2; omega
    · simp only at h0
      have hm0 : m' = 0 := by
        rcases Nat.mul_eq_zero.1 h0 with h | h
        · exact h
        · exact absurd h (Nat.pos_iff_ne_zero.1 (hp _))
      have hk0 : k' = 0 := by
        rcases e4 with h | h
        · exact h
        · rw [hm0] at h; exact absurd rfl h
      subst hk0
      by_contra hc
      have : 10 ^ 39 ≤ 10 ^ k := Nat.pow_le_pow_right (by decide) (by omega)
      have h5 : U128 < 10 ^ 39 := by decide
      simp only [Nat.sub_zero] at h2
      omega
  · rintro ⟨h1, h2, h3⟩
    have hk : k' ≤ k := by
      by_contra hc
      rcases e4 with h | h
      · omega
      · apply h
        obtain ⟨j, hj⟩ : ∃ j, k' = k + (j + 1) := ⟨k' - k - 1, by omega⟩
        rw [hj, pow_add, show a * (10 ^ k * 10 ^ (j + 1)) = (a * 10 ^ (j + 1)) * 10 ^ k by ring] at h1
        have := Nat.eq_of_mul_eq_mul_right (hp k) h1
        rw [← this, pow_succ, ← mul_assoc]
        omega
    have ha : a = m' * 10 ^ (k - k') := by
      have : (10 : Nat) ^ k = 10 ^ (k - k') * 10 ^ k' := by rw [← pow_add]; congr 1; omega
      rw [this, ← mul_assoc] at h1
      exact Nat.eq_of_mul_eq_mul_right (hp k') h1
    refine ⟨_, ⟨hk, ?_, by rw [← ha]; exact h2, rfl⟩, ha.symm⟩
    by_cases h0 : m' = 0
    · have : k ≤ 38 := h3 (by rw [ha, h0]; simp)
      have h6 : 10 ^ (k - k') ≤ 10 ^ 38 := Nat.pow_le_pow_right (by decide) (by omega)
      have h7 : 10 ^ 38 < U128 := by decide
      exact lt_of_le_of_lt h6 h7
    · have : 10 ^ (k - k') ≤ m' * 10 ^ (k - k') := Nat.le_mul_of_pos_left _ (Nat.pos_of_ne_zero h0)
      show 10 ^ (k - k') < U128
      omega

end Verif.Decimal
