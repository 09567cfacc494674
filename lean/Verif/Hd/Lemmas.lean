import Verif.Hd.Spec
import Verif.Decimal.Lemmas
import Verif.Codec.Laws
import Mathlib.Data.List.Forall2

/-!
# Lemmas about derivation paths and derived keys
-/

namespace Verif.Hd
open Verif Verif.Decimal
open Verif.Codec (Bytes Codec leBytes leNat takeN encMany decMany Lawful leBytes_length leNat_leBytes)

/-! ### numerals -/

theorem foldlM_u32 {l : List Char} {a n : Nat} (ha : a < 2 ^ 32) :
    l.foldlM u32Step a = some n ↔ a * 10 ^ l.length + num l = n ∧ n < 2 ^ 32 := by
  induction l generalizing a with
  | nil => simp [num_nil]; omega
  | cons c l ih =>
    rw [List.foldlM_cons, num_cons, List.length_cons]
    have e : a * 10 ^ (l.length + 1) + (digitVal c * 10 ^ l.length + num l) =
        (a * 10 + digitVal c) * 10 ^ l.length + num l := by ring
    rw [e]
    have hp : 0 < 10 ^ l.length := by positivity
    unfold u32Step
    by_cases h : a * 10 + digitVal c < 2 ^ 32
    · rw [if_pos (by omega), if_pos h]
      exact ih h
    · have hr : ¬ ((a * 10 + digitVal c) * 10 ^ l.length + num l = n ∧ n < 2 ^ 32) := by
        rintro ⟨h1, h2⟩
        have : a * 10 + digitVal c ≤ (a * 10 + digitVal c) * 10 ^ l.length := Nat.le_mul_of_pos_right _ hp
        omega
      have hn : (if a * 10 < 2 ^ 32 then if a * 10 + digitVal c < 2 ^ 32 then some (a * 10 + digitVal c) else none
          else none) = (none : Option Nat) := by
        rw [if_neg h]; split <;> rfl
      rw [hn]
      simp only [hr, iff_false]
      exact fun h => by cases h

theorem parseU31_ok {l : List Char} {i : Nat} :
    parseU31 l = .ok i ↔ l ≠ [] ∧ num l = i ∧ i < 2147483648 := by
  unfold parseU31
  by_cases hl : l = []
  · simp [hl]
  · rw [if_neg hl]
    have key := fun n => foldlM_u32 (l := l) (a := 0) (n := n) (by norm_num)
    simp only [Nat.zero_mul, Nat.zero_add] at key
    cases h : l.foldlM u32Step 0 with
    | none =>
      simp only [reduceCtorEq, false_iff]
      rintro ⟨-, h1, h2⟩
      have := (key i).2 ⟨h1, by omega⟩
      rw [h] at this; cases this
    | some v =>
      obtain ⟨h1, h2⟩ := (key v).1 h
      simp only [toU31]
      have hm : msb = 2147483648 := rfl
      by_cases hv : v < msb
      · rw [if_pos hv]
        simp only [Except.ok.injEq]
        constructor
        · rintro rfl; exact ⟨hl, h1, by omega⟩
        · rintro ⟨-, h3, -⟩; omega
      · rw [if_neg hv]
        simp only [reduceCtorEq, false_iff]
        rintro ⟨-, h3, h4⟩
        omega

theorem digit_not_mark {c : Char} (h : c ∈ ['0', '1', '2', '3', '4', '5', '6', '7', '8', '9']) :
    c ≠ '\'' ∧ c ≠ 'h' ∧ c ≠ '/' := by
  simp only [List.mem_cons, List.not_mem_nil, or_false] at h
  rcases h with rfl | rfl | rfl | rfl | rfl | rfl | rfl | rfl | rfl | rfl <;> decide

theorem stripMark_digits {l : List Char} (h : AllDigits l) : stripMark l = (l, false) := by
  unfold stripMark
  split
  · rename_i he
    exact absurd rfl (digit_not_mark (h _ (List.mem_of_getLast? he))).1
  · rename_i he
    exact absurd rfl (digit_not_mark (h _ (List.mem_of_getLast? he))).2.1
  · rfl

theorem stripMark_mark (l : List Char) {m : Char} (h : m = '\'' ∨ m = 'h') : stripMark (l ++ [m]) = (l, true) := by
  unfold stripMark
  rcases h with rfl | rfl <;> simp

theorem stripMark_cases (s : List Char) :
    stripMark s = (s, false) ∨ ∃ l m, (m = '\'' ∨ m = 'h') ∧ s = l ++ [m] ∧ stripMark s = (l, true) := by
  rcases List.eq_nil_or_concat s with rfl | ⟨l, m, rfl⟩
  · exact .inl rfl
  · by_cases h : m = '\'' ∨ m = 'h'
    · right
      refine ⟨l, m, h, by simp, ?_⟩
      rw [List.concat_eq_append, stripMark_mark l h]
    · left
      unfold stripMark
      rw [List.concat_eq_append, List.getLast?_append]
      push Not at h
      simp only [List.getLast?_singleton, Option.some_or]
      split
      · rename_i he; simp at he; exact absurd he h.1
      · rename_i he; simp at he; exact absurd he h.2
      · rfl

theorem index_ok {l : List Char} {i : Nat} :
    (l.any (fun c => !isDigit c) = false ∧ ¬(l.length > 1 ∧ l.head? = some '0') ∧ parseU31 l = .ok i) ↔
      Numeral l i ∧ i < 2147483648 := by
  have e : l.any (fun c => !isDigit c) = false ↔ AllDigits l := by
    rw [← allDigits_iff]
    simp [List.any_eq_false, List.all_eq_true]
  rw [e, parseU31_ok]
  unfold Numeral
  constructor
  · rintro ⟨h1, h2, h3, h4, h5⟩
    exact ⟨⟨h3, h1, fun h h' => h2 ⟨h, h'⟩, h4⟩, h5⟩
  · rintro ⟨⟨h3, h1, h2, h4⟩, h5⟩
    exact ⟨h1, fun ⟨a, b⟩ => h2 a b, h3, h4, h5⟩

theorem parseChild_ok {s : List Char} {c : Nat} : parseChild s = .ok c ↔ ChildText s c := by
  have unf : parseChild s = .ok c ↔ ∃ i, ((stripMark s).1.any (fun c => !isDigit c) = false ∧
      ¬((stripMark s).1.length > 1 ∧ (stripMark s).1.head? = some '0') ∧ parseU31 (stripMark s).1 = .ok i) ∧
      (if (stripMark s).2 then hardened i else normal i) = c := by
    simp only [parseChild, bind_eq_ok, ensure_eq_ok, pure_eq_ok]
    constructor
    · rintro ⟨_, h1, _, h2, i, h3, h4⟩; exact ⟨i, ⟨h1, h2, h3⟩, h4⟩
    · rintro ⟨i, ⟨h1, h2, h3⟩, h4⟩; exact ⟨(), h1, (), h2, i, h3, h4⟩
  rw [unf]
  simp only [index_ok]
  constructor
  · rintro ⟨i, ⟨h1, h2⟩, h3⟩
    rcases stripMark_cases s with e | ⟨l, m, hm, rfl, e⟩
    · rw [e] at h1 h3
      simp [normal, encodeMsb] at h3
      subst h3
      exact .normal h1 h2
    · rw [e] at h1 h3
      simp [hardened, encodeMsb, msb] at h3
      subst h3
      rw [Nat.add_comm]
      exact .hardened h1 h2 hm
  · intro h
    cases h with
    | normal h hn =>
      refine ⟨c, ?_⟩
      rw [stripMark_digits h.2.1]
      exact ⟨⟨h, hn⟩, by simp [normal, encodeMsb]⟩
    | @hardened l n mark h hn hm =>
      refine ⟨n, ?_⟩
      rw [stripMark_mark l hm]
      exact ⟨⟨h, hn⟩, by simp [hardened, encodeMsb, msb, Nat.add_comm]⟩

theorem numeral_showNat (n : Nat) : Numeral (showNat n) n := by
  refine ⟨List.ne_nil_of_length_pos (showNat_pos n), showNat_digits n, fun hl hh => ?_, num_showNat n⟩
  have hge := (showAux_spec (n + 1) n (by omega)).2.2.2 hl
  cases hs : showNat n with
  | nil => rw [hs] at hl; simp at hl
  | cons c l =>
    rw [hs] at hh
    simp at hh
    subst hh
    have hd : AllDigits l := fun x hx => showNat_digits n x (by rw [hs]; simp [hx])
    have h1 := num_lt hd
    have h2 := num_showNat n
    rw [hs, num_cons] at h2
    have h3 : digitVal '0' = 0 := by decide
    rw [h3, Nat.zero_mul, Nat.zero_add] at h2
    have h4 : (showAux (n + 1) n).length = l.length + 1 := by
      show (showNat n).length = _
      rw [hs]; rfl
    rw [h4, Nat.add_sub_cancel] at hge
    omega

theorem childText_show (alt : Bool) (c : Nat) (h : c < 4294967296) : ChildText (showChild alt c) c := by
  unfold showChild splitMsb msb
  by_cases hc : 2147483648 ≤ c
  · have e : c = 2147483648 + c % 2 ^ 31 := by omega
    simp only [show (2 : Nat) ^ 31 ≤ c by omega, decide_true, if_true]
    rw [show ChildText (showNat (c % 2 ^ 31) ++ [if alt then 'h' else '\'']) c ↔
      ChildText (showNat (c % 2 ^ 31) ++ [if alt then 'h' else '\'']) (2147483648 + c % 2 ^ 31) by rw [← e]]
    refine .hardened (numeral_showNat _) (by omega) ?_
    cases alt <;> simp
  · have e : c % 2 ^ 31 = c := by omega
    simp only [show ¬ (2 : Nat) ^ 31 ≤ c by omega, decide_false, e]
    exact .normal (numeral_showNat c) (by omega)

theorem childText_no_slash {s : List Char} {c : Nat} (h : ChildText s c) : ∀ x ∈ s, x ≠ '/' := by
  cases h with
  | normal h _ => exact fun x hx => (digit_not_mark (h.2.1 x hx)).2.2
  | hardened h _ hm =>
    intro x hx
    rcases List.mem_append.1 hx with hx | hx
    · exact (digit_not_mark (h.2.1 x hx)).2.2
    · rw [List.mem_singleton] at hx
      subst hx
      rcases hm with rfl | rfl <;> decide

theorem childText_lt {s : List Char} {c : Nat} (h : ChildText s c) : c < 4294967296 := by
  cases h <;> omega

theorem numeral_fun {l : List Char} {n m : Nat} (h : Numeral l n) (h' : Numeral l m) : n = m :=
  h.2.2.2.symm.trans h'.2.2.2

/-! ### texts of paths -/

theorem split_ne (s : List Char) : split s ≠ [] := by
  cases s with
  | nil => simp [split]
  | cons c s =>
    simp only [split]
    split
    · simp
    · split <;> simp

theorem split_no_slash {a : List Char} (h : ∀ x ∈ a, x ≠ '/') : split a = [a] := by
  induction a with
  | nil => rfl
  | cons c a ih =>
    simp only [split]
    rw [if_neg (h c (by simp)), ih fun x hx => h x (by simp [hx])]

theorem split_slash {a : List Char} (h : ∀ x ∈ a, x ≠ '/') (s : List Char) : split (a ++ '/' :: s) = a :: split s := by
  induction a with
  | nil => simp [split]
  | cons c a ih =>
    simp only [List.cons_append, split]
    rw [if_neg (h c (by simp)), ih fun x hx => h x (by simp [hx])]

theorem split_parts {a : List Char} (h : ∀ x ∈ a, x ≠ '/') (parts : List (List Char))
    (hp : ∀ l ∈ parts, ∀ x ∈ l, x ≠ '/') : split (a ++ (parts.map fun x => '/' :: x).flatten) = a :: parts := by
  induction parts generalizing a with
  | nil => simpa using split_no_slash h
  | cons b parts ih =>
    simp only [List.map_cons, List.flatten_cons, List.cons_append]
    rw [split_slash h, ih (hp b (by simp)) fun l hl => hp l (by simp [hl])]

theorem split_join (s : List Char) {a : List Char} {parts : List (List Char)} (h : split s = a :: parts) :
    s = a ++ (parts.map fun x => '/' :: x).flatten := by
  induction s generalizing a parts with
  | nil => simp [split] at h; obtain ⟨rfl, rfl⟩ := h; rfl
  | cons c s ih =>
    simp only [split] at h
    split at h
    · rename_i hc
      subst hc
      simp only [List.cons.injEq] at h
      obtain ⟨rfl, h⟩ := h
      cases hs : split s with
      | nil => exact absurd hs (split_ne s)
      | cons b t =>
        rw [hs] at h
        subst h
        rw [ih hs]
        simp
    · split at h
      · rename_i hs; exact absurd hs (split_ne s)
      · rename_i b t hs
        simp only [List.cons.injEq] at h
        obtain ⟨rfl, rfl⟩ := h
        rw [ih hs]
        simp

theorem collect_ok {ss : List (List Char)} {p : List Nat} : collect ss = .ok p ↔ List.Forall₂ ChildText ss p := by
  induction ss generalizing p with
  | nil =>
    simp only [collect, Except.ok.injEq, List.forall₂_nil_left_iff]
    exact eq_comm
  | cons s ss ih =>
    simp only [collect, bind_eq_ok, pure_eq_ok, parseChild_ok, ih, List.forall₂_cons_left_iff]
    constructor
    · rintro ⟨c, h1, r, h2, h3⟩; exact ⟨c, r, h1, h2, h3.symm⟩
    · rintro ⟨c, r, h1, h2, h3⟩; exact ⟨c, h1, r, h2, h3.symm⟩

theorem forall₂_no_slash {ss : List (List Char)} {p : List Nat} (h : List.Forall₂ ChildText ss p) :
    ∀ l ∈ ss, ∀ x ∈ l, x ≠ '/' := by
  induction h with
  | nil => simp
  | cons h1 h2 ih =>
    intro l hl
    rcases List.mem_cons.1 hl with rfl | hl
    · exact childText_no_slash h1
    · exact ih l hl

theorem toPath_ok {p q : List Nat} : toPath p = .ok q ↔ q = p ∧ p.length ≤ 255 := by
  unfold toPath maxPath
  split
  · simp only [Except.ok.injEq]; exact ⟨fun h => ⟨h.symm, by assumption⟩, fun h => h.1.symm⟩
  · simp only [reduceCtorEq, false_iff]; rintro ⟨-, h⟩; contradiction

/-! ### bytes -/

theorem lawful_be4 : Lawful be4 where
  round a r h := by
    simp only [be4] at h ⊢
    rw [Verif.Codec.takeN_append r (by rw [List.length_reverse, leBytes_length])]
    simp only [Option.map_some, List.reverse_reverse, leNat_leBytes, Nat.mod_eq_of_lt h]
  canon bs a r h := by
    simp only [be4, Option.map_eq_some_iff, Prod.exists, Prod.mk.injEq] at h ⊢
    obtain ⟨x, r', h, rfl, rfl⟩ := h
    obtain ⟨hl, rfl⟩ := Verif.Codec.takeN_eq_some h
    have hl' : x.reverse.length = 4 := by rw [List.length_reverse, hl]
    refine ⟨by rw [← hl']; exact Verif.Codec.leNat_lt _, ?_⟩
    rw [Verif.Codec.leBytes_of_leNat hl' rfl, List.reverse_reverse]

/-! ### derivation -/

theorem stripPrefix_some {p q d : List Nat} : stripPrefix p q = some d ↔ p = q ++ d := by
  induction q generalizing p with
  | nil => cases p <;> simp [stripPrefix, eq_comm]
  | cons b q ih =>
    cases p with
    | nil => simp [stripPrefix]
    | cons a p =>
      simp only [stripPrefix, List.cons_append, List.cons.injEq]
      split
      · rename_i h; simp [h, ih]
      · rename_i h; simp [h]

theorem superPathDiff_some {p q d : List Nat} : superPathDiff p q = some d ↔ d ≠ [] ∧ p = q ++ d := by
  unfold superPathDiff
  rw [Option.filter_eq_some_iff, stripPrefix_some]
  constructor
  · rintro ⟨h1, h2⟩
    exact ⟨by rintro rfl; simp at h2, h1⟩
  · rintro ⟨h1, h2⟩
    refine ⟨h2, ?_⟩
    cases d with
    | nil => exact absurd rfl h1
    | cons => rfl

theorem deriveSteps_append {K : Type} (step : K → Nat → Except Err K) (k : K) (a b : List Nat) :
    deriveSteps step k (a ++ b) = (deriveSteps step k a).bind fun k' => deriveSteps step k' b := by
  induction a generalizing k with
  | nil => rfl
  | cons c a ih =>
    simp only [List.cons_append, deriveSteps]
    cases step k c with
    | error e => rfl
    | ok k' => exact ih k'

theorem priv_child_ok {C : Curve} {k k' : Priv} {c : Nat} (h : k.deriveChild C c = .ok k') :
    k'.path = k.path ++ [c] ∧ k'.path.length ≤ 255 ∧ 0 < k'.key ∧ k'.key = k'.key % C.n := by
  simp only [Priv.deriveChild, bind_eq_ok, pure_eq_ok, toPath_ok] at h
  obtain ⟨part, -, key, h2, path, ⟨rfl, h3⟩, rfl⟩ := h
  unfold addTweak at h2
  split at h2
  · cases h2
  · rename_i h0
    cases h2
    exact ⟨rfl, h3, Nat.pos_of_ne_zero h0, (Nat.mod_mod _ _).symm⟩

theorem priv_child_err {C : Curve} {k : Priv} {c : Nat} {e : Err} (h : k.deriveChild C c = .error e) :
    e = .keyDerivation ∨ e = .pathTooLong := by
  unfold Priv.deriveChild at h
  cases h1 : secretOf C (C.hmac k.chain (privInput C k.key c)).1 with
  | error e1 =>
    simp only [h1] at h
    have : e = e1 := by cases h; rfl
    subst this
    unfold secretOf at h1
    split at h1
    · cases h1
    · cases h1; exact .inl rfl
  | ok part =>
    simp only [h1] at h
    change Except.bind (addTweak C part k.key) _ = _ at h
    cases h2 : addTweak C part k.key with
    | error e2 =>
      rw [h2] at h
      have : e = e2 := by cases h; rfl
      subst this
      unfold addTweak at h2
      split at h2
      · cases h2; exact .inl rfl
      · cases h2
    | ok key =>
      rw [h2] at h
      change Except.bind (toPath (k.path ++ [c])) _ = _ at h
      unfold toPath at h
      split at h
      · cases h
      · cases h; exact .inr rfl

theorem toU31_ok {v i : Nat} : toU31 v = .ok i ↔ v < 2147483648 ∧ v = i := by
  unfold toU31
  have hm : msb = 2147483648 := rfl
  by_cases h : v < msb
  · rw [if_pos h]
    simp only [Except.ok.injEq]
    exact ⟨fun h' => ⟨by omega, h'⟩, fun h' => h'.2⟩
  · rw [if_neg h]
    simp only [reduceCtorEq, false_iff]
    rintro ⟨h', -⟩
    omega

theorem pub_child_ok {C : Curve} {k k' : Pub C} {c : Nat} (h : k.deriveChild c = .ok k') :
    isHardened c = false ∧ k'.path = k.path ++ [c] ∧ k'.path.length ≤ 255 := by
  unfold Pub.deriveChild at h
  split at h
  · cases h
  · rename_i hc
    simp only [bind_eq_ok, pure_eq_ok, toPath_ok] at h
    obtain ⟨part, -, key, -, path, ⟨rfl, h3⟩, rfl⟩ := h
    exact ⟨by simpa using hc, rfl, h3⟩

theorem smul_mod {C : Curve} (hC : Sound C) (k : Nat) : (k % C.n) • C.g = k • C.g := by
  conv_rhs => rw [← Nat.mod_add_div k C.n, add_nsmul, Nat.mul_comm, mul_nsmul', (hC.order C.n).2 (dvd_refl _), nsmul_zero, add_zero]

/-- public and private derivation of normal children agree -/
theorem child_public {C : Curve} (hC : Sound C) (k : Priv) (c : Nat) (hc : isHardened c = false) :
    (k.deriveChild C c).map (Priv.toPublic C) = (k.toPublic C).deriveChild c := by
  unfold Priv.deriveChild Pub.deriveChild privInput
  rw [hc]
  simp only [Bool.false_eq_true, if_false, Priv.toPublic]
  cases secretOf C (C.hmac k.chain (C.ser (pointOf C k.key) ++ be4.enc c)).1 with
  | error e => rfl
  | ok part =>
    have e : pointOf C k.key + part • C.g = (part + k.key) • C.g := by
      unfold pointOf; rw [← add_nsmul, Nat.add_comm]
    have z : pointOf C k.key + part • C.g = 0 ↔ (part + k.key) % C.n = 0 := by
      rw [e, hC.order, Nat.dvd_iff_mod_eq_zero]
    by_cases h : (part + k.key) % C.n = 0
    · have h' := z.2 h
      show (Except.map _ (Except.bind (addTweak C part k.key) _)) = Except.bind (addExpTweak C _ part) _
      unfold addTweak addExpTweak
      rw [if_pos h, if_pos h']
      rfl
    · have h' : ¬ _ := fun x => h (z.1 x)
      show (Except.map _ (Except.bind (addTweak C part k.key) _)) = Except.bind (addExpTweak C _ part) _
      unfold addTweak addExpTweak
      rw [if_neg h, if_neg h', e]
      show Except.map _ (Except.bind (toPath (k.path ++ [c])) _) = Except.bind (toPath (k.path ++ [c])) _
      cases toPath (k.path ++ [c]) with
      | error e => rfl
      | ok p =>
        show Except.ok (Priv.toPublic C ⟨p, _, _⟩) = Except.ok _
        unfold Priv.toPublic pointOf
        rw [smul_mod hC]

theorem steps_public {C : Curve} (hC : Sound C) (k : Priv) (d : List Nat) (hd : ∀ c ∈ d, isHardened c = false) :
    (deriveSteps (Priv.deriveChild C) k d).map (Priv.toPublic C) = deriveSteps Pub.deriveChild (k.toPublic C) d := by
  induction d generalizing k with
  | nil => rfl
  | cons c d ih =>
    simp only [deriveSteps]
    rw [← child_public hC k c (hd c (by simp))]
    cases k.deriveChild C c with
    | error e => rfl
    | ok k' => exact ih k' fun x hx => hd x (by simp [hx])

theorem steps_path {C : Curve} {k k' : Priv} {d : List Nat} (h : deriveSteps (Priv.deriveChild C) k d = .ok k') :
    k'.path = k.path ++ d ∧ (d ≠ [] → k'.path.length ≤ 255 ∧ 0 < k'.key ∧ k'.key = k'.key % C.n) := by
  induction d generalizing k with
  | nil => cases h; simp
  | cons c d ih =>
    simp only [deriveSteps, bind_eq_ok] at h
    obtain ⟨k1, h1, h2⟩ := h
    obtain ⟨p1, p2⟩ := priv_child_ok h1
    obtain ⟨i1, i2⟩ := ih h2
    refine ⟨by rw [i1, p1]; simp, fun _ => ?_⟩
    cases d with
    | nil => cases h2; exact p2
    | cons => exact i2 (by simp)

theorem pub_steps_path {C : Curve} {k k' : Pub C} {d : List Nat} (h : deriveSteps Pub.deriveChild k d = .ok k') :
    k'.path = k.path ++ d ∧ (∀ c ∈ d, isHardened c = false) ∧ (d ≠ [] → k'.path.length ≤ 255) := by
  induction d generalizing k with
  | nil => cases h; simp
  | cons c d ih =>
    simp only [deriveSteps, bind_eq_ok] at h
    obtain ⟨k1, h1, h2⟩ := h
    obtain ⟨p1, p2, p3⟩ := pub_child_ok h1
    obtain ⟨i1, i2, i3⟩ := ih h2
    refine ⟨by rw [i1, p2]; simp, ?_, fun _ => ?_⟩
    · intro x hx
      rcases List.mem_cons.1 hx with rfl | hx
      · exact p1
      · exact i2 x hx
    · cases d with
      | nil => cases h2; exact p3
      | cons => exact i3 (by simp)

end Verif.Hd
