import Verif.Address.Detect

/-! Lemmas about the characters and the bits of a string. -/

namespace Verif.Address
open Verif Codec

/-! ### Bits -/

theorem bits_length : ∀ (w n : Nat), (bits w n).length = w
  | 0, _ => rfl
  | w + 1, n => by rw [bits, List.length_append, bits_length w]; rfl

theorem number_append (l : List Bool) (b : Bool) : number (l ++ [b]) = 2 * number l + b.toNat := by
  simp [number, List.foldl_append]

theorem number_bits : ∀ (w n : Nat), n < 2 ^ w → number (bits w n) = n
  | 0, n, h => by simp at h; subst h; rfl
  | w + 1, n, h => by
    rw [bits, number_append, number_bits w (n / 2) (by rw [Nat.pow_succ] at h; omega)]
    rcases Nat.mod_two_eq_zero_or_one n with e | e <;> rw [e] <;> simp <;> omega

theorem bits5_number : ∀ a b c d e : Bool, bits 5 (number [a, b, c, d, e]) = [a, b, c, d, e] := by decide

theorem number5_lt : ∀ a b c d e : Bool, number [a, b, c, d, e] < 32 := by decide

theorem bits8_number : ∀ a b c d e f g h : Bool, bits 8 (number [a, b, c, d, e, f, g, h]) = [a, b, c, d, e, f, g, h] := by
  decide +kernel

theorem number8_lt : ∀ a b c d e f g h : Bool, number [a, b, c, d, e, f, g, h] < 256 := by decide +kernel

/-- the bits of a sequence of bytes -/
def bitsOf (bs : Bytes) : List Bool := bs.flatMap (fun b => bits 8 b.toNat)

theorem bitsOf_cons (b : UInt8) (bs : Bytes) : bitsOf (b :: bs) = bits 8 b.toNat ++ bitsOf bs := by simp [bitsOf]

theorem bitsOf_length : ∀ bs : Bytes, (bitsOf bs).length = 8 * bs.length
  | [] => rfl
  | b :: bs => by rw [bitsOf_cons, List.length_append, bits_length, bitsOf_length bs, List.length_cons]; omega

theorem list8 {l : List Bool} (h : l.length = 8) : ∃ a b c d e f g i, l = [a, b, c, d, e, f, g, i] := by
  match l, h with
  | [a, b, c, d, e, f, g, i], _ => exact ⟨a, b, c, d, e, f, g, i, rfl⟩

theorem whole_append : ∀ (bs : Bytes) (t : List Bool), whole (bitsOf bs ++ t) = bs ++ whole t
  | [], t => rfl
  | b :: bs, t => by
    obtain ⟨p, q, c, d, e, f, g, i, h⟩ := list8 (bits_length 8 b.toNat)
    have hn := number_bits 8 b.toNat b.toNat_lt
    rw [bitsOf_cons, List.append_assoc, h]
    rw [h] at hn
    show UInt8.ofNat (number [p, q, c, d, e, f, g, i]) :: whole (bitsOf bs ++ t) = b :: bs ++ whole t
    rw [hn, whole_append bs t]
    simp

theorem whole_short {t : List Bool} (h : t.length < 8) : whole t = [] := by
  unfold whole
  split
  · simp at h; omega
  · rfl

theorem whole_spec : ∀ (n : Nat) (l : List Bool), l.length ≤ n → ∃ t, l = bitsOf (whole l) ++ t ∧ t.length < 8
  | n, a :: b :: c :: d :: e :: f :: g :: h :: r, hn => by
    obtain ⟨n, rfl⟩ : ∃ k, n = k + 1 := ⟨n - 1, by simp at hn; omega⟩
    obtain ⟨t, ht, h8⟩ := whole_spec n r (by simp at hn; omega)
    refine ⟨t, ?_, h8⟩
    rw [whole, bitsOf_cons]
    have : (UInt8.ofNat (number [a, b, c, d, e, f, g, h])).toNat = number [a, b, c, d, e, f, g, h] := by
      rw [UInt8.toNat_ofNat']
      exact Nat.mod_eq_of_lt (number8_lt a b c d e f g h)
    rw [this, bits8_number, List.append_assoc, ← ht]
    rfl
  | _, [], _ => ⟨_, rfl, by simp⟩
  | _, [_], _ => ⟨_, rfl, by simp⟩
  | _, [_, _], _ => ⟨_, rfl, by simp⟩
  | _, [_, _, _], _ => ⟨_, rfl, by simp⟩
  | _, [_, _, _, _], _ => ⟨_, rfl, by simp⟩
  | _, [_, _, _, _, _], _ => ⟨_, rfl, by simp⟩
  | _, [_, _, _, _, _, _], _ => ⟨_, rfl, by simp⟩
  | _, [_, _, _, _, _, _, _], _ => ⟨_, rfl, by simp⟩

theorem regroup_spec : ∀ (n : Nat) (l : List Bool), l.length ≤ n →
    (∀ v ∈ regroup l, v < 32) ∧ (regroup l).length = (l.length + 4) / 5 ∧
      ∃ k, k < 5 ∧ (regroup l).flatMap (bits 5) = l ++ List.replicate k false
  | n, a :: b :: c :: d :: e :: r, hn => by
    obtain ⟨n, rfl⟩ : ∃ k, n = k + 1 := ⟨n - 1, by simp at hn; omega⟩
    obtain ⟨h1, h2, k, hk, h3⟩ := regroup_spec n r (by simp at hn; omega)
    rw [regroup]
    refine ⟨?_, ?_, k, hk, ?_⟩
    · intro v hv
      rw [List.mem_cons] at hv
      rcases hv with rfl | hv
      · exact number5_lt a b c d e
      · exact h1 v hv
    · simp only [List.length_cons, h2]; omega
    · rw [List.flatMap_cons, bits5_number, h3]; rfl
  | _, [], _ => ⟨by simp [regroup], by simp [regroup], 0, by decide, by simp [regroup]⟩
  | _, [a], hn => ⟨by clear hn; revert a; decide, by simp [regroup], 4, by decide, by clear hn; revert a; decide⟩
  | _, [a, b], hn => ⟨by clear hn; revert a b; decide, by simp [regroup], 3, by decide, by clear hn; revert a b; decide⟩
  | _, [a, b, c], hn => ⟨by clear hn; revert a b c; decide, by simp [regroup], 2, by decide, by clear hn; revert a b c; decide⟩
  | _, [a, b, c, d], hn => ⟨by clear hn; revert a b c d; decide, by simp [regroup], 1, by decide, by clear hn; revert a b c d; decide⟩

theorem toSymbols_lt (bs : Bytes) : ∀ v ∈ toSymbols bs, v < 32 := (regroup_spec _ _ (Nat.le_refl _)).1

theorem toSymbols_length (bs : Bytes) : (toSymbols bs).length = (8 * bs.length + 4) / 5 := by
  have := (regroup_spec _ (bitsOf bs) (Nat.le_refl _)).2.1
  rw [bitsOf_length] at this
  exact this

theorem toSymbols_bits (bs : Bytes) : ∃ k, k < 5 ∧ (toSymbols bs).flatMap (bits 5) = bitsOf bs ++ List.replicate k false :=
  (regroup_spec _ (bitsOf bs) (Nat.le_refl _)).2.2

theorem toBytes_toSymbols (bs : Bytes) : toBytes (toSymbols bs) = bs := by
  obtain ⟨k, hk, h⟩ := toSymbols_bits bs
  rw [toBytes, h, whole_append, whole_short (by simp; omega), List.append_nil]

theorem toBytes_spec (l : List Nat) : ∃ t, l.flatMap (bits 5) = bitsOf (toBytes l) ++ t ∧ t.length < 8 :=
  whole_spec _ _ (Nat.le_refl _)

theorem toBytes_iff {l : List Nat} {bs : Bytes} : toBytes l = bs ↔ ∃ t, l.flatMap (bits 5) = bitsOf bs ++ t ∧ t.length < 8 := by
  constructor
  · rintro rfl; exact toBytes_spec l
  · rintro ⟨t, h, h8⟩
    rw [toBytes, h, whole_append, whole_short h8, List.append_nil]

theorem flatMap_bits_length : ∀ l : List Nat, (l.flatMap (bits 5)).length = 5 * l.length
  | [] => rfl
  | v :: l => by rw [List.flatMap_cons, List.length_append, bits_length, flatMap_bits_length l, List.length_cons]; omega

theorem flatMap_bits_inj : ∀ {l l' : List Nat}, (∀ v ∈ l, v < 32) → (∀ v ∈ l', v < 32) →
    l.flatMap (bits 5) = l'.flatMap (bits 5) → l = l'
  | [], [], _, _, _ => rfl
  | [], v :: l', _, _, h => by have := congrArg List.length h; rw [flatMap_bits_length, flatMap_bits_length] at this; simp at this
  | v :: l, [], _, _, h => by have := congrArg List.length h; rw [flatMap_bits_length, flatMap_bits_length] at this; simp at this
  | v :: l, w :: l', hl, hl', h => by
    rw [List.flatMap_cons, List.flatMap_cons] at h
    obtain ⟨h1, h2⟩ := List.append_inj h (by rw [bits_length, bits_length])
    have hv := number_bits 5 v (hl v (by simp))
    rw [h1, number_bits 5 w (hl' w (by simp))] at hv
    rw [hv, flatMap_bits_inj (fun x hx => hl x (by simp [hx])) (fun x hx => hl' x (by simp [hx])) h2]

/-! ### Characters -/

theorem char_value : ∀ v, v < 32 → value (char v) = some v ∧ isUpper (char v) = false ∧ char v ≠ 49 := by decide

theorem charset_idx : ∀ v, v < 32 → charset.getD v 0 = char v := fun _ _ => rfl

theorem value_spec {c v : Nat} (h : value c = some v) : v < 32 ∧ lower c = char v := by
  unfold value at h
  obtain ⟨hlt, he, -⟩ := List.idxOf?_eq_some_iff.mp h
  refine ⟨hlt, ?_⟩
  simp only [char]
  rw [List.getD_eq_getElem?_getD, List.getElem?_eq_getElem hlt]
  exact he.symm

theorem lower_of_not_upper {c : Nat} (h : isUpper c = false) : lower c = c := by simp [lower, h]

theorem char_inj : ∀ v, v < 32 → ∀ w, w < 32 → char v = char w → v = w := by decide +kernel

theorem mapM_value_map : ∀ {l : List Nat}, (∀ v ∈ l, v < 32) → (l.map char).mapM value = some l
  | [], _ => rfl
  | v :: l, h => by
    rw [List.map_cons, List.mapM_cons, (char_value v (h v (by simp))).1, mapM_value_map (fun w hw => h w (List.mem_cons_of_mem _ hw))]
    rfl

theorem mapM_value_spec : ∀ {r : Str} {l : List Nat}, r.mapM value = some l →
    (∀ v ∈ l, v < 32) ∧ r.map lower = l.map char
  | [], l, h => by simp at h; subst h; simp
  | c :: r, l, h => by
    simp only [List.mapM_cons, Option.bind_eq_bind, Option.bind_eq_some_iff, Option.pure_def, Option.some.injEq] at h
    obtain ⟨v, hv, l', hl', rfl⟩ := h
    obtain ⟨h1, h2⟩ := mapM_value_spec hl'
    obtain ⟨h3, h4⟩ := value_spec hv
    constructor
    · intro w hw
      rw [List.mem_cons] at hw
      rcases hw with rfl | hw
      · exact h3
      · exact h1 w hw
    · simp [h2, h4]

theorem map_lower_eq {r : Str} (h : ∀ c ∈ r, isUpper c = false) : r.map lower = r := by
  have := List.map_congr_left (f := lower) (g := id) (l := r) (fun c hc => lower_of_not_upper (h c hc))
  rw [this, List.map_id]

theorem splitLast_spec : ∀ {s a b : Str}, splitLast s = some (a, b) → s = a ++ 49 :: b ∧ 49 ∉ b
  | [], _, _, h => by simp [splitLast] at h
  | c :: s, a, b, h => by
    have hn : ∀ {s}, splitLast s = none → 49 ∉ s := by
      intro s
      induction s with
      | nil => simp
      | cons x s ih =>
        intro h
        rw [splitLast] at h
        split at h
        · simp at h
        · rename_i hs
          split at h
          · simp at h
          · rename_i hx
            simp only [List.mem_cons, not_or]
            exact ⟨fun e => hx e.symm, ih hs⟩
    rw [splitLast] at h
    split at h
    · rename_i a' b' hs
      simp only [Option.some.injEq, Prod.mk.injEq] at h
      obtain ⟨rfl, rfl⟩ := h
      obtain ⟨h1, h2⟩ := splitLast_spec hs
      exact ⟨by rw [h1]; rfl, h2⟩
    · rename_i hs
      split at h
      · rename_i hc
        simp only [Option.some.injEq, Prod.mk.injEq] at h
        obtain ⟨rfl, rfl⟩ := h
        exact ⟨by rw [hc]; rfl, hn hs⟩
      · simp at h

theorem splitLast_none : ∀ {s : Str}, 49 ∉ s → splitLast s = none
  | [], _ => rfl
  | c :: s, h => by
    simp only [List.mem_cons, not_or] at h
    rw [splitLast, splitLast_none h.2]
    exact if_neg (fun e : c = 49 => h.1 e.symm)

theorem splitLast_append : ∀ (a : Str) {b : Str}, 49 ∉ b → splitLast (a ++ 49 :: b) = some (a, b)
  | [], b, h => by simp [splitLast, splitLast_none h]
  | c :: a, b, h => by rw [List.cons_append, splitLast, splitLast_append a h]

end Verif.Address
