import Verif.Codec.Laws
import Verif.Wire.Stream

/-!
Facts about receiving: it depends on the bytes only, not on how they arrive.
-/
namespace Verif.Wire
open Verif.Codec

variable {α : Type} {c : Codec α} {limit : Option Nat}

theorem checkSize_ok {n : Nat} : checkSize limit n = .ok () ↔ ∀ m, limit = some m → n ≤ m := by
  unfold checkSize
  cases limit with
  | none => simp
  | some m =>
    simp only [Option.some.injEq, forall_eq']
    split <;> rename_i h
    · simp; omega
    · simp; omega

theorem checkSize_error {n : Nat} {e : Err} :
    checkSize limit n = .error e ↔ ∃ m, limit = some m ∧ m < n ∧ e = .tooLarge n m := by
  unfold checkSize
  cases limit with
  | none => simp
  | some m =>
    simp only [Option.some.injEq, exists_eq_left']
    split <;> rename_i h
    · simp only [Except.error.injEq]
      exact ⟨fun x => ⟨h, x.symm⟩, fun x => x.2.symm⟩
    · simp; omega

/-- Nothing yet: the buffer stays. -/
theorem decode_none {s b : Bytes} (h : decode c limit s = (.ok none, b)) : b = s := by
  unfold decode at h
  split at h
  · simp only [Prod.mk.injEq] at h; exact h.2.symm
  · simp only at h
    split at h
    · simp at h
    · split at h
      · simp only [Prod.mk.injEq] at h; exact h.2.symm
      · split at h <;> simp at h

theorem decode_append {s b : Bytes} {r : Except Err (Option α)} (h : decode c limit s = (r, b))
    (hr : r ≠ .ok none) (x : Bytes) : decode c limit (s ++ x) = (r, b ++ x) := by
  unfold decode at h
  split at h
  · simp only [Prod.mk.injEq] at h; exact absurd h.1.symm hr
  rename_i hl
  have hl' : ¬ (s ++ x).length < 4 := by simp only [List.length_append]; omega
  have ht : (s ++ x).take 4 = s.take 4 := List.take_append_of_le_length (by omega)
  have hd : (s ++ x).drop 4 = s.drop 4 ++ x := List.drop_append_of_le_length (by omega)
  unfold decode
  rw [if_neg hl']
  simp only [ht, hd]
  simp only at h
  split at h
  · rename_i e he
    simp only [Prod.mk.injEq] at h ⊢
    obtain ⟨h1, rfl⟩ := h
    exact ⟨h1, rfl⟩
  rename_i he
  split at h
  · simp only [Prod.mk.injEq] at h; exact absurd h.1.symm hr
  rename_i hn
  have hn' : ¬ (s.drop 4 ++ x).length < leNat (s.take 4) := by
    simp only [List.length_append]; omega
  simp only [if_neg hn']
  have ht' : (s.drop 4 ++ x).take (leNat (s.take 4)) = (s.drop 4).take (leNat (s.take 4)) :=
    List.take_append_of_le_length (by omega)
  have hd' : (s ++ x).drop (4 + leNat (s.take 4)) = s.drop (4 + leNat (s.take 4)) ++ x := by
    apply List.drop_append_of_le_length
    simp only [List.length_drop] at hn
    omega
  rw [ht', hd']
  split at h <;>
    (simp only [Prod.mk.injEq] at h ⊢; obtain ⟨h1, rfl⟩ := h; exact ⟨h1, rfl⟩)

/-- The result of receiving, from what decoding all bytes gives. -/
def final : Except Err (Option α) → Except Err α
  | .ok (some m) => .ok m
  | .ok none => .error .eof
  | .error e => .error e

theorem recv_eq (buf : Bytes) (net : List Bytes) (hn : ∀ x ∈ net, x ≠ []) :
    (recv c limit buf net).1 = final (decode c limit (buf ++ net.flatten)).1 ∧
    (recv c limit buf net).2.1 ++ (recv c limit buf net).2.2.flatten =
      (decode c limit (buf ++ net.flatten)).2 ∧
    (∀ x ∈ (recv c limit buf net).2.2, x ≠ []) := by
  induction net generalizing buf with
  | nil =>
    simp only [List.flatten_nil, List.append_nil]
    unfold recv
    split <;> rename_i h <;> rw [h] <;> simp [final]
  | cons x net ih =>
    unfold recv
    split
    · rename_i m b h
      rw [decode_append h (by nofun)]
      exact ⟨rfl, rfl, hn⟩
    · rename_i b h
      rw [if_neg (hn x (by simp)), decode_none h]
      have := ih (buf ++ x) (fun y hy => hn y (by simp [hy]))
      rw [List.flatten_cons, ← List.append_assoc]
      exact this
    · rename_i e b h
      rw [decode_append h (by nofun)]
      exact ⟨rfl, rfl, hn⟩

/-- Receiving takes chunks only as long as nothing can be decided. -/
theorem recv_pending (buf : Bytes) (pre : List Bytes) (x : Bytes) (post : List Bytes)
    (h : (recv c limit buf (pre ++ x :: post)).2.2.length ≤ post.length) :
    (decode c limit (buf ++ pre.flatten)).1 = .ok none := by
  induction pre generalizing buf with
  | nil =>
    simp only [List.nil_append] at h
    simp only [List.flatten_nil, List.append_nil]
    unfold recv at h
    split at h
    · simp at h
    · rename_i b hb
      rw [hb]
    · simp at h
  | cons y pre ih =>
    simp only [List.cons_append] at h
    unfold recv at h
    split at h
    · simp at h; omega
    · rename_i b hb
      have hs := decode_none hb
      subst hs
      split at h
      · simp at h; omega
      · have := ih _ h
        rw [List.flatten_cons, ← List.append_assoc]
        exact this
    · simp at h; omega

/-! ### Frames -/

theorem decode_short {s : Bytes} (h : s.length < 4) : decode c limit s = (.ok none, s) := by
  unfold decode
  rw [if_pos h]

theorem decode_frame (n : Nat) (h32 : n < 256 ^ 4) (body r : Bytes) (hb : body.length = n) :
    decode c limit (leBytes 4 n ++ body ++ r) =
      match checkSize limit n with
      | .error e => (.error e, leBytes 4 n ++ body ++ r)
      | .ok _ =>
        match c.decodeAll body with
        | some m => (.ok (some m), r)
        | none => (.error .invalid, r) := by
  have h4 := leBytes_length 4 n
  have ht : (leBytes 4 n ++ body ++ r).take 4 = leBytes 4 n := by
    rw [List.append_assoc, List.take_append_of_le_length (by omega), List.take_of_length_le (by omega)]
  have hd : (leBytes 4 n ++ body ++ r).drop 4 = body ++ r := by
    rw [List.append_assoc, List.drop_append_of_le_length (by omega), List.drop_of_length_le (by omega)]
    rfl
  have hn : leNat (leBytes 4 n) = n := by rw [leNat_leBytes, Nat.mod_eq_of_lt h32]
  have hd' : (leBytes 4 n ++ body ++ r).drop (4 + n) = r := by
    rw [List.drop_append_of_le_length (by simp [h4, hb]), List.drop_of_length_le (by simp [h4, hb])]
    rfl
  have hb' : (body ++ r).take n = body := by
    rw [List.take_append_of_le_length (by omega), List.take_of_length_le (by omega)]
  unfold decode
  rw [if_neg (by simp [h4])]
  simp only [ht, hd, hn, hd', hb']
  cases checkSize limit n with
  | error e => rfl
  | ok u =>
    simp only
    rw [if_neg (by simp [hb])]
    cases c.decodeAll body <;> rfl

theorem decode_large (n : Nat) (h32 : n < 256 ^ 4) (r : Bytes) (e : Err)
    (he : checkSize limit n = .error e) :
    decode c limit (leBytes 4 n ++ r) = (.error e, leBytes 4 n ++ r) := by
  have h4 := leBytes_length 4 n
  have ht : (leBytes 4 n ++ r).take 4 = leBytes 4 n := by
    rw [List.take_append_of_le_length (by omega), List.take_of_length_le (by omega)]
  have hn : leNat (leBytes 4 n) = n := by rw [leNat_leBytes, Nat.mod_eq_of_lt h32]
  unfold decode
  rw [if_neg (by simp [h4])]
  simp only [ht, hn, he]

theorem decode_part (n : Nat) (h32 : n < 256 ^ 4) (r : Bytes)
    (he : checkSize limit n = .ok ()) (hr : r.length < n) :
    decode c limit (leBytes 4 n ++ r) = (.ok none, leBytes 4 n ++ r) := by
  have h4 := leBytes_length 4 n
  have ht : (leBytes 4 n ++ r).take 4 = leBytes 4 n := by
    rw [List.take_append_of_le_length (by omega), List.take_of_length_le (by omega)]
  have hd : (leBytes 4 n ++ r).drop 4 = r := by
    rw [List.drop_append_of_le_length (by omega), List.drop_of_length_le (by omega)]
    rfl
  have hn : leNat (leBytes 4 n) = n := by rw [leNat_leBytes, Nat.mod_eq_of_lt h32]
  unfold decode
  rw [if_neg (by simp [h4])]
  simp only [ht, hd, hn, he, if_pos hr]

/-- Any byte string is one of four things. -/
theorem stream_cases (limit : Option Nat) (s : Bytes) :
    s.length < 4 ∨
    (∃ n r e, n < 256 ^ 4 ∧ s = leBytes 4 n ++ r ∧ checkSize limit n = .error e) ∨
    (∃ n r, n < 256 ^ 4 ∧ s = leBytes 4 n ++ r ∧ checkSize limit n = .ok () ∧ r.length < n) ∨
    (∃ body r, body.length < 256 ^ 4 ∧ s = leBytes 4 body.length ++ body ++ r ∧
      checkSize limit body.length = .ok ()) := by
  by_cases h : s.length < 4
  · exact .inl h
  right
  have h4 : (s.take 4).length = 4 := by rw [List.length_take]; omega
  have h32 : leNat (s.take 4) < 256 ^ 4 := by
    have := leNat_lt (s.take 4)
    rwa [h4] at this
  have hs : s = leBytes 4 (leNat (s.take 4)) ++ s.drop 4 := by
    rw [leBytes_of_leNat h4 rfl, List.take_append_drop]
  generalize leNat (s.take 4) = n at h32 hs
  rcases he : checkSize limit n with e | u
  · exact .inl ⟨n, _, e, h32, hs, he⟩
  right
  by_cases hr : (s.drop 4).length < n
  · exact .inl ⟨n, _, h32, hs, he, hr⟩
  right
  have hb : ((s.drop 4).take n).length = n := by rw [List.length_take]; omega
  refine ⟨(s.drop 4).take n, (s.drop 4).drop n, by omega, ?_, by rw [hb]; exact he⟩
  rw [hb, List.append_assoc, List.take_append_drop]
  exact hs

end Verif.Wire
