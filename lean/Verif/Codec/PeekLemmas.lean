import Verif.Codec.Peek
import Verif.Codec.Laws

/-!
Lemmas about lookahead and signature maps.
-/
namespace Verif.Codec

/-! ### Signature maps -/

theorem putSorted_append {i : Nat} {s : Bytes} {l : List (Nat × Bytes)}
    (h : ∀ p ∈ l, p.1 < i) : putSorted i s l = l ++ [(i, s)] := by
  induction l with
  | nil => rfl
  | cons p l ih =>
    obtain ⟨j, t⟩ := p
    have hj : j < i := h (j, t) (by simp)
    simp only [putSorted]
    rw [if_neg (by omega), if_neg (by omega), ih (fun p hp => h p (by simp [hp]))]
    rfl

theorem collect_go (l m : List (Nat × Bytes)) (h : ((m ++ l).map (·.1)).Pairwise (· < ·)) :
    l.foldl (fun m (i, s) => putSorted i s m) m = m ++ l := by
  induction l generalizing m with
  | nil => simp
  | cons p l ih =>
    obtain ⟨i, s⟩ := p
    have hp : putSorted i s m = m ++ [(i, s)] := by
      apply putSorted_append
      intro q hq
      simp only [List.map_append, List.map_cons] at h
      exact (List.pairwise_append.1 h).2.2 q.1 (List.mem_map.2 ⟨q, hq, rfl⟩) i (by simp)
    simp only [List.foldl_cons, hp]
    rw [ih (m ++ [(i, s)]) (by simpa using h)]
    simp

theorem collectMap_sorted {l : List (Nat × Bytes)} (h : (l.map (·.1)).Pairwise (· < ·)) :
    collectMap l = l := by
  have := collect_go l [] (by simpa using h)
  simpa [collectMap] using this

theorem sorted_length {l : List (Nat × Bytes)} {n : Nat} (h : (l.map (·.1)).Pairwise (· < ·))
    (hb : ∀ p ∈ l, p.1 < n) : l.length ≤ n := by
  have key : ∀ (xs : List Nat) (m : Nat), xs.Pairwise (· < ·) → (∀ x ∈ xs, m ≤ x ∧ x < n) →
      m ≤ n → xs.length + m ≤ n := by
    intro xs
    induction xs with
    | nil => intro m _ _ h; simpa using h
    | cons x xs ih =>
      intro m hp hb hm
      have hx := hb x (by simp)
      have := ih (x + 1) (List.pairwise_cons.1 hp).2
        (fun y hy => ⟨(List.pairwise_cons.1 hp).1 y hy, (hb y (by simp [hy])).2⟩) (by omega)
      simp only [List.length_cons]
      omega
  have := key (l.map (·.1)) 0 h
    (fun x hx => by
      obtain ⟨p, hp, rfl⟩ := List.mem_map.1 hx
      exact ⟨Nat.zero_le _, hb p hp⟩) (Nat.zero_le _)
  simpa using this

theorem pair_dec {α β : Type} (c : Codec α) (d : Codec β) (bs : Bytes) :
    (pair c d).dec bs =
      match c.dec bs with
      | some (a, r) =>
        match d.dec r with
        | some (b, r') => some ((a, b), r')
        | none => none
      | none => none := rfl

/-! ### Lookahead -/

/-- What is still to be delivered. -/
def Peekable.rest (p : Peekable) : Bytes := p.init.toList ++ p.inner

/-- A plain input serving one request. -/
def plainStep (bs : Bytes) : ReadOp → Option (Bytes × Bytes)
  | .peek => (takeN 1 bs).map fun (x, _) => (x, bs)
  | .readByte => takeN 1 bs
  | .read n => takeN n bs

theorem takeN_succ (m : Nat) (b : UInt8) (r : Bytes) :
    takeN (m + 1) (b :: r) = (takeN m r).map fun (x, q) => (b :: x, q) := by
  unfold takeN
  by_cases h : m ≤ r.length
  · rw [if_pos (by simpa using h), if_pos h]; rfl
  · rw [if_neg (by simpa using h), if_neg h]; rfl

theorem step_rest (p : Peekable) (op : ReadOp) (h : op ≠ .read 0) :
    (p.step op).map (fun (x, q) => (x, q.rest)) = plainStep p.rest op := by
  obtain ⟨i, inner⟩ := p
  cases op with
  | peek =>
    cases i <;> cases inner <;>
      simp [Peekable.step, Peekable.peek, plainStep, Peekable.rest, takeN]
  | readByte =>
    cases i <;> cases inner <;>
      simp [Peekable.step, Peekable.readByte, plainStep, Peekable.rest, takeN]
  | read n =>
    cases n with
    | zero => exact absurd rfl h
    | succ m =>
      cases i with
      | none =>
        simp only [Peekable.step, Peekable.read, plainStep, Peekable.rest, Option.toList_none,
          List.nil_append]
        cases takeN (m + 1) inner <;> simp
      | some b =>
        simp only [Peekable.step, Peekable.read, plainStep, Peekable.rest, Option.toList_some,
          List.cons_append, List.nil_append, takeN_succ]
        cases takeN m inner <;> simp

end Verif.Codec
