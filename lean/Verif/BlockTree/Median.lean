import Verif.BlockTree.Lemmas
import Mathlib.Data.List.Sort
import Mathlib.Data.List.Count

/-! # Lemmas about the median time -/

namespace Verif.BlockTree
open Verif Spec

/-- how many are at least `t` -/
def geCount (t : Nat) (l : List Nat) : Nat := l.countP (fun x => decide (t ≤ x))
/-- how many are at most `t` -/
def leCount (t : Nat) (l : List Nat) : Nat := l.countP (fun x => decide (x ≤ t))

theorem sorted_facts (l : List Nat) :
    (l.insertionSort (· ≤ ·)).Perm l ∧ (l.insertionSort (· ≤ ·)).Pairwise (· ≤ ·) :=
  ⟨List.perm_insertionSort _ _, List.pairwise_insertionSort _ _⟩

theorem medianOf_ok {l : List Nat} (h : l ≠ []) : ∃ m, medianOf l = .ok m := by
  have hl := (sorted_facts l).1.length_eq
  have hp : 0 < l.length := List.length_pos_iff.2 h
  simp only [medianOf]
  rw [List.getElem?_eq_getElem (by omega)]
  exact ⟨_, rfl⟩

theorem sorted_counts {L : List Nat} (hs : L.Pairwise (· ≤ ·)) {i : Nat} (hi : i < L.length) :
    L.length - i ≤ geCount L[i] L ∧ i + 1 ≤ leCount L[i] L ∧ ∀ t, L[i] < t → geCount t L ≤ L.length - (i + 1) := by
  have hmono : ∀ j k (hj : j < L.length) (hk : k < L.length), j ≤ k → L[j] ≤ L[k] := by
    intro j k hj hk hjk
    rcases Nat.lt_or_eq_of_le hjk with h | h
    · exact List.pairwise_iff_getElem.1 hs j k hj hk h
    · subst h; exact le_refl _
  have hdrop : ∀ x ∈ L.drop i, L[i] ≤ x := by
    intro x hx
    obtain ⟨j, hj, rfl⟩ := List.getElem_of_mem hx
    rw [List.getElem_drop]
    exact hmono _ _ _ _ (by omega)
  have htake : ∀ x ∈ L.take (i+1), x ≤ L[i] := by
    intro x hx
    obtain ⟨j, hj, rfl⟩ := List.getElem_of_mem hx
    rw [List.getElem_take]
    simp only [List.length_take] at hj
    exact hmono _ _ _ _ (by omega)
  refine ⟨?_, ?_, ?_⟩
  · have e : L.countP (fun x => decide (L[i] ≤ x)) =
        (L.take i).countP (fun x => decide (L[i] ≤ x)) + (L.drop i).countP (fun x => decide (L[i] ≤ x)) := by
      rw [← List.countP_append, List.take_append_drop]
    have e2 : (L.drop i).countP (fun x => decide (L[i] ≤ x)) = (L.drop i).length :=
      List.countP_eq_length.2 (fun x hx => by simpa using hdrop x hx)
    rw [geCount, e, e2, List.length_drop]; omega
  · have e : L.countP (fun x => decide (x ≤ L[i])) =
        (L.take (i+1)).countP (fun x => decide (x ≤ L[i])) + (L.drop (i+1)).countP (fun x => decide (x ≤ L[i])) := by
      rw [← List.countP_append, List.take_append_drop]
    have e2 : (L.take (i+1)).countP (fun x => decide (x ≤ L[i])) = (L.take (i+1)).length :=
      List.countP_eq_length.2 (fun x hx => by simpa using htake x hx)
    rw [leCount, e, e2, List.length_take]; omega
  · intro t ht
    have e : L.countP (fun x => decide (t ≤ x)) =
        (L.take (i+1)).countP (fun x => decide (t ≤ x)) + (L.drop (i+1)).countP (fun x => decide (t ≤ x)) := by
      rw [← List.countP_append, List.take_append_drop]
    have e2 : (L.take (i+1)).countP (fun x => decide (t ≤ x)) = 0 :=
      List.countP_eq_zero.2 (fun x hx => by have := htake x hx; simp; omega)
    have e3 : (L.drop (i+1)).countP (fun x => decide (t ≤ x)) ≤ (L.drop (i+1)).length := List.countP_le_length
    rw [geCount, e, e2]
    rw [List.length_drop] at e3
    omega

theorem medianOf_facts {l : List Nat} {m : Nat} (h : medianOf l = .ok m) :
    m ∈ l ∧ l.length - l.length / 2 ≤ geCount m l ∧ l.length / 2 + 1 ≤ leCount m l ∧
    ∀ t, l.length - l.length / 2 ≤ geCount t l → t ≤ m := by
  obtain ⟨hp, hs⟩ := sorted_facts l
  unfold medianOf at h
  generalize hL : l.insertionSort (· ≤ ·) = L at *
  have hl := hp.length_eq
  simp only [okOr_eq_ok] at h
  obtain ⟨hi, he⟩ := List.getElem?_eq_some_iff.1 h
  have hc := sorted_counts hs hi
  rw [he] at hc
  have g1 : ∀ t, geCount t L = geCount t l := fun t => hp.countP_eq _
  have g2 : ∀ t, leCount t L = leCount t l := fun t => hp.countP_eq _
  rw [g1, g2, hl] at hc
  refine ⟨hp.mem_iff.1 (he ▸ List.getElem_mem hi), hc.1, hc.2.1, ?_⟩
  intro t ht
  by_contra hlt
  have := hc.2.2 t (by omega)
  rw [g1] at this
  have hpos : 0 < l.length := by omega
  omega

theorem history_take {c s} : ∀ (n m id : Nat), n ≤ m → history c s n id = (history c s m id).take n := by
  intro n
  induction n with
  | zero => intro m id _; simp [history]
  | succ n ih =>
    intro m id hm
    obtain ⟨m, rfl⟩ : ∃ k, m = k + 1 := ⟨m - 1, by omega⟩
    simp only [history]
    cases getGen c s id with
    | none => rfl
    | some g =>
      cases g with
      | genesis => simp
      | block b => simp only [List.take_succ_cons]; rw [ih m b.prev (by omega)]

theorem history_length {c s} : ∀ (n id : Nat), (history c s n id).length ≤ n := by
  intro n
  induction n with
  | zero => intro id; simp [history]
  | succ n ih =>
    intro id
    simp only [history]
    cases getGen c s id with
    | none => simp
    | some g =>
      cases g with
      | genesis => simp
      | block b => simp only [List.length_cons]; have := ih b.prev; omega

theorem history_ne_nil {c s id} (h : Known c s id) (n : Nat) : history c s (n+1) id ≠ [] := by
  obtain ⟨g, hg⟩ := known_iff.1 h
  simp only [history, hg]
  cases g <;> simp

theorem median_exists {c s id} (h : Known c s id) : ∃ m, medianTimePast c s id = .ok m :=
  medianOf_ok (by simpa using history_ne_nil h 10)

/-- the window moves by one block whose time is at least the median: the median does not decrease -/
theorem median_step {l : List Nat} {y m m' : Nat} (hl : l.length ≤ 11) (hm : medianOf l = .ok m) (hy : m ≤ y)
    (hm' : medianOf (y :: l.take 10) = .ok m') : m ≤ m' := by
  obtain ⟨-, h1, -, -⟩ := medianOf_facts hm
  obtain ⟨-, -, -, h2⟩ := medianOf_facts hm'
  apply h2
  have e : geCount m (y :: l.take 10) = geCount m (l.take 10) + 1 := by
    simp [geCount, hy]
  rw [e, List.length_cons]
  by_cases hn : l.length ≤ 10
  · rw [List.take_of_length_le hn]; omega
  · have hn : l.length = 11 := by omega
    have e2 : geCount m l = geCount m (l.take 10) + geCount m (l.drop 10) := by
      simp only [geCount]; rw [← List.countP_append, List.take_append_drop]
    have e3 : geCount m (l.drop 10) ≤ (l.drop 10).length := List.countP_le_length
    rw [List.length_drop] at e3
    rw [List.length_take, hn]
    rw [hn] at h1 e3
    omega

theorem median_parent {c s} (hi : Inv c s) {id b m m'} (hb : s.get id = some b) (hm : medianTimePast c s b.prev = .ok m)
    (h2 : m ≤ b.timestamp) (hm' : medianTimePast c s id = .ok m') : m ≤ m' := by
  have hg := hi id b hb
  unfold medianTimePast at hm hm'
  have e : history c s 11 id = .block b :: (history c s 11 b.prev).take 10 := by
    rw [← history_take 10 11 b.prev (by omega)]
    simp only [history, getGen_block hg.not_genesis hb]
  rw [e, List.map_cons, List.map_take] at hm'
  refine median_step ?_ hm h2 hm'
  rw [List.length_map]; exact history_length 11 _

theorem median_up {c s ck} (hi : Inv c s) (hck : CheckedInv c s ck) {a k b} (h : Up c s a k b) : (a = c.genesisId ∨ a ∈ ck) →
    ∀ {m m'}, medianTimePast c s a = .ok m → medianTimePast c s b = .ok m' → m' ≤ m := by
  induction h with
  | here _ => intro _ m m' h1 h2; rw [h1] at h2; cases h2; exact le_refl _
  | @step a b k i h1 h2 h3 ih =>
    intro ha m m' e1 e2
    have hg := hi _ _ h2
    obtain ⟨b', q1, q2, m0, hm0, q3⟩ := hck a (ha.resolve_left h1)
    rw [h2] at q1; cases q1
    have := median_parent hi h2 hm0 q3 e1
    rw [hg.prev_eq] at hm0
    exact le_trans (ih q2 hm0 e2) this

end Verif.BlockTree
