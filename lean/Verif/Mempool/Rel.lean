import Verif.Mempool.Spec
import Mathlib.Algebra.Order.BigOperators.Group.Finset
import Mathlib.Algebra.BigOperators.Pi
import Mathlib.Tactic.Abel

/-!
How reachability and totals change when a leaf or a root is added to a graph, and how the store's update
loops act pointwise.
-/

namespace Verif.Mempool

open Verif (BMap okOr ensure bind_eq_ok)
open Relation (ReflTransGen)

/-! ## Relations -/

/-- `E'` is `E` with one more node `n`, which has only incoming arrows (from `P`) -/
structure LeafExt (E E' : Nat → Nat → Prop) (n : Nat) (P : Nat → Prop) : Prop where
  iff : ∀ a b, E' a b ↔ E a b ∨ (b = n ∧ P a)
  old : ∀ a b, E a b → a ≠ n ∧ b ≠ n
  par : ∀ a, P a → a ≠ n

namespace LeafExt

variable {E E' : Nat → Nat → Prop} {n : Nat} {P : Nat → Prop} (h : LeafExt E E' n P)

include h

theorem no_out (b : Nat) : ¬ E' n b := by
  intro hb
  rcases (h.iff n b).1 hb with h1 | ⟨-, h1⟩
  · exact (h.old _ _ h1).1 rfl
  · exact h.par _ h1 rfl

theorem reach_leaf {b : Nat} : ReflTransGen E' n b ↔ b = n := by
  constructor
  · intro hb
    rcases Relation.ReflTransGen.cases_head hb with rfl | ⟨c, hc, -⟩
    · rfl
    · exact absurd hc (h.no_out c)
  · rintro rfl; exact .refl

theorem reach_old {a b : Nat} (hb : b ≠ n) : ReflTransGen E' a b ↔ ReflTransGen E a b := by
  constructor
  · intro hab
    induction hab with
    | refl => exact .refl
    | @tail c d hac hcd ih =>
      rcases (h.iff c d).1 hcd with h1 | ⟨h1, -⟩
      · exact (ih (h.old _ _ h1).1).tail h1
      · exact absurd h1 hb
  · intro hab
    exact Relation.ReflTransGen.mono (fun x y hxy => (h.iff x y).2 (Or.inl hxy)) _ _ hab

theorem reach_new {a : Nat} (ha : a ≠ n) : ReflTransGen E' a n ↔ ∃ p, P p ∧ ReflTransGen E a p := by
  constructor
  · intro hab
    rcases Relation.ReflTransGen.cases_tail hab with h1 | ⟨c, hac, hcn⟩
    · exact absurd h1.symm ha
    · rcases (h.iff c n).1 hcn with h1 | ⟨-, h1⟩
      · exact absurd rfl (h.old _ _ h1).2
      · exact ⟨c, h1, (h.reach_old (h.par _ h1)).1 hac⟩
  · rintro ⟨p, hp, hap⟩
    exact ((h.reach_old (h.par _ hp)).2 hap).tail ((h.iff p n).2 (Or.inr ⟨rfl, hp⟩))

end LeafExt

theorem reach_flip {E : Nat → Nat → Prop} {a b : Nat} :
    ReflTransGen (fun x y => E y x) a b ↔ ReflTransGen E b a := Relation.reflTransGen_swap

/-! ## Totals -/

theorem total_congr {v : Pool} {ids : Finset Nat} {P Q : Nat → Prop} (h : ∀ k ∈ ids, P k ↔ Q k) :
    total v ids P = total v ids Q := by
  unfold total
  apply Finset.sum_congr rfl
  intro k hk
  by_cases hp : P k
  · rw [if_pos hp, if_pos ((h k hk).1 hp)]
  · rw [if_neg hp, if_neg (fun hq => hp ((h k hk).2 hq))]

theorem total_congr_pool {v v' : Pool} {ids : Finset Nat} {P : Nat → Prop} (h : ∀ k ∈ ids, v k = v' k) :
    total v ids P = total v' ids P := by
  unfold total weightAt
  apply Finset.sum_congr rfl
  intro k hk
  rw [h k hk]

theorem total_insert_pos {v v' : Pool} {ids : Finset Nat} {n : Nat} {t : Tx} {P : Nat → Prop} (hn : n ∉ ids)
    (hv : v' n = some t) (hold : ∀ k ∈ ids, v' k = v k) (hP : P n) :
    total v' (insert n ids) P = weight t + total v ids P := by
  unfold total
  rw [Finset.sum_insert hn, if_pos hP]
  congr 1
  · simp [weightAt, hv]
  · apply Finset.sum_congr rfl
    intro k hk
    simp only [weightAt, hold k hk]

theorem total_insert_neg {v v' : Pool} {ids : Finset Nat} {n : Nat} {P : Nat → Prop} (hn : n ∉ ids)
    (hold : ∀ k ∈ ids, v' k = v k) (hP : ¬ P n) :
    total v' (insert n ids) P = total v ids P := by
  unfold total
  rw [Finset.sum_insert hn, if_neg hP, zero_add]
  apply Finset.sum_congr rfl
  intro k hk
  simp only [weightAt, hold k hk]

theorem total_fee (v : Pool) (ids : Finset Nat) (P : Nat → Prop) [DecidablePred P] :
    (total v ids P).2.1 = ∑ k ∈ ids, if P k then (weightAt v k).2.1 else 0 := by
  unfold total
  rw [Prod.snd_sum, Prod.fst_sum]
  apply Finset.sum_congr rfl
  intro k _
  by_cases h : P k <;> simp [h]

theorem total_size (v : Pool) (ids : Finset Nat) (P : Nat → Prop) [DecidablePred P] :
    (total v ids P).2.2 = ∑ k ∈ ids, if P k then (weightAt v k).2.2 else 0 := by
  unfold total
  rw [Prod.snd_sum, Prod.snd_sum]
  apply Finset.sum_congr rfl
  intro k _
  by_cases h : P k <;> simp [h]

theorem total_count (v : Pool) (ids : Finset Nat) (P : Nat → Prop) [DecidablePred P] :
    (total v ids P).1 = ∑ k ∈ ids, if P k then (weightAt v k).1 else 0 := by
  unfold total
  rw [Prod.fst_sum]
  apply Finset.sum_congr rfl
  intro k _
  by_cases h : P k <;> simp [h]

theorem total_fee_le (v : Pool) (ids : Finset Nat) (P : Nat → Prop) :
    (total v ids P).2.1 ≤ (total v ids (fun _ => True)).2.1 := by
  classical
  rw [total_fee, total_fee]
  apply Finset.sum_le_sum
  intro k _
  by_cases h : P k <;> simp [h]

theorem fee_le_total {v : Pool} {ids : Finset Nat} {P : Nat → Prop} {k : Nat} {t : Tx} (hk : k ∈ ids)
    (hv : v k = some t) (hP : P k) : t.fee ≤ (total v ids P).2.1 := by
  classical
  rw [total_fee]
  have := Finset.single_le_sum (f := fun k => if P k then (weightAt v k).2.1 else 0) (s := ids)
    (fun i _ => Nat.zero_le _) hk
  simpa [hP, weightAt, hv, weight] using this

theorem size_le_total {v : Pool} {ids : Finset Nat} {P : Nat → Prop} {k : Nat} {t : Tx} (hk : k ∈ ids)
    (hv : v k = some t) (hP : P k) : t.size ≤ (total v ids P).2.2 := by
  classical
  rw [total_size]
  have := Finset.single_le_sum (f := fun k => if P k then (weightAt v k).2.2 else 0) (s := ids)
    (fun i _ => Nat.zero_le _) hk
  simpa [hP, weightAt, hv, weight] using this

/-- a list without repetition that enumerates a part of the ids -/
theorem total_list {v : Pool} {ids : Finset Nat} {P : Nat → Prop} {l : List Nat} (hn : l.Nodup)
    (hm : ∀ k, k ∈ l ↔ k ∈ ids ∧ P k) : total v ids P = (l.map (weightAt v)).sum := by
  classical
  unfold total
  rw [← Finset.sum_filter, ← List.sum_toFinset _ hn]
  apply Finset.sum_congr _ (fun _ _ => rfl)
  ext k
  simp only [Finset.mem_filter, List.mem_toFinset, hm k]

/-! ## Loops over entries -/

theorem modAll_spec (f : Entry → Entry) : ∀ (l : List Nat) (m : BMap Nat Entry), l.Nodup →
    (∀ k ∈ l, ∃ e, m.get k = some e) →
    ∃ m', modAll f l m = .ok m' ∧ ∀ k, m'.get k = if k ∈ l then (m.get k).map f else m.get k := by
  intro l
  induction l with
  | nil => intro m _ _; exact ⟨m, rfl, by simp⟩
  | cons a as ih =>
    intro m hn hm
    obtain ⟨hna, hnas⟩ := List.nodup_cons.1 hn
    obtain ⟨e, he⟩ := hm a (by simp)
    simp only [modAll, he]
    obtain ⟨m', h1, h2⟩ := ih (m.insert a (f e)) hnas (by
      intro k hk
      rw [BMap.get_insert]
      split
      · exact ⟨_, rfl⟩
      · exact hm k (by simp [hk]))
    refine ⟨m', h1, fun k => ?_⟩
    rw [h2 k, BMap.get_insert]
    by_cases hka : k = a
    · subst hka
      simp [hna, he]
    · by_cases hkas : k ∈ as <;> simp [hka, hkas]

theorem Exact.replace {idx : Idx} {f : Nat → Option Nat} (h : Exact idx f) {k old new : Nat}
    (hk : f k = some old) : Exact (idx.replace k old new) (fun j => if j = k then some new else f j) := by
  intro q j
  unfold Idx.replace
  by_cases hne : new ≠ old
  · rw [if_pos hne, BMap.get_insert, BMap.get_erase]
    by_cases hj : j = k
    · subst hj
      simp only [if_true]
      by_cases hq : q = new
      · subst hq; simp
      · have h1 : toLex (q, j) ≠ toLex (new, j) := by
          intro e; have := congrArg (fun p => (ofLex p).1) e; exact hq this
        rw [if_neg h1]
        by_cases hq' : q = old
        · subst hq'; simp [Ne.symm hq]
        · have h2 : toLex (q, j) ≠ toLex (old, j) := by
            intro e; have := congrArg (fun p => (ofLex p).1) e; exact hq' this
          rw [if_neg h2, h q j, hk]
          simp [Ne.symm hq, Ne.symm hq']
    · have h1 : toLex (q, j) ≠ toLex (new, k) := by
        intro e; have := congrArg (fun p => (ofLex p).2) e; exact hj this
      have h2 : toLex (q, j) ≠ toLex (old, k) := by
        intro e; have := congrArg (fun p => (ofLex p).2) e; exact hj this
      simp only [if_neg h1, if_neg h2, if_neg hj]
      exact h q j
  · rw [if_neg hne]
    have : new = old := by simpa using hne
    subst this
    rw [h q j]
    by_cases hj : j = k
    · subst hj; simp [hk]
    · simp [hj]

theorem Exact.insert {idx : Idx} {f : Nat → Option Nat} (h : Exact idx f) {k q : Nat} (hk : f k = none) :
    Exact (BMap.insert idx (toLex (q, k)) ()) (fun j => if j = k then some q else f j) := by
  intro q' j
  rw [BMap.get_insert]
  by_cases hj : j = k
  · subst hj
    simp only [if_true]
    by_cases hq : q' = q
    · subst hq; simp
    · have h1 : toLex (q', j) ≠ toLex (q, j) := by
        intro e; have := congrArg (fun p => (ofLex p).1) e; exact hq this
      rw [if_neg h1, h q' j, hk]
      simp [Ne.symm hq]
  · have h1 : toLex (q', j) ≠ toLex (q, k) := by
      intro e; have := congrArg (fun p => (ofLex p).2) e; exact hj this
    simp only [if_neg h1, if_neg hj]
    exact h q' j

theorem Exact.erase {idx : Idx} {f : Nat → Option Nat} (h : Exact idx f) {k q : Nat} (hk : f k = some q) :
    Exact (BMap.erase idx (toLex (q, k))) (fun j => if j = k then none else f j) := by
  intro q' j
  rw [BMap.get_erase]
  by_cases hj : j = k
  · subst hj
    simp only [if_true]
    by_cases hq : q' = q
    · subst hq; simp
    · have h1 : toLex (q', j) ≠ toLex (q, j) := by
        intro e; have := congrArg (fun p => (ofLex p).1) e; exact hq this
      rw [if_neg h1, h q' j, hk]
      simp [Ne.symm hq]
  · have h1 : toLex (q', j) ≠ toLex (q, k) := by
      intro e; have := congrArg (fun p => (ofLex p).2) e; exact hj this
    simp only [if_neg h1, if_neg hj]
    exact h q' j

theorem Exact.congr {idx : Idx} {f g : Nat → Option Nat} (h : Exact idx f) (e : ∀ k, f k = g k) : Exact idx g := by
  intro q k; rw [h q k, e k]

theorem modScored_spec {score : Entry → Except Err Nat} {f : Entry → Except Err Entry} (g : Entry → Entry)
    (sc : Entry → Nat) : ∀ (l : List Nat) (m : BMap Nat Entry) (idx : Idx) (F : Nat → Option Nat), l.Nodup →
    (∀ k ∈ l, ∃ e, m.get k = some e ∧ f e = .ok (g e) ∧ score e = .ok (sc e) ∧ score (g e) = .ok (sc (g e)) ∧
      F k = some (sc e)) →
    Exact idx F →
    ∃ m' idx', modScored score f l (m, idx) = .ok (m', idx') ∧
      (∀ k, m'.get k = if k ∈ l then (m.get k).map g else m.get k) ∧
      Exact idx' (fun k => if k ∈ l then (m.get k).map (fun e => sc (g e)) else F k) := by
  intro l
  induction l with
  | nil => intro m idx F _ _ h; exact ⟨m, idx, rfl, by simp, h.congr (by simp)⟩
  | cons a as ih =>
    intro m idx F hn hm hex
    obtain ⟨hna, hnas⟩ := List.nodup_cons.1 hn
    obtain ⟨e, he, hf, hs, hs', hF⟩ := hm a (by simp)
    simp only [modScored, he, hs, hf, hs', bind, Except.bind]
    obtain ⟨m', idx', h1, h2, h3⟩ := ih (m.insert a (g e)) (idx.replace a (sc e) (sc (g e)))
      (fun j => if j = a then some (sc (g e)) else F j) hnas (by
        intro k hk
        have hka : k ≠ a := by rintro rfl; exact hna hk
        obtain ⟨e', g1, g2, g3, g4, g5⟩ := hm k (by simp [hk])
        exact ⟨e', by rw [BMap.get_insert, if_neg hka]; exact g1, g2, g3, g4, by rw [if_neg hka]; exact g5⟩)
      (hex.replace hF)
    refine ⟨m', idx', h1, fun k => ?_, h3.congr (fun k => ?_)⟩
    · rw [h2 k, BMap.get_insert]
      by_cases hka : k = a
      · subst hka; simp [hna, he]
      · by_cases hkas : k ∈ as <;> simp [hka, hkas]
    · rw [BMap.get_insert]
      by_cases hka : k = a
      · subst hka; simp [hna, he]
      · by_cases hkas : k ∈ as <;> simp [hka, hkas]

/-! ## Scores -/

/-- the descendant score as a number -/
def Entry.descN (e : Entry) : Nat := max (e.feesD * 1000 / e.sizeD) (e.tx.fee * 1000 / e.tx.size)
/-- the ancestor score as a number -/
def Entry.ancN (e : Entry) : Nat := min (e.feesA * 1000 / e.sizeA) (e.tx.fee * 1000 / e.tx.size)

theorem rate_ok {fee size : Nat} (h : fee * 1000 < U128) : rate fee size = .ok (fee * 1000 / size) := by
  unfold rate
  have : Verif.FeeRate.fromTotal fee size = .ok (fee * 1000 / size) := by
    unfold Verif.FeeRate.fromTotal Amt.mul
    rw [if_pos h]; rfl
  rw [this]

theorem descScore_ok {e : Entry} (h1 : e.feesD * 1000 < U128) (h2 : e.tx.fee * 1000 < U128) :
    e.descScore = .ok e.descN := by
  unfold Entry.descScore
  rw [rate_ok h1, rate_ok h2]; rfl

theorem ancScore_ok {e : Entry} (h1 : e.feesA * 1000 < U128) (h2 : e.tx.fee * 1000 < U128) :
    e.ancScore = .ok e.ancN := by
  unfold Entry.ancScore
  rw [rate_ok h1, rate_ok h2]; rfl

/-! ## Dependency maps -/

theorem extend_get (id : Nat) (l : List Dep) : ∀ (m : BMap Dep Nat) (d : Dep),
    (extend m id l).get d = if d ∈ l then some id else m.get d := by
  unfold extend
  induction l with
  | nil => intro m d; simp
  | cons a as ih =>
    intro m d
    rw [List.foldl_cons, ih, BMap.get_insert]
    by_cases h1 : d ∈ as
    · simp [h1]
    · by_cases h2 : d = a <;> simp [h1, h2]

theorem retract_spec (id : Nat) : ∀ (l : List Dep) (m : BMap Dep Nat), l.Nodup →
    (∀ d ∈ l, m.get d = some id) →
    ∃ m', retract id l m = .ok m' ∧ ∀ d, m'.get d = if d ∈ l then none else m.get d := by
  intro l
  induction l with
  | nil => intro m _ _; exact ⟨m, rfl, by simp⟩
  | cons a as ih =>
    intro m hn hm
    obtain ⟨hna, hnas⟩ := List.nodup_cons.1 hn
    simp only [retract]
    rw [if_pos (hm a (by simp))]
    obtain ⟨m', h1, h2⟩ := ih (m.erase a) hnas (by
      intro d hd
      have : d ≠ a := by rintro rfl; exact hna hd
      rw [BMap.get_erase, if_neg this]
      exact hm d (by simp [hd]))
    refine ⟨m', h1, fun d => ?_⟩
    rw [h2 d, BMap.get_erase]
    by_cases h3 : d ∈ as
    · simp [h3]
    · by_cases h4 : d = a <;> simp [h3, h4]

end Verif.Mempool
