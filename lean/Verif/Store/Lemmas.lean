import Verif.Store.Spec

/-!
# Iterators of storage: lexicographic order and merging
-/

namespace Verif.Store
open Verif Verif.Codec

variable {V : Type}

theorem prefix_le {p k : Data} (h : p <+: k) : p ≤ k := by
  obtain ⟨t, rfl⟩ := h
  rw [← not_lt]
  induction p with
  | nil => exact List.not_lt_nil _
  | cons a p ih =>
    intro h
    rw [List.cons_append, List.cons_lt_cons_iff] at h
    rcases h with h | ⟨-, h⟩
    · exact lt_irrefl _ h
    · exact ih h

/-- keys between a prefix and a key with the prefix have the prefix -/
theorem prefix_between {p k k' : Data} (h1 : p ≤ k) (h2 : k ≤ k') (h3 : p <+: k') : p <+: k := by
  obtain ⟨t, rfl⟩ := h3
  rw [← not_lt] at h1 h2
  induction p generalizing k with
  | nil => exact List.nil_prefix
  | cons a p ih =>
    cases k with
    | nil => exact absurd (List.nil_lt_cons _ _) h1
    | cons b k =>
      rw [List.cons_lt_cons_iff] at h1
      rw [List.cons_append, List.cons_lt_cons_iff] at h2
      have hab : a = b := by
        rcases lt_trichotomy a b with h | h | h
        · exact absurd (Or.inl h) h2
        · exact h
        · exact absurd (Or.inl h) h1
      subst hab
      have := ih (k := k) (fun h => h1 (Or.inr ⟨rfl, h⟩)) (fun h => h2 (Or.inr ⟨rfl, h⟩))
      exact List.prefix_cons_inj a |>.2 this

theorem rangeFrom_lists (m : BMap Data V) (key : Data) : Lists (rangeFrom m key) m.get (key ≤ ·) := by
  refine ⟨m.sorted.filter _, fun k v => ?_⟩
  simp only [rangeFrom, List.mem_filter, decide_eq_true_eq, BMap.mem_entries]

/-- the polls stop for good -/
theorem polls_stop {l : List (Data × V)} {pre : Data} (hs : l.Pairwise (fun a b => a.1 < b.1))
    (hp : ∀ e ∈ l, pre ≤ e.1) :
    untilNone (l.map fun e => if pre.isPrefixOf e.1 then some e else none) = l.filter fun e => pre.isPrefixOf e.1 := by
  induction l with
  | nil => rfl
  | cons e l ih =>
    rw [List.pairwise_cons] at hs
    by_cases h : pre.isPrefixOf e.1 = true
    · rw [List.map_cons, if_pos h, List.filter_cons, if_pos h]
      simp only [untilNone]
      rw [ih hs.2 fun e he => hp e (List.mem_cons_of_mem _ he)]
    · rw [List.map_cons, if_neg h, List.filter_cons, if_neg h]
      simp only [untilNone]
      symm
      rw [List.filter_eq_nil_iff]
      intro e' he' hc
      exact h (List.isPrefixOf_iff_prefix.2 (prefix_between (hp e (by simp)) (hs.1 e' he').le
        (List.isPrefixOf_iff_prefix.1 hc)))

theorem prefixIter_lists (m : BMap Data V) (pre : Data) : Lists (prefixIter m pre) m.get (pre <+: ·) := by
  obtain ⟨h1, h2⟩ := rangeFrom_lists m pre
  have : prefixIter m pre = (rangeFrom m pre).filter fun e => pre.isPrefixOf e.1 :=
    polls_stop h1 fun e he => ((h2 e.1 e.2).1 he).2
  rw [this]
  refine ⟨h1.filter _, fun k v => ?_⟩
  rw [List.mem_filter, h2, List.isPrefixOf_iff_prefix]
  exact ⟨fun h => ⟨h.1.1, h.2⟩, fun h => ⟨⟨h.1, prefix_le h.2⟩, h.2⟩⟩

/-- a changed entry as it is presented -/
def pr (b : Data × Option Data) : Option (Data × Data) := b.2.map fun v => (b.1, v)

theorem mi_nil (r : List (Data × Option Data)) : mergeIterators [] r = r.filterMap pr := by
  unfold mergeIterators mergeJoin
  rw [List.filterMap_map]
  rfl

theorem mi_cons_nil (a : Data × Data) (l : List (Data × Data)) :
    mergeIterators (a :: l) [] = a :: mergeIterators l [] := by
  simp [mergeIterators, mergeJoin, joinGo, present]

theorem mi_cons_cons (a : Data × Data) (l : List (Data × Data)) (b : Data × Option Data)
    (r : List (Data × Option Data)) :
    mergeIterators (a :: l) (b :: r) = if a.1 < b.1 then a :: mergeIterators l (b :: r)
      else if a.1 = b.1 then (pr b).toList ++ mergeIterators l r
      else (pr b).toList ++ mergeIterators (a :: l) r := by
  have key : ∀ (j : Joined) (f : List Joined), present j = pr b →
      (j :: f).filterMap present = (pr b).toList ++ f.filterMap present := by
    intro j f h
    rw [List.filterMap_cons, h]
    cases pr b <;> rfl
  unfold mergeIterators
  simp only [mergeJoin, joinGo]
  split
  · simp [present]
  · split
    · exact key _ _ rfl
    · exact key _ _ rfl

theorem mem_pr {b : Data × Option Data} {e : Data × Data} : e ∈ (pr b).toList ↔ b = (e.1, some e.2) := by
  obtain ⟨k, o⟩ := b
  obtain ⟨k', v⟩ := e
  cases o <;> simp [pr, eq_comm]

/-- keys come from one of the sides -/
theorem mi_key {l : List (Data × Data)} {r : List (Data × Option Data)} {e : Data × Data}
    (h : e ∈ mergeIterators l r) : e ∈ l ∨ (e.1, some e.2) ∈ r := by
  induction l generalizing r with
  | nil =>
    rw [mi_nil, List.mem_filterMap] at h
    obtain ⟨b, hb, hp⟩ := h
    right
    have : e ∈ (pr b).toList := by rw [hp]; simp
    rw [mem_pr] at this
    rw [← this]; exact hb
  | cons a l ih =>
    induction r with
    | nil =>
      rw [mi_cons_nil] at h
      rcases List.mem_cons.1 h with rfl | h
      · left; simp
      · rcases ih h with h | h
        · left; exact List.mem_cons_of_mem _ h
        · cases h
    | cons b r ihr =>
      rw [mi_cons_cons] at h
      split at h
      · rcases List.mem_cons.1 h with rfl | h
        · left; simp
        · rcases ih h with h | h
          · left; exact List.mem_cons_of_mem _ h
          · right; exact h
      · split at h
        · rcases List.mem_append.1 h with h | h
          · right; rw [mem_pr] at h; rw [h]; simp
          · rcases ih h with h | h
            · left; exact List.mem_cons_of_mem _ h
            · right; exact List.mem_cons_of_mem _ h
        · rcases List.mem_append.1 h with h | h
          · right; rw [mem_pr] at h; rw [h]; simp
          · rcases ihr h with h | h
            · left; exact h
            · right; exact List.mem_cons_of_mem _ h

/-- lower bounds of both sides are lower bounds of the result -/
theorem mi_lower {l : List (Data × Data)} {r : List (Data × Option Data)} {k : Data} (hl : ∀ e ∈ l, k < e.1)
    (hr : ∀ e ∈ r, k < e.1) : ∀ e ∈ mergeIterators l r, k < e.1 := by
  intro e he
  rcases mi_key he with h | h
  · exact hl e h
  · exact hr _ h

theorem pr_sorted {b : Data × Option Data} {m : List (Data × Data)} (hm : m.Pairwise (fun a b => a.1 < b.1))
    (hb : ∀ e ∈ m, b.1 < e.1) : ((pr b).toList ++ m).Pairwise (fun a b => a.1 < b.1) := by
  obtain ⟨k, o⟩ := b
  cases o with
  | none => exact hm
  | some v => exact List.pairwise_cons.2 ⟨hb, hm⟩

theorem mi_sorted {l : List (Data × Data)} {r : List (Data × Option Data)} (hl : l.Pairwise (fun a b => a.1 < b.1))
    (hr : r.Pairwise (fun a b => a.1 < b.1)) : (mergeIterators l r).Pairwise (fun a b => a.1 < b.1) := by
  induction l generalizing r with
  | nil =>
    induction r with
    | nil => rw [mi_nil]; exact List.Pairwise.nil
    | cons b r ih =>
      rw [List.pairwise_cons] at hr
      have e : mergeIterators [] (b :: r) = (pr b).toList ++ mergeIterators [] r := by
        rw [mi_nil, mi_nil, List.filterMap_cons]
        cases pr b <;> rfl
      rw [e]
      exact pr_sorted (ih hr.2) (mi_lower (fun _ h => by cases h) hr.1)
  | cons a l ih =>
    rw [List.pairwise_cons] at hl
    induction r with
    | nil =>
      rw [mi_cons_nil]
      exact List.pairwise_cons.2 ⟨mi_lower hl.1 (fun _ h => by cases h), ih hl.2 List.Pairwise.nil⟩
    | cons b r ihr =>
      have hr' := hr
      rw [List.pairwise_cons] at hr
      rw [mi_cons_cons]
      split
      · rename_i hab
        refine List.pairwise_cons.2 ⟨mi_lower hl.1 ?_, ih hl.2 hr'⟩
        intro e he
        rcases List.mem_cons.1 he with rfl | he
        · exact hab
        · exact lt_trans hab (hr.1 e he)
      · split
        · rename_i hab
          exact pr_sorted (ih hl.2 hr.2) (mi_lower (fun e he => hab ▸ hl.1 e he) hr.1)
        · rename_i h1 h2
          have hba : b.1 < a.1 := lt_of_le_of_ne (not_lt.1 h1) (fun h => h2 h.symm)
          refine pr_sorted (ihr hr.2) (mi_lower ?_ hr.1)
          intro e he
          rcases List.mem_cons.1 he with rfl | he
          · exact hba
          · exact lt_trans hba (hl.1 e he)

theorem mi_mem {l : List (Data × Data)} {r : List (Data × Option Data)} (hl : l.Pairwise (fun a b => a.1 < b.1))
    (hr : r.Pairwise (fun a b => a.1 < b.1)) (k v : Data) :
    (k, v) ∈ mergeIterators l r ↔ (k, some v) ∈ r ∨ ((∀ o, (k, o) ∉ r) ∧ (k, v) ∈ l) := by
  induction l generalizing r with
  | nil =>
    constructor
    · intro h
      rcases mi_key h with h | h
      · cases h
      · exact .inl h
    · rintro (h | ⟨-, h⟩)
      · rw [mi_nil, List.mem_filterMap]
        exact ⟨_, h, rfl⟩
      · cases h
  | cons a l ih =>
    rw [List.pairwise_cons] at hl
    induction r with
    | nil =>
      rw [mi_cons_nil, List.mem_cons, ih hl.2 List.Pairwise.nil]
      simp
    | cons b r ihr =>
      have hr' := hr
      rw [List.pairwise_cons] at hr
      rw [mi_cons_cons]
      split
      · rename_i hab
        rw [List.mem_cons, ih hl.2 hr']
        constructor
        · rintro (h | h | h)
          · right
            refine ⟨fun o ho => ?_, h ▸ List.mem_cons_self ..⟩
            have hk : k = a.1 := congrArg Prod.fst h
            rcases List.mem_cons.1 ho with e | e
            · rw [← e] at hab
              simp only at hab
              rw [hk] at hab
              exact lt_irrefl _ hab
            · have := lt_trans hab (hr.1 _ e)
              simp only at this
              rw [hk] at this
              exact lt_irrefl _ this
          · exact .inl h
          · exact .inr ⟨h.1, List.mem_cons_of_mem _ h.2⟩
        · rintro (h | ⟨h1, h2⟩)
          · exact .inr (.inl h)
          · rcases List.mem_cons.1 h2 with h | h
            · exact .inl h
            · exact .inr (.inr ⟨h1, h⟩)
      · split
        · rename_i h1 hab
          rw [List.mem_append, mem_pr, ih hl.2 hr.2]
          constructor
          · rintro (h | h | ⟨h, h'⟩)
            · exact .inl (by rw [h]; simp)
            · exact .inl (List.mem_cons_of_mem _ h)
            · refine .inr ⟨fun o ho => ?_, List.mem_cons_of_mem _ h'⟩
              rcases List.mem_cons.1 ho with e | e
              · have := hl.1 _ h'
                rw [hab, ← e] at this
                exact lt_irrefl _ this
              · exact h o e
          · rintro (h | ⟨h, h'⟩)
            · rcases List.mem_cons.1 h with h | h
              · exact .inl h.symm
              · exact .inr (.inl h)
            · refine .inr (.inr ⟨fun o ho => h o (List.mem_cons_of_mem _ ho), ?_⟩)
              rcases List.mem_cons.1 h' with e | e
              · exfalso
                have hk : k = b.1 := by rw [← hab, ← e]
                exact h b.2 (by rw [hk]; simp)
              · exact e
        · rename_i h1 h2
          have hba : b.1 < a.1 := lt_of_le_of_ne (not_lt.1 h1) (fun h => h2 h.symm)
          rw [List.mem_append, mem_pr, ihr hr.2]
          constructor
          · rintro (h | h | ⟨h, h'⟩)
            · exact .inl (by rw [h]; simp)
            · exact .inl (List.mem_cons_of_mem _ h)
            · refine .inr ⟨fun o ho => ?_, h'⟩
              rcases List.mem_cons.1 ho with e | e
              · have hkb : k = b.1 := congrArg Prod.fst e
                rcases List.mem_cons.1 h' with e' | e'
                · rw [← e', hkb] at hba
                  exact lt_irrefl _ hba
                · have := lt_trans hba (hl.1 _ e')
                  simp only at this
                  rw [hkb] at this
                  exact lt_irrefl _ this
              · exact h o e
          · rintro (h | ⟨h, h'⟩)
            · rcases List.mem_cons.1 h with h | h
              · exact .inl h.symm
              · exact .inr (.inl h)
            · exact .inr (.inr ⟨fun o ho => h o (List.mem_cons_of_mem _ ho), h'⟩)

/-- merging two listings lists the overlaid map -/
theorem mergeIterators_lists {l : List (Data × Data)} {r : List (Data × Option Data)} {f : Data → Option Data}
    {g : Data → Option (Option Data)} {p : Data → Prop} (hl : Lists l f p) (hr : Lists r g p) :
    Lists (mergeIterators l r) (fun k => match g k with | none => f k | some x => x) p := by
  refine ⟨mi_sorted hl.1 hr.1, fun k v => ?_⟩
  rw [mi_mem hl.1 hr.1, hr.2, hl.2]
  dsimp only
  constructor
  · rintro (⟨h, hp⟩ | ⟨h, h', hp⟩)
    · exact ⟨by rw [h], hp⟩
    · refine ⟨?_, hp⟩
      cases hg : g k with
      | none => exact h'
      | some o => exact absurd ((hr.2 k o).2 ⟨hg, hp⟩) (h o)
  · rintro ⟨h, hp⟩
    cases hg : g k with
    | none =>
      rw [hg] at h
      refine .inr ⟨fun o ho => ?_, h, hp⟩
      rw [((hr.2 k o).1 ho).1] at hg
      cases hg
    | some o =>
      rw [hg] at h
      simp only at h
      subst h
      exact .inl ⟨rfl, hp⟩

end Verif.Store
