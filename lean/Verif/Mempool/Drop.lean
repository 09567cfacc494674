import Verif.Mempool.Remove

namespace Verif.Mempool

open Verif (BMap okOr ensure bind_eq_ok)
open Relation (ReflTransGen)

/-- a pool with some transactions taken out -/
def without (v : Pool) (P : Nat → Prop) [DecidablePred P] : Pool := fun k => if P k then none else v k

theorem edge_mono {v v' : Pool} (h : ∀ k t, v' k = some t → v k = some t) {a b : Nat} (hE : Edge v' a b) :
    Edge v a b := by
  obtain ⟨hne, ta, tb, ha, hb, hd⟩ := hE
  exact ⟨hne, ta, tb, h _ _ ha, h _ _ hb, hd⟩

/-! ## Removing a list, children first -/

theorem removeAll_spec {r : Reason} : ∀ (l : List Nat) (s : Store), Inv s → l.Nodup → (∀ x ∈ l, x ∈ s.ids) →
    (∀ pre x post, l = pre ++ x :: post → ∀ c, Edge s.view x c → c ∈ pre) →
    ∃ es s', removeAll r l s = .ok (es, s') ∧ Inv s' ∧ es.map (fun e => some e.tx) = l.map s.view ∧
      (∀ k, s'.view k = if k ∈ l then none else s.view k) ∧ s'.maxCount = s.maxCount ∧ s'.maxSize = s.maxSize ∧
      s'.nextSeq = s.nextSeq ∧ (∀ k, s'.seqOf.get k = if k ∈ l then none else s.seqOf.get k) := by
  intro l
  induction l with
  | nil => intro s h _ _ _; exact ⟨[], s, rfl, h, rfl, by simp, rfl, rfl, rfl, by simp⟩
  | cons x xs ih =>
    intro s h hn hmem hcf
    obtain ⟨hx, hxs⟩ := List.nodup_cons.1 hn
    obtain ⟨e, he⟩ := mem_ids.1 (hmem x (by simp))
    have hleaf : ∀ b, ¬ Edge s.view x b := fun b hb => by simpa using hcf [] x xs rfl b hb
    obtain ⟨s1, g1, g2, g3, g4, g5, g6, g7⟩ := h.removeTx_spec he (r := r) (Or.inl hleaf)
    have hsub : ∀ k t, s1.view k = some t → s.view k = some t := by
      intro k t hk
      rw [g3] at hk
      split at hk
      · simp at hk
      · exact hk
    obtain ⟨es, s2, f1, f2, f3, f4, f5, f6, f7, f8⟩ := ih s1 g2 hxs (by
        intro k hk
        obtain ⟨ek, hek⟩ := mem_ids.1 (hmem k (by simp [hk]))
        have hkx : k ≠ x := by rintro rfl; exact hx hk
        have : s1.view k = some ek.tx := by rw [g3, if_neg hkx]; exact view_some.2 ⟨ek, hek, rfl⟩
        obtain ⟨e', he', -⟩ := view_some.1 this
        exact mem_ids.2 ⟨e', he'⟩)
      (by
        intro pre y post hl c hc
        have h1 := hcf (x :: pre) y post (by rw [hl]; rfl) c (edge_mono hsub hc)
        rcases List.mem_cons.1 h1 with rfl | h1
        · exfalso
          obtain ⟨-, ta, tb, -, hb, -⟩ := hc
          rw [g3, if_pos rfl] at hb
          simp at hb
        · exact h1)
    refine ⟨e :: es, s2, ?_, f2, ?_, ?_, f5.trans g4, f6.trans g5, f7.trans g6, ?_⟩
    · simp only [removeAll, g1, f1, bind, Except.bind]
      rfl
    · rw [List.map_cons, List.map_cons, f3]
      congr 1
      · exact (view_some.2 ⟨e, he, rfl⟩).symm
      · apply List.map_congr_left
        intro k hk
        rw [g3, if_neg]
        rintro rfl; exact hx hk
    · intro k
      rw [f4, g3]
      by_cases h1 : k ∈ xs
      · simp [h1]
      · by_cases h2 : k = x <;> simp [h1, h2]
    · intro k
      rw [f8, g7]
      by_cases h1 : k ∈ xs
      · simp [h1]
      · by_cases h2 : k = x <;> simp [h1, h2]

/-! ## Descendants in order -/

theorem Inv.postorder_ok {s : Store} (h : Inv s) {n : Nat} {e : Entry} (he : s.byId.get n = some e) :
    ∃ out, postorderDescendants s.byId n e = .ok out ∧ out.Nodup ∧ (∀ x, x ∈ out ↔ Reach s.view n x) ∧
      (∀ pre x post, out = pre ++ x :: post → ∀ c, Edge s.view x c → c ∈ pre) := by
  have hstep : ∀ x y, StepRel (fun x => (s.byId.get x).map Entry.children) x y ↔ Edge s.view x y := by
    intro x y
    unfold StepRel
    constructor
    · rintro ⟨cs, hcs, hy⟩
      obtain ⟨ex, hex, rfl⟩ := Option.map_eq_some_iff.1 hcs
      exact ((h.children x ex hex).2 y).1 hy
    · intro hE
      obtain ⟨ex, hex⟩ := mem_ids.1 (edge_mem hE).1
      exact ⟨ex.children, by beta_reduce; rw [hex]; rfl, ((h.children x ex hex).2 y).2 hE⟩
  have hlen : ∀ x ex, s.byId.get x = some ex → ex.children.length ≤ s.ids.card := by
    intro x ex hex
    have h1 := (h.children x ex hex).1
    rw [← List.toFinset_card_of_nodup h1]
    apply Finset.card_le_card
    intro y hy
    exact (edge_mem (((h.children x ex hex).2 y).1 (List.mem_toFinset.1 hy))).2
  have hnids : n ∈ s.ids := mem_ids.2 ⟨e, he⟩
  have hcard : s.ids.card = s.byId.size := card_keys _
  have hpos : 0 < s.ids.card := Finset.card_pos.2 ⟨n, hnids⟩
  obtain ⟨out, o1, o2, -, o4, o5, o6, o7⟩ := postorder_spec (S := s.ids) (rank := fun k => (s.seqOf.get k).getD 0)
    (next := fun x => (s.byId.get x).map Entry.children)
    (by
      intro x hx
      obtain ⟨ex, hex⟩ := mem_ids.1 hx
      refine ⟨ex.children, by beta_reduce; rw [hex]; rfl, fun y hy => ?_, hlen x ex hex⟩
      exact (edge_mem (((h.children x ex hex).2 y).1 hy)).2)
    (by
      intro x y hxy
      have hE := (hstep x y).1 hxy
      obtain ⟨i, hi⟩ := (h.seq_dom x).2 (edge_mem hE).1
      obtain ⟨j, hj⟩ := (h.seq_dom y).2 (edge_mem hE).2
      have := h.seq_edge x y i j hE hi hj
      simpa [hi, hj] using this)
    ((s.byId.size + 2) * (s.byId.size + 2)) [(e.children, n)] [n] [] (by simp) (by simpa using hnids) (by simp)
    (by simp) (by simp [Ranked]) (by
      intro f hf
      simp only [List.mem_singleton] at hf
      subst hf
      exact ⟨e.children, by simp [he], [], by simp, by simp⟩)
    (by
      simp only [List.map_cons, List.map_nil, List.sum_cons, List.sum_nil, List.length_singleton, hcard]
      have h1 := hlen n e he
      rw [hcard] at h1
      generalize s.byId.size = N at h1 ⊢
      have h2 : (N - 1) * (N + 1) ≤ N * (N + 1) := Nat.mul_le_mul_right _ (by omega)
      nlinarith)
  have hchild : ∀ pre x post, out = pre ++ x :: post → ∀ c, Edge s.view x c → c ∈ pre := by
    intro pre x post ho c hc
    obtain ⟨cs, hcs, hcm⟩ := (hstep x c).2 hc
    rcases o7 pre x post ho cs hcs c hcm with h1 | h1
    · exact h1
    · simp at h1
  refine ⟨out, o1, o2, fun x => ⟨fun hx => ?_, fun hx => ?_⟩, hchild⟩
  · obtain ⟨y, hy, hyx⟩ := o6 x hx
    simp only [List.map_cons, List.map_nil, List.mem_singleton] at hy
    subst hy
    exact Relation.ReflTransGen.mono (fun a b hab => (hstep a b).1 hab) _ _ hyx
  · unfold Reach at hx
    induction hx with
    | refl => exact o4 n (by simp)
    | @tail c d _ hcd ih =>
      obtain ⟨pre, post, ho⟩ := List.append_of_mem ih
      have := hchild pre c post ho d hcd
      rw [ho]; simp [this]

open Classical in
/-- Dropping a transaction with its descendants removes exactly those, children before parents, and keeps the
store valid. -/
theorem Inv.drop_spec {s : Store} (h : Inv s) (n : Nat) (r : Reason) :
    ∃ es s', dropWithDescendants s n r = .ok (es, s') ∧ Inv s' ∧
      (∀ k, s'.view k = if Reach s.view n k then none else s.view k) ∧
      (∃ l : List Nat, l.Nodup ∧ es.map (fun e => some e.tx) = l.map s.view ∧
        (∀ k, k ∈ l ↔ k ∈ s.ids ∧ Reach s.view n k) ∧
        (∀ pre x post, l = pre ++ x :: post → ∀ c, Edge s.view x c → c ∈ pre)) ∧
      s'.maxCount = s.maxCount ∧ s'.maxSize = s.maxSize ∧ s'.nextSeq = s.nextSeq ∧
      (∀ k i, s'.seqOf.get k = some i → s.seqOf.get k = some i) := by
  unfold dropWithDescendants
  cases he : s.byId.get n with
  | none =>
    have hr : ∀ k, Reach s.view n k → k = n := by
      intro k hk
      rcases Relation.ReflTransGen.cases_head hk with h1 | ⟨c, hc, -⟩
      · exact h1.symm
      · obtain ⟨e, h1⟩ := mem_ids.1 (edge_mem hc).1
        rw [he] at h1; simp at h1
    refine ⟨[], s, rfl, h, fun k => ?_, ⟨[], by simp, rfl, fun k => ?_, by simp⟩, rfl, rfl, rfl, fun _ _ h => h⟩
    · split
      · rename_i hk
        rw [hr k hk]; exact view_none.2 he
      · rfl
    · simp only [List.not_mem_nil, false_iff, not_and]
      intro hk hr'
      rw [hr k hr'] at hk
      obtain ⟨e, h1⟩ := mem_ids.1 hk
      rw [he] at h1; simp at h1
  | some e =>
    obtain ⟨out, o1, o2, o3, o4⟩ := h.postorder_ok he
    have hnids : n ∈ s.ids := mem_ids.2 ⟨e, he⟩
    obtain ⟨es, s', g1, g2, g3, g4, g5, g6, g7, g8⟩ := removeAll_spec (r := r) out s h o2
      (fun x hx => reach_mem' ((o3 x).1 hx) hnids) o4
    refine ⟨es, s', ?_, g2, ?_, ⟨out, o2, g3, ?_, o4⟩, g5, g6, g7, ?_⟩
    · simp only [o1, bind, Except.bind, g1]
    · intro k
      rw [g4]
      by_cases hk : k ∈ out
      · rw [if_pos hk, if_pos ((o3 k).1 hk)]
      · rw [if_neg hk, if_neg (fun hr => hk ((o3 k).2 hr))]
    · intro k
      rw [o3]
      exact ⟨fun hr => ⟨reach_mem' hr hnids, hr⟩, fun hr => hr.2⟩
    · intro k i hk
      rw [g8] at hk
      split at hk
      · simp at hk
      · exact hk

/-! ## Repeated dropping -/

/-- taking out everything reachable from one transaction does not change who reaches what is left -/
theorem reach_restrict {v v' : Pool} {n : Nat} [DecidablePred (Reach v n)]
    (hv : ∀ k, v' k = if Reach v n k then none else v k) {j k : Nat} (hk : ¬ Reach v n k) :
    Reach v' j k ↔ Reach v j k := by
  have hsub : ∀ k t, v' k = some t → v k = some t := by
    intro k t h
    rw [hv] at h
    split at h
    · simp at h
    · exact h
  constructor
  · intro h
    exact Relation.ReflTransGen.mono (fun a b hab => edge_mono hsub hab) _ _ h
  · intro h
    unfold Reach at h
    induction h using Relation.ReflTransGen.head_induction_on with
    | refl => exact .refl
    | @head a b hab hbk ih =>
      refine Relation.ReflTransGen.head ?_ ih
      obtain ⟨hne, ta, tb, ha, hb, hd⟩ := hab
      have hb' : ¬ Reach v n b := fun hr => hk (hr.trans hbk)
      have ha' : ¬ Reach v n a := fun hr => hb' (Relation.ReflTransGen.tail hr ⟨hne, ta, tb, ha, hb, hd⟩)
      exact ⟨hne, ta, tb, by rw [hv, if_neg ha']; exact ha, by rw [hv, if_neg hb']; exact hb, hd⟩

open Classical in
theorem dropMany_spec {r : Reason} {α : Type} (f : α → Nat) : ∀ (l : List α) (s : Store), Inv s →
    ∃ s', l.foldlM (fun s p => do
        let r ← dropWithDescendants s (f p) r
        pure r.2) s = .ok s' ∧ Inv s' ∧
      (∀ k, s'.view k = if ∃ p ∈ l, Reach s.view (f p) k then none else s.view k) ∧
      s'.maxCount = s.maxCount ∧ s'.maxSize = s.maxSize := by
  intro l
  induction l with
  | nil => intro s h; exact ⟨s, rfl, h, by simp, rfl, rfl⟩
  | cons a as ih =>
    intro s h
    obtain ⟨es, s1, g1, g2, g3, -, g5, g6, -, -⟩ := h.drop_spec (f a) r
    obtain ⟨s2, f1, f2, f3, f4, f5⟩ := ih s1 g2
    refine ⟨s2, ?_, f2, ?_, f4.trans g5, f5.trans g6⟩
    · simp only [List.foldlM_cons, bind, Except.bind, g1, pure, Except.pure]
      exact f1
    · intro k
      rw [f3, g3]
      by_cases hk : Reach s.view (f a) k
      · have h2 : ∃ p ∈ a :: as, Reach s.view (f p) k := ⟨a, by simp, hk⟩
        rw [if_pos hk, if_pos h2]
        split <;> rfl
      · rw [if_neg hk]
        have : (∃ p ∈ as, Reach s1.view (f p) k) ↔ ∃ p ∈ a :: as, Reach s.view (f p) k := by
          constructor
          · rintro ⟨p, hp, hr⟩; exact ⟨p, by simp [hp], (reach_restrict g3 hk).1 hr⟩
          · rintro ⟨p, hp, hr⟩
            rcases List.mem_cons.1 hp with rfl | hp
            · exact absurd hr hk
            · exact ⟨p, hp, (reach_restrict g3 hk).2 hr⟩
        by_cases h2 : ∃ p ∈ as, Reach s1.view (f p) k
        · rw [if_pos h2, if_pos (this.1 h2)]
        · rw [if_neg h2, if_neg (fun h3 => h2 (this.2 h3))]

theorem mem_takeWhile_sorted {α : Type} {p : α → Bool} : ∀ {l : List α},
    l.Pairwise (fun a b => p b = true → p a = true) → ∀ x, x ∈ l.takeWhile p ↔ x ∈ l ∧ p x = true := by
  intro l
  induction l with
  | nil => intro _ x; simp
  | cons a as ih =>
    intro h x
    obtain ⟨h1, h2⟩ := List.pairwise_cons.1 h
    by_cases ha : p a = true
    · rw [List.takeWhile_cons_of_pos ha, List.mem_cons, List.mem_cons, ih h2]
      constructor
      · rintro (rfl | ⟨g1, g2⟩)
        · exact ⟨Or.inl rfl, ha⟩
        · exact ⟨Or.inr g1, g2⟩
      · rintro ⟨rfl | g1, g2⟩
        · exact Or.inl rfl
        · exact Or.inr ⟨g1, g2⟩
    · rw [List.takeWhile_cons_of_neg ha]
      simp only [List.not_mem_nil, false_iff, not_and, List.mem_cons]
      rintro (rfl | g1) g2
      · exact ha g2
      · exact ha (h1 x g1 g2)

open Classical in
/-- Expiry removes exactly the transactions that are too old or depend on one that is. -/
theorem Inv.removeExpired_spec {s : Store} (h : Inv s) (now maxAge : Nat) :
    ∃ s', removeExpired s now maxAge = .ok s' ∧ Inv s' ∧
      (∀ k, s'.view k = if ∃ a t, s.view a = some t ∧ now - t.time > maxAge ∧ Reach s.view a k then none
        else s.view k) ∧ s'.maxCount = s.maxCount ∧ s'.maxSize = s.maxSize := by
  obtain ⟨s', g1, g2, g3, g4, g5⟩ := dropMany_spec (r := .expiry) (fun p : Nat × Nat => p.2)
    ((s.byTime.entries.map (fun p => ofLex p.1)).takeWhile (fun p => decide (now - p.1 > maxAge))) s h
  refine ⟨s', g1, g2, fun k => ?_, g4, g5⟩
  have hmem : ∀ p : Nat × Nat,
      p ∈ (s.byTime.entries.map (fun p => ofLex p.1)).takeWhile (fun p => decide (now - p.1 > maxAge)) ↔
      ∃ t, s.view p.2 = some t ∧ t.time = p.1 ∧ now - p.1 > maxAge := by
    intro p
    rw [mem_takeWhile_sorted]
    · rw [List.mem_map]
      constructor
      · rintro ⟨⟨⟨key, u⟩, h1, rfl⟩, h2⟩
        have h3 := BMap.mem_entries.1 h1
        have h4 := (h.byTime (ofLex key).1 (ofLex key).2).1 h3
        obtain ⟨e, he, ht⟩ := Option.map_eq_some_iff.1 h4
        exact ⟨e.tx, view_some.2 ⟨e, he, rfl⟩, ht, by simpa using h2⟩
      · rintro ⟨t, h1, h2, h3⟩
        obtain ⟨e, he, rfl⟩ := view_some.1 h1
        refine ⟨⟨(toLex (p.1, p.2), ()), ?_, rfl⟩, by simpa using h3⟩
        rw [BMap.mem_entries]
        exact (h.byTime p.1 p.2).2 (by beta_reduce; rw [he]; simp [h2])
    · rw [List.pairwise_map]
      refine s.byTime.sorted.imp ?_
      intro a b hab
      have : (ofLex a.1).1 ≤ (ofLex b.1).1 := by
        rcases Prod.Lex.lt_iff.1 hab with h1 | ⟨h1, -⟩
        · exact h1.le
        · exact h1.le
      simp only [decide_eq_true_eq]
      omega
  rw [g3]
  congr 1
  apply propext
  constructor
  · rintro ⟨p, hp, hr⟩
    obtain ⟨t, h1, h2, h3⟩ := (hmem p).1 hp
    exact ⟨p.2, t, h1, by rw [h2]; exact h3, hr⟩
  · rintro ⟨a, t, h1, h2, hr⟩
    exact ⟨(t.time, a), (hmem _).2 ⟨t, h1, rfl, h2⟩, hr⟩

/-! ## Trimming -/

/-- A run of evictions: while the store is not empty and too big, a transaction of lowest descendant score is
dropped with its descendants. -/
inductive Evicts (mem : Store → Nat) (limit : Nat) : Store → List Nat → Store → Prop
  | done {s : Store} : (s.ids = ∅ ∨ mem s ≤ limit) → Evicts mem limit s [] s
  | step {s s1 s2 : Store} {n : Nat} {e : Entry} {qs : List Nat} :
      limit < mem s → s.byId.get n = some e →
      (∀ k x, s.byId.get k = some x → e.descN ≤ x.descN) →
      (∀ k, (Reach s.view n k → s1.view k = none) ∧ (¬ Reach s.view n k → s1.view k = s.view k)) →
      Evicts mem limit s1 qs s2 →
      Evicts mem limit s (e.tx.fee * 1000 / e.tx.size :: qs) s2

theorem ids_empty {s : Store} : s.ids = ∅ ↔ s.byId.size = 0 := by
  rw [← Finset.card_eq_zero]; unfold Store.ids; rw [card_keys]

theorem Inv.trim_spec (mem : Store → Nat) (limit : Nat) : ∀ (n : Nat) (s : Store), Inv s → s.byId.size ≤ n →
    ∃ qs s', trim mem limit n s = .ok (qs, s') ∧ Inv s' ∧ Evicts mem limit s qs s' ∧
      (s'.ids = ∅ ∨ mem s' ≤ limit) ∧ s'.maxCount = s.maxCount ∧ s'.maxSize = s.maxSize ∧
      (∀ k t, s'.view k = some t → s.view k = some t) ∧
      (∀ a b, Edge s.view a b → b ∈ s'.ids → a ∈ s'.ids) := by
  intro n
  induction n with
  | zero =>
    intro s h hs
    have hz : s.byId.size = 0 := by omega
    refine ⟨[], s, by unfold trim; rw [if_pos (Or.inl hz)], h, .done (Or.inl (ids_empty.2 hz)),
      Or.inl (ids_empty.2 hz), rfl, rfl, fun _ _ h => h, fun a b hab _ => (edge_mem hab).1⟩
  | succ n ih =>
    intro s h hs
    unfold trim
    by_cases hd : s.byId.size = 0 ∨ mem s ≤ limit
    · have hd' : s.ids = ∅ ∨ mem s ≤ limit := hd.imp ids_empty.2 id
      rw [if_pos hd]
      exact ⟨[], s, rfl, h, .done hd', hd', rfl, rfl, fun _ _ h => h, fun a b hab _ => (edge_mem hab).1⟩
    · rw [if_neg hd]
      push Not at hd
      obtain ⟨hne, hmem⟩ := hd
      have hex : ∃ k, k ∈ s.ids := by
        by_contra hc
        push Not at hc
        exact hne (ids_empty.1 (Finset.eq_empty_of_forall_notMem hc))
      obtain ⟨k0, hk0⟩ := hex
      obtain ⟨e0, he0⟩ := mem_ids.1 hk0
      have hin0 : (toLex (e0.descN, k0), ()) ∈ s.byDesc.entries :=
        BMap.mem_entries.2 ((h.byDesc _ _).2 (by beta_reduce; rw [he0]; rfl))
      cases hent : s.byDesc.entries with
      | nil => rw [hent] at hin0; simp at hin0
      | cons p ps =>
        obtain ⟨p, u⟩ := p
        have hp : s.byDesc.get p = some () := BMap.mem_entries.1 (by rw [hent]; simp)
        have hp2 := (h.byDesc (ofLex p).1 (ofLex p).2).1 hp
        obtain ⟨e, he, hsc⟩ := Option.map_eq_some_iff.1 hp2
        have hmin : ∀ k x, s.byId.get k = some x → e.descN ≤ x.descN := by
          intro k x hx
          have hin : (toLex (x.descN, k), ()) ∈ s.byDesc.entries :=
            BMap.mem_entries.2 ((h.byDesc _ _).2 (by beta_reduce; rw [hx]; rfl))
          have hso := s.byDesc.sorted
          rw [hent] at hin hso
          rcases List.mem_cons.1 hin with h1 | h1
          · have : toLex (x.descN, k) = p := (Prod.mk.inj h1).1
            subst this
            exact le_of_eq hsc
          · have h2 := (List.pairwise_cons.1 hso).1 _ h1
            have h3 : (ofLex p).1 ≤ x.descN := by
              rcases Prod.Lex.lt_iff.1 h2 with h4 | ⟨h4, -⟩
              · exact le_of_lt h4
              · exact le_of_eq h4
            calc e.descN = (ofLex p).1 := hsc
              _ ≤ _ := h3
        have hrate : rate e.tx.fee e.tx.size = .ok (e.tx.fee * 1000 / e.tx.size) :=
          rate_ok (fit h.fits (Inv.fee_le he))
        classical
        obtain ⟨es, s1, g1, g2, g3, -, g5, g6, -, -⟩ := h.drop_spec (ofLex p).2 .sizeLimit
        have hsub1 : ∀ k t, s1.view k = some t → s.view k = some t := by
          intro k t hk
          rw [g3] at hk
          split at hk
          · simp at hk
          · exact hk
        have hlt : s1.byId.size < s.byId.size := by
          have e1 : s1.ids.card = s1.byId.size := card_keys _
          have e2 : s.ids.card = s.byId.size := card_keys _
          rw [← e1, ← e2]
          apply Finset.card_lt_card
          refine (Finset.ssubset_iff_of_subset ?_).2 ⟨(ofLex p).2, mem_ids.2 ⟨e, he⟩, ?_⟩
          · intro k hk
            obtain ⟨x, hx⟩ := mem_ids.1 hk
            obtain ⟨y, hy, -⟩ := view_some.1 (hsub1 k x.tx (view_some.2 ⟨x, hx, rfl⟩))
            exact mem_ids.2 ⟨y, hy⟩
          · intro hm
            obtain ⟨x, hx⟩ := mem_ids.1 hm
            have := g3 (ofLex p).2
            have hrr : Reach s.view (ofLex p).2 (ofLex p).2 := Relation.ReflTransGen.refl
            rw [if_pos hrr] at this
            rw [view_none] at this
            rw [this] at hx; simp at hx
        obtain ⟨qs, s2, f1, f2, f3, f4, f5, f6, f7, f8⟩ := ih s1 g2 (by omega)
        refine ⟨_ :: qs, s2, ?_, f2, .step hmem he hmin (fun k => ⟨fun hr => ?_, fun hr => ?_⟩) f3, f4,
          f5.trans g5, f6.trans g6, fun k t hk => hsub1 k t (f7 k t hk), ?_⟩
        · simp only [he, bind, Except.bind, hrate, g1, f1]
          rfl
        · rw [g3, if_pos hr]
        · rw [g3, if_neg hr]
        · intro a b hab hb
          refine f8 a b ?_ hb
          obtain ⟨x, hx⟩ := mem_ids.1 hb
          have hbv := f7 b x.tx (view_some.2 ⟨x, hx, rfl⟩)
          have hbr : ¬ Reach s.view (ofLex p).2 b := by
            intro hr
            rw [g3, if_pos hr] at hbv
            simp at hbv
          have har : ¬ Reach s.view (ofLex p).2 a := fun hr => hbr (Relation.ReflTransGen.tail hr hab)
          obtain ⟨hne, ta, tb, ha, hb', hd⟩ := hab
          exact ⟨hne, ta, tb, by rw [g3, if_neg har]; exact ha, by rw [g3, if_neg hbr]; exact hb', hd⟩

end Verif.Mempool
