import Verif.Mempool.Drop

namespace Verif.Mempool

open Relation (ReflTransGen)

/-- two transactions of a pool are in the same cluster when a chain of direct dependencies, in either direction,
links them -/
def Cluster (v : Pool) : Nat → Nat → Prop := ReflTransGen (Adj v)

/-- every cluster respects the limits on the number of transactions and on the total size -/
def Lim (s : Store) : Prop := ∀ k ∈ s.ids,
  (total s.view s.ids (Cluster s.view k)).1 ≤ s.maxCount ∧ (total s.view s.ids (Cluster s.view k)).2.2 ≤ s.maxSize

theorem total_le {v v' : Pool} {ids ids' : Finset Nat} {P P' : Nat → Prop} (hsub : ids' ⊆ ids)
    (hv : ∀ k ∈ ids', v' k = v k) (hP : ∀ k ∈ ids', P' k → P k) :
    (total v' ids' P').1 ≤ (total v ids P).1 ∧ (total v' ids' P').2.2 ≤ (total v ids P).2.2 := by
  classical
  rw [total_count, total_count, total_size, total_size]
  have hw : ∀ k ∈ ids', weightAt v' k = weightAt v k := fun k hk => by unfold weightAt; rw [hv k hk]
  constructor
  · refine le_trans (Finset.sum_le_sum ?_) (Finset.sum_le_sum_of_subset hsub)
    intro k hk
    by_cases h1 : P' k
    · rw [if_pos h1, if_pos (hP k hk h1), hw k hk]
    · rw [if_neg h1]; exact Nat.zero_le _
  · refine le_trans (Finset.sum_le_sum ?_) (Finset.sum_le_sum_of_subset hsub)
    intro k hk
    by_cases h1 : P' k
    · rw [if_pos h1, if_pos (hP k hk h1), hw k hk]
    · rw [if_neg h1]; exact Nat.zero_le _

/-- taking transactions out keeps the limits -/
theorem Lim.mono {s s' : Store} (h : Lim s) (hv : ∀ k t, s'.view k = some t → s.view k = some t)
    (h1 : s'.maxCount = s.maxCount) (h2 : s'.maxSize = s.maxSize) : Lim s' := by
  have hsub : s'.ids ⊆ s.ids := by
    intro k hk
    obtain ⟨x, hx⟩ := mem_ids.1 hk
    obtain ⟨y, hy, -⟩ := view_some.1 (hv k x.tx (view_some.2 ⟨x, hx, rfl⟩))
    exact mem_ids.2 ⟨y, hy⟩
  intro k hk
  have := total_le (v := s.view) (v' := s'.view) (P := Cluster s.view k) (P' := Cluster s'.view k) hsub
    (by
      intro j hj
      obtain ⟨x, hx⟩ := mem_ids.1 hj
      have h3 := view_some.2 ⟨x, hx, rfl⟩
      rw [h3, hv j _ h3])
    (by
      intro j _ hj
      exact Relation.ReflTransGen.mono (fun a b hab => hab.imp (edge_mono hv) (edge_mono hv)) _ _ hj)
  have h3 := h k (hsub hk)
  rw [h1, h2]
  omega

theorem adj_symm {v : Pool} {a b : Nat} (h : Adj v a b) : Adj v b a := h.symm

theorem cluster_symm {v : Pool} {a b : Nat} (h : Cluster v a b) : Cluster v b a := by
  unfold Cluster at h ⊢
  induction h with
  | refl => exact .refl
  | @tail c d _ hcd ih => exact Relation.ReflTransGen.head (adj_symm hcd) ih

/-- an addition within the limits keeps them -/
theorem Lim.add {s s' : Store} (hI : Inv s) (h : Lim s) {t : Tx} {cl : List Nat} (hw : Within s t cl)
    (hfresh : s.view t.id = none) (hnn : ∀ k u, s.view k = some u → ¬ DependsOn t u)
    (hv : ∀ k, s'.view k = if k = t.id then some t else s.view k) (hpos : 1 ≤ s.maxCount)
    (h1 : s'.maxCount = s.maxCount) (h2 : s'.maxSize = s.maxSize) : Lim s' := by
  obtain ⟨w1, w2, w3, w4⟩ := hw
  have hL := leafExt_of_pool hfresh hv hnn
  have hnid : t.id ∉ s.ids := by
    intro hm
    obtain ⟨x, hx⟩ := mem_ids.1 hm
    rw [view_none.1 hfresh] at hx; simp at hx
  have hids : s'.ids = insert t.id s.ids := by
    ext k
    have e1 : k ∈ s'.ids ↔ s'.view k ≠ none := by
      rw [mem_ids]; unfold Store.view; cases s'.byId.get k <;> simp
    have e2 : k ∈ s.ids ↔ s.view k ≠ none := by
      rw [mem_ids]; unfold Store.view; cases s.byId.get k <;> simp
    rw [Finset.mem_insert, e1, e2, hv]
    by_cases hk : k = t.id <;> simp [hk]
  have hclids : ∀ x ∈ cl, x ∈ s.ids := by
    intro x hx
    obtain ⟨p, hp, hpx⟩ := (w2 x).1 hx
    obtain ⟨tp, hvp, -⟩ := hI.mem_txParents.1 hp
    rcases Relation.ReflTransGen.cases_tail hpx with h3 | ⟨c, -, hc⟩
    · rw [h3]
      obtain ⟨y, hy, -⟩ := view_some.1 hvp
      exact mem_ids.2 ⟨y, hy⟩
    · rcases hc with hc | hc
      · exact (edge_mem hc).2
      · exact (edge_mem hc).1
  have hclcl : ∀ x y, x ∈ cl → Adj s.view x y → y ∈ cl := by
    intro x y hx hxy
    obtain ⟨p, hp, hpx⟩ := (w2 x).1 hx
    exact (w2 y).2 ⟨p, hp, Relation.ReflTransGen.tail hpx hxy⟩
  have hpar : ∀ a, (∃ ta, s.view a = some ta ∧ DependsOn ta t) → a ∈ cl := fun a ha =>
    (w2 a).2 ⟨a, hI.mem_txParents.2 ha, Relation.ReflTransGen.refl⟩
  have hadj : ∀ a b, Adj s'.view a b → Adj s.view a b ∨ (b = t.id ∧ a ∈ cl) ∨ (a = t.id ∧ b ∈ cl) := by
    rintro a b (hab | hab)
    · rcases (hL.iff a b).1 hab with h3 | ⟨h3, h4⟩
      · exact Or.inl (Or.inl h3)
      · exact Or.inr (Or.inl ⟨h3, hpar a h4⟩)
    · rcases (hL.iff b a).1 hab with h3 | ⟨h3, h4⟩
      · exact Or.inl (Or.inr h3)
      · exact Or.inr (Or.inr ⟨h3, hpar b h4⟩)
  have hnold : ∀ b, ¬ Adj s.view t.id b := by
    rintro b (hb | hb)
    · exact hnid (edge_mem hb).1
    · exact hnid (edge_mem hb).2
  have hvold : ∀ k ∈ s.ids, s'.view k = s.view k := by
    intro k hk
    rw [hv, if_neg]
    rintro rfl; exact hnid hk
  have hvn : s'.view t.id = some t := by rw [hv, if_pos rfl]
  have hcltot : total s.view s.ids (· ∈ cl) = (cl.map (weightAt s.view)).sum :=
    total_list w1 (fun k => ⟨fun hk => ⟨hclids k hk, hk⟩, fun hk => hk.2⟩)
  have hcount : (total s'.view s'.ids (fun x => x = t.id ∨ x ∈ cl)) = weight t + (cl.map (weightAt s.view)).sum := by
    rw [hids, total_insert_pos (P := fun x => x = t.id ∨ x ∈ cl) hnid hvn hvold (Or.inl rfl), ← hcltot]
    congr 1
    apply total_congr
    intro j hj
    constructor
    · rintro (rfl | h3)
      · exact absurd hj hnid
      · exact h3
    · exact Or.inr
  intro k hk
  rw [h1, h2]
  by_cases hkc : k = t.id ∨ k ∈ cl
  · have hstay : ∀ x, Cluster s'.view k x → x = t.id ∨ x ∈ cl := by
      intro x hx
      unfold Cluster at hx
      induction hx with
      | refl => exact hkc
      | @tail c d _ hcd ih =>
        rcases hadj c d hcd with h3 | ⟨h3, -⟩ | ⟨-, h3⟩
        · rcases ih with rfl | ih
          · exact absurd h3 (hnold d)
          · exact Or.inr (hclcl c d ih h3)
        · exact Or.inl h3
        · exact Or.inr h3
    have h3 := total_le (v := s'.view) (v' := s'.view) (ids := s'.ids) (ids' := s'.ids)
      (P := fun x => x = t.id ∨ x ∈ cl) (P' := Cluster s'.view k) (by simp) (fun _ _ => rfl) (fun j _ hj => hstay j hj)
    rw [hcount] at h3
    have e1 : (weight t + (cl.map (weightAt s.view)).sum).1 = 1 + cl.length := by
      rw [Prod.fst_add, sum_weight_count cl hclids]; rfl
    have e2 : (weight t + (cl.map (weightAt s.view)).sum).2.2 = t.size + ((cl.map (weightAt s.view)).sum).2.2 := rfl
    rw [e1, e2] at h3
    refine ⟨le_trans h3.1 ?_, le_trans h3.2 w4⟩
    rcases w3 with rfl | w3
    · simpa using hpos
    · exact w3
  · push Not at hkc
    obtain ⟨hkn, hkc⟩ := hkc
    have hkids : k ∈ s.ids := by
      rw [hids, Finset.mem_insert] at hk
      rcases hk with h3 | h3
      · exact absurd h3 hkn
      · exact h3
    have hstay : ∀ x, Cluster s'.view k x → (x ≠ t.id ∧ x ∉ cl) ∧ Cluster s.view k x := by
      intro x hx
      unfold Cluster at hx
      induction hx with
      | refl => exact ⟨⟨hkn, hkc⟩, .refl⟩
      | @tail c d _ hcd ih =>
        obtain ⟨⟨i1, i2⟩, i3⟩ := ih
        rcases hadj c d hcd with h3 | ⟨-, h3⟩ | ⟨h3, -⟩
        · refine ⟨⟨?_, ?_⟩, Relation.ReflTransGen.tail i3 h3⟩
          · rintro rfl; exact hnold c (adj_symm h3)
          · intro hd; exact i2 (hclcl d c hd (adj_symm h3))
        · exact absurd h3 i2
        · exact absurd h3 i1
    have h3 : total s'.view s'.ids (Cluster s'.view k) = total s.view s.ids (Cluster s'.view k) := by
      rw [hids]
      exact total_insert_neg hnid hvold (fun hc => (hstay _ hc).1.1 rfl)
    have h4 := total_le (v := s.view) (v' := s.view) (ids := s.ids) (ids' := s.ids)
      (P := Cluster s.view k) (P' := Cluster s'.view k) (by simp) (fun _ _ => rfl) (fun j _ hj => (hstay j hj).2)
    rw [h3]
    have h5 := h k hkids
    omega

end Verif.Mempool
