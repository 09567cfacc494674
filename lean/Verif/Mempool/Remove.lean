import Verif.Mempool.Add

namespace Verif.Mempool

open Verif (BMap okOr ensure bind_eq_ok)
open Relation (ReflTransGen)

/-! ## Removing a node without outgoing or without incoming arrows -/

theorem reach_remove {E E' : Nat → Nat → Prop} {n : Nat} (hE : ∀ a b, E' a b ↔ E a b ∧ a ≠ n ∧ b ≠ n)
    (hend : (∀ b, ¬ E n b) ∨ (∀ a, ¬ E a n)) {j k : Nat} (hj : j ≠ n) (hk : k ≠ n) :
    ReflTransGen E' j k ↔ ReflTransGen E j k := by
  constructor
  · intro h
    exact Relation.ReflTransGen.mono (fun a b hab => ((hE a b).1 hab).1) _ _ h
  · intro h
    rcases hend with hno | hni
    · induction h with
      | refl => exact .refl
      | @tail c d _ hcd ih =>
        have hc : c ≠ n := by rintro rfl; exact hno _ hcd
        exact (ih hc).tail ((hE c d).2 ⟨hcd, hc, hk⟩)
    · induction h using Relation.ReflTransGen.head_induction_on with
      | refl => exact .refl
      | @head c d hcd _ ih =>
        have hd : d ≠ n := by rintro rfl; exact hni _ hcd
        exact Relation.ReflTransGen.head ((hE c d).2 ⟨hcd, hj, hd⟩) (ih hd)

/-- collecting from the arrows of a node already taken out of the map, when nothing points to it -/
theorem collect_erased {m m0 : BMap Nat Entry} {kind : Entry → List Nat} {E : Nat → Nat → Prop} {n : Nat} {e : Entry}
    (hkind : ∀ x e, m.get x = some e → ∀ y, y ∈ kind e ↔ E x y)
    (hmem : ∀ x y, E x y → x ∈ keys m ∧ y ∈ keys m) (hno : ∀ x, ¬ E x n) (he : m.get n = some e)
    (hm0 : ∀ x, (m0.get x).map kind = if x = n then none else (m.get x).map kind) :
    ∃ r, collect m0 kind noCheck (kind e) = .ok r ∧ r.Nodup ∧ ∀ x, x ∈ r ↔ x ≠ n ∧ ReflTransGen E n x := by
  have hkeys : ∀ x, x ∈ keys m0 ↔ x ≠ n ∧ x ∈ keys m := by
    intro x
    have := hm0 x
    rw [mem_keys, mem_keys]
    by_cases hx : x = n
    · simp only [hx, if_true, Option.map_eq_none_iff] at this
      subst hx; simp [this]
    · rw [if_neg hx] at this
      simp only [ne_eq, hx, not_false_eq_true, true_and]
      cases h1 : m0.get x <;> cases h2 : m.get x <;> simp_all
  have hkd : ∀ x e0, m0.get x = some e0 → x ≠ n ∧ ∀ y, y ∈ kind e0 ↔ E x y := by
    intro x e0 hx
    have := hm0 x
    by_cases hxn : x = n
    · simp [hxn] at this; subst hxn; rw [this] at hx; simp at hx
    · rw [if_neg hxn, hx] at this
      obtain ⟨e1, he1, hk1⟩ := Option.map_eq_some_iff.1 this.symm
      refine ⟨hxn, fun y => ?_⟩
      rw [← hk1]; exact hkind x e1 he1 y
  have hnext : ∀ x y, NextRel (nextOf m0 kind) x y ↔ x ≠ n ∧ E x y := by
    intro x y
    rw [nextRel_nextOf]
    constructor
    · rintro ⟨e0, h0, hy⟩
      obtain ⟨g1, g2⟩ := hkd x e0 h0
      exact ⟨g1, (g2 y).1 hy⟩
    · rintro ⟨hx, hy⟩
      obtain ⟨e0, h0⟩ := mem_keys.1 ((hkeys x).2 ⟨hx, (hmem x y hy).1⟩)
      exact ⟨e0, h0, ((hkd x e0 h0).2 y).2 hy⟩
  have hin : ∀ x y, E x y → y ∈ keys m0 := by
    intro x y hxy
    refine (hkeys y).2 ⟨?_, (hmem x y hxy).2⟩
    rintro rfl; exact hno _ hxy
  rcases collect_spec (m := m0) (kind := kind) (check := noCheck) (init := kind e)
    (fun x e0 h0 y hy => hin x y (((hkd x e0 h0).2 y).1 hy))
    (fun x hx => hin n x ((hkind n e he x).1 hx)) with ⟨r, h1, h2, h3, -⟩ | ⟨k, er, h1, -⟩
  · refine ⟨r, h1, h2, fun x => ?_⟩
    rw [h3]
    constructor
    · rintro ⟨y, hy, hyx⟩
      have hEy := (hkind n e he y).1 hy
      constructor
      · rintro rfl
        rcases Relation.ReflTransGen.cases_tail hyx with h4 | ⟨c, -, hc⟩
        · rw [← h4] at hEy; exact hno _ hEy
        · exact hno _ ((hnext _ _).1 hc).2
      · refine Relation.ReflTransGen.head hEy ?_
        exact Relation.ReflTransGen.mono (fun a b hab => ((hnext a b).1 hab).2) _ _ hyx
    · rintro ⟨hxn, hx⟩
      rcases Relation.ReflTransGen.cases_head hx with h4 | ⟨y, hy, hyx⟩
      · exact absurd h4.symm hxn
      · refine ⟨y, (hkind n e he y).2 hy, ?_⟩
        have hyn : y ≠ n := by rintro rfl; exact hno _ hy
        clear hy hx
        induction hyx using Relation.ReflTransGen.head_induction_on with
        | refl => exact .refl
        | @head c d hcd _ ih =>
          have hd : d ≠ n := by rintro rfl; exact hno _ hcd
          exact Relation.ReflTransGen.head ((hnext c d).2 ⟨hyn, hcd⟩) (ih hd)
  · simp [noCheck] at h1

/-! ## The entries after a removal -/

def dropDG (t : Tx) (e : Entry) : Entry :=
  { e with feesD := e.feesD - t.fee, sizeD := e.sizeD - t.size, countD := e.countD - 1 }
def dropAG (t : Tx) (e : Entry) : Entry :=
  { e with feesA := e.feesA - t.fee, sizeA := e.sizeA - t.size, countA := e.countA - 1 }

theorem dropDesc_ok {t : Tx} {e : Entry} (h1 : t.fee ≤ e.feesD) (h2 : t.size < e.sizeD) (h3 : 1 ≤ e.countD) :
    dropDesc t e = .ok (dropDG t e) := by
  simp [dropDesc, subPanic, subNonZero, h1, h2, h3, bind, Except.bind, pure, Except.pure, dropDG]

theorem dropAnc_ok {t : Tx} {e : Entry} (h1 : t.fee ≤ e.feesA) (h2 : t.size < e.sizeA) (h3 : 1 ≤ e.countA) :
    dropAnc t e = .ok (dropAG t e) := by
  simp [dropAnc, subPanic, subNonZero, h1, h2, h3, bind, Except.bind, pure, Except.pure, dropAG]

theorem dropDG_D {t : Tx} {e : Entry} {w : Nat × Nat × Nat} (h : e.D = weight t + w) : (dropDG t e).D = w := by
  obtain ⟨a, b, c⟩ := w
  simp only [Entry.D, weight, Prod.mk_add_mk, Prod.mk.injEq, dropDG] at h ⊢
  omega

theorem dropAG_A {t : Tx} {e : Entry} {w : Nat × Nat × Nat} (h : e.A = weight t + w) : (dropAG t e).A = w := by
  obtain ⟨a, b, c⟩ := w
  simp only [Entry.A, weight, Prod.mk_add_mk, Prod.mk.injEq, dropAG] at h ⊢
  omega

def eraseChild (n : Nat) (e : Entry) : Entry := { e with children := setErase n e.children }
def eraseParent (n : Nat) (e : Entry) : Entry := { e with parents := setErase n e.parents }

def afterDrop (t : Tx) (ps cs anc dl : List Nat) (k : Nat) (x : Entry) : Entry :=
  (fun x => if k ∈ cs then eraseParent t.id x else x)
    ((fun x => if k ∈ ps then eraseChild t.id x else x)
      ((fun x => if k ∈ dl then dropAG t x else x) ((fun x => if k ∈ anc then dropDG t x else x) x)))

variable (t : Tx) (ps cs anc dl : List Nat) (k : Nat) (x : Entry)

theorem afterDrop_tx : (afterDrop t ps cs anc dl k x).tx = x.tx := by
  unfold afterDrop; beta_reduce; split <;> split <;> split <;> split <;> rfl
theorem afterDrop_parents : (afterDrop t ps cs anc dl k x).parents
    = if k ∈ cs then setErase t.id x.parents else x.parents := by
  unfold afterDrop; beta_reduce; split <;> split <;> split <;> split <;> rfl
theorem afterDrop_children : (afterDrop t ps cs anc dl k x).children
    = if k ∈ ps then setErase t.id x.children else x.children := by
  unfold afterDrop; beta_reduce; split <;> split <;> split <;> split <;> rfl
theorem afterDrop_D : (afterDrop t ps cs anc dl k x).D = if k ∈ anc then (dropDG t x).D else x.D := by
  unfold afterDrop; beta_reduce; split <;> split <;> split <;> split <;> rfl
theorem afterDrop_A : (afterDrop t ps cs anc dl k x).A = if k ∈ dl then (dropAG t x).A else x.A := by
  unfold afterDrop; beta_reduce; split <;> split <;> split <;> split <;> rfl
theorem afterDrop_descN : (afterDrop t ps cs anc dl k x).descN = if k ∈ anc then (dropDG t x).descN else x.descN := by
  unfold afterDrop; beta_reduce; split <;> split <;> split <;> split <;> rfl
theorem afterDrop_ancN : (afterDrop t ps cs anc dl k x).ancN = if k ∈ dl then (dropAG t x).ancN else x.ancN := by
  unfold afterDrop; beta_reduce; split <;> split <;> split <;> split <;> rfl

variable {t ps cs anc dl k x}

theorem collectAncestors_of_ok {m : BMap Nat Entry} {e : Entry} {r : List Nat}
    (h : collect m Entry.parents noCheck e.parents = .ok r) : collectAncestors m e = .ok r := by
  unfold collectAncestors; rw [h]
theorem collectDescendants_of_ok {m : BMap Nat Entry} {e : Entry} {r : List Nat}
    (h : collect m Entry.children noCheck e.children = .ok r) : collectDescendants m e = .ok r := by
  unfold collectDescendants; rw [h]

theorem collect_nil {m : BMap Nat Entry} {kind : Entry → List Nat} : collect m kind noCheck [] = .ok [] := by
  unfold collect
  simp [pure, Except.pure, bind, Except.bind, collectLoop]

/-- Removing from a valid store a transaction nothing depends on (for whatever reason), or one that depends on
nothing (because it got into a block), succeeds and leaves a valid store without it. -/
theorem Inv.removeTx_spec {s : Store} (h : Inv s) {n : Nat} {e : Entry} (he : s.byId.get n = some e) {r : Reason}
    (hcase : (∀ b, ¬ Edge s.view n b) ∨ ((∀ a, ¬ Edge s.view a n) ∧ r = .block)) :
    ∃ s', removeTx s n r = .ok (some e, s') ∧ Inv s' ∧ (∀ k, s'.view k = if k = n then none else s.view k) ∧
      s'.maxCount = s.maxCount ∧ s'.maxSize = s.maxSize ∧ s'.nextSeq = s.nextSeq ∧
      (∀ k, s'.seqOf.get k = if k = n then none else s.seqOf.get k) := by
  obtain ⟨hid, -⟩ := h.key n e he
  have hnids : n ∈ s.ids := mem_ids.2 ⟨e, he⟩
  -- the pool without `n`
  set v' : Pool := fun k => if k = n then none else s.view k with hv'
  have hE : ∀ a b, Edge v' a b ↔ Edge s.view a b ∧ a ≠ n ∧ b ≠ n := by
    intro a b
    unfold Edge
    simp only [hv']
    constructor
    · rintro ⟨hne, ta, tb, ha, hb, hd⟩
      split at ha
      · simp at ha
      split at hb
      · simp at hb
      rename_i g1 g2
      exact ⟨⟨hne, ta, tb, ha, hb, hd⟩, g1, g2⟩
    · rintro ⟨⟨hne, ta, tb, ha, hb, hd⟩, g1, g2⟩
      exact ⟨hne, ta, tb, by rw [if_neg g1]; exact ha, by rw [if_neg g2]; exact hb, hd⟩
  have hend : (∀ b, ¬ Edge s.view n b) ∨ (∀ a, ¬ Edge s.view a n) := hcase.imp id And.left
  have hreach : ∀ j k, j ≠ n → k ≠ n → (Reach v' j k ↔ Reach s.view j k) :=
    fun j k hj hk => reach_remove hE hend hj hk
  have hnI : n ∉ s.ids.erase n := by simp
  have hins : insert n (s.ids.erase n) = s.ids := Finset.insert_erase hnids
  have hvn : s.view n = some e.tx := view_some.2 ⟨e, he, rfl⟩
  have hvold : ∀ k ∈ s.ids.erase n, s.view k = v' k := by
    intro k hk
    simp only [hv', if_neg (Finset.ne_of_mem_erase hk)]
  have hpos : ∀ P : Nat → Prop, P n → total s.view s.ids P = weight e.tx + total v' (s.ids.erase n) P := by
    intro P hP
    have := total_insert_pos (P := P) hnI hvn hvold hP
    rwa [hins] at this
  have hneg : ∀ P : Nat → Prop, ¬ P n → total s.view s.ids P = total v' (s.ids.erase n) P := by
    intro P hP
    have := total_insert_neg (P := P) hnI hvold hP
    rwa [hins] at this
  have hDdec : ∀ k x, k ≠ n → s.byId.get k = some x → Reach s.view k n →
      x.D = weight e.tx + total v' (s.ids.erase n) (Reach v' k) := by
    intro k x hk hx hr
    rw [h.descendants k x hx, hpos _ hr]
    congr 1
    exact total_congr (fun j hj => (hreach k j hk (Finset.ne_of_mem_erase hj)).symm)
  have hAdec : ∀ k x, k ≠ n → s.byId.get k = some x → Reach s.view n k →
      x.A = weight e.tx + total v' (s.ids.erase n) (fun a => Reach v' a k) := by
    intro k x hk hx hr
    rw [h.ancestors k x hx, hpos (fun a => Reach s.view a k) hr]
    congr 1
    exact total_congr (fun j hj => (hreach j k (Finset.ne_of_mem_erase hj) hk).symm)
  have hself : ∀ k x (P : Nat → Prop), k ≠ n → s.byId.get k = some x → P k →
      0 < (total v' (s.ids.erase n) P).2.2 := by
    intro k x P hk hx hP
    have h1 : v' k = some x.tx := by
      simp only [hv', if_neg hk]; exact view_some.2 ⟨x, hx, rfl⟩
    have h2 := size_le_total (P := P) (Finset.mem_erase.2 ⟨hk, mem_ids.2 ⟨x, hx⟩⟩) h1 hP
    have := (h.key k x hx).2
    omega
  have hfit := h.fits
  -- the ancestors
  have hAnc : ∃ anc, collectAncestors (s.byId.erase n) e = .ok anc ∧ anc.Nodup ∧
      ∀ x, x ∈ anc ↔ x ≠ n ∧ Reach s.view x n := by
    by_cases hno : ∀ b, ¬ Edge s.view n b
    · obtain ⟨anc, g1, g2, g3⟩ := collect_erased (m := s.byId) (m0 := s.byId.erase n) (kind := Entry.parents)
        (E := fun x y => Edge s.view y x) (fun x e he y => (h.parents x e he).2 y)
        (fun x y hxy => ⟨(edge_mem hxy).2, (edge_mem hxy).1⟩) (fun x hx => hno x hx) he (by
          intro x; rw [BMap.get_erase]; split <;> simp)
      refine ⟨anc, collectAncestors_of_ok g1, g2, fun x => ?_⟩
      rw [g3, reach_flip]; rfl
    · have hroot : ∀ a, ¬ Edge s.view a n := by
        rcases hcase with h1 | h1
        · exact absurd h1 hno
        · exact h1.1
      have hp : e.parents = [] := by
        rw [List.eq_nil_iff_forall_not_mem]
        intro p hp
        exact hroot p (((h.parents n e he).2 p).1 hp)
      refine ⟨[], collectAncestors_of_ok (by rw [hp]; exact collect_nil), by simp, fun x => ?_⟩
      simp only [List.not_mem_nil, false_iff, not_and]
      intro hx hr
      rcases Relation.ReflTransGen.cases_tail hr with h1 | ⟨c, -, hc⟩
      · exact hx h1.symm
      · exact hroot c hc
  obtain ⟨anc, ha1, ha2, ha3⟩ := hAnc
  have hancget : ∀ k ∈ anc, k ≠ n ∧ ∃ x, s.byId.get k = some x := by
    intro k hk
    obtain ⟨g1, g2⟩ := (ha3 k).1 hk
    exact ⟨g1, mem_ids.1 (reach_mem g2 hnids)⟩
  obtain ⟨m1, d1, hm1, hm1g, hd1⟩ := modScored_spec (score := Entry.descScore) (f := dropDesc e.tx) (dropDG e.tx)
    Entry.descN anc (s.byId.erase n) s.byDesc (fun k => (s.byId.get k).map Entry.descN) ha2 (by
      intro k hk
      obtain ⟨hkn, x, hx⟩ := hancget k hk
      have hD := hDdec k x hkn hx ((ha3 k).1 hk).2
      have hpo := hself k x (Reach v' k) hkn hx Relation.ReflTransGen.refl
      have hD1 : x.countD = 1 + _ := congrArg (fun w => w.1) hD
      have hD2 : x.feesD = e.tx.fee + _ := congrArg (fun w => w.2.1) hD
      have hD3 : x.sizeD = e.tx.size + _ := congrArg (fun w => w.2.2) hD
      refine ⟨x, by rw [BMap.get_erase, if_neg hkn]; exact hx, dropDesc_ok (by omega) (by omega) (by omega),
        h.descScore hx, ?_, by rw [hx]; rfl⟩
      have g1 := h.feesD_le hx
      have g2 := Inv.fee_le hx
      exact descScore_ok (fit hfit (by simp only [dropDG]; omega)) (fit hfit g2))
    h.byDesc
  have hm1k : ∀ k, m1.get k = if k = n then none
      else (s.byId.get k).map (fun x => if k ∈ anc then dropDG e.tx x else x) := by
    intro k
    rw [hm1g, BMap.get_erase]
    by_cases hk : k = n
    · subst hk; simp
    · rw [if_neg hk, if_neg hk]
      by_cases hka : k ∈ anc <;> simp [hka]
  -- the descendants
  have hDl : ∃ (dl : List Nat) (m2 : BMap Nat Entry) (a2 : Idx), dropDescendants r e { s with byId := m1, byDesc := d1 }
        = .ok { s with byId := m2, byDesc := d1, byAnc := a2 } ∧ dl.Nodup ∧
      (∀ x, x ∈ dl ↔ x ≠ n ∧ Reach s.view n x) ∧
      (∀ k, m2.get k = if k ∈ dl then (m1.get k).map (dropAG e.tx) else m1.get k) ∧
      Exact a2 (fun k => if k ∈ dl then (m1.get k).map (fun x => (dropAG e.tx x).ancN)
        else (s.byId.get k).map Entry.ancN) := by
    by_cases hno : ∀ b, ¬ Edge s.view n b
    · have hc : e.children = [] := by
        rw [List.eq_nil_iff_forall_not_mem]
        intro c hc
        exact hno c (((h.children n e he).2 c).1 hc)
      refine ⟨[], m1, s.byAnc, ?_, by simp, ?_, by simp, h.byAnc.congr (fun k => by rw [if_neg (by simp)]; rfl)⟩
      · unfold dropDescendants
        split
        · rw [collectDescendants_of_ok (r := []) (by rw [hc]; exact collect_nil)]
          rfl
        · rfl
      · intro x
        simp only [List.not_mem_nil, false_iff, not_and]
        intro hx hr
        rcases Relation.ReflTransGen.cases_head hr with h1 | ⟨c, hc, -⟩
        · exact hx h1.symm
        · exact hno c hc
    · obtain ⟨hroot, hr⟩ : (∀ a, ¬ Edge s.view a n) ∧ r = .block := by
        rcases hcase with h1 | h1
        · exact absurd h1 hno
        · exact h1
      obtain ⟨dl, g1, g2, g3⟩ := collect_erased (m := s.byId) (m0 := m1) (kind := Entry.children)
        (E := Edge s.view) (fun x e he y => (h.children x e he).2 y)
        (fun x y hxy => edge_mem hxy) hroot he (by
          intro x
          rw [hm1k]
          by_cases hx : x = n
          · simp [hx]
          · simp only [if_neg hx, Option.map_map]
            cases s.byId.get x with
            | none => rfl
            | some y => simp only [Option.map_some, Function.comp]; split <;> rfl)
      obtain ⟨m2, a2, hm2, hm2g, hx2⟩ := modScored_spec (score := Entry.ancScore) (f := dropAnc e.tx) (dropAG e.tx)
        Entry.ancN dl m1 s.byAnc (fun k => (s.byId.get k).map Entry.ancN) g2 (by
          intro k hk
          obtain ⟨hkn, hkr⟩ := (g3 k).1 hk
          obtain ⟨x, hx⟩ := mem_ids.1 (reach_mem' hkr hnids)
          have hA := hAdec k x hkn hx hkr
          have hpo := hself k x (fun a => Reach v' a k) hkn hx Relation.ReflTransGen.refl
          have hA1 : x.countA = 1 + _ := congrArg (fun w => w.1) hA
          have hA2 : x.feesA = e.tx.fee + _ := congrArg (fun w => w.2.1) hA
          have hA3 : x.sizeA = e.tx.size + _ := congrArg (fun w => w.2.2) hA
          have q1 : (if k ∈ anc then dropDG e.tx x else x).countA = x.countA := by split <;> rfl
          have q2 : (if k ∈ anc then dropDG e.tx x else x).feesA = x.feesA := by split <;> rfl
          have q3 : (if k ∈ anc then dropDG e.tx x else x).sizeA = x.sizeA := by split <;> rfl
          have q4 : (if k ∈ anc then dropDG e.tx x else x).tx = x.tx := by split <;> rfl
          have q5 : (if k ∈ anc then dropDG e.tx x else x).ancN = x.ancN := by split <;> rfl
          have g1 := h.feesA_le hx
          have g2 := Inv.fee_le hx
          refine ⟨if k ∈ anc then dropDG e.tx x else x, by rw [hm1k, if_neg hkn, hx]; rfl,
            dropAnc_ok (by rw [q2]; omega) (by rw [q3]; omega) (by rw [q1]; omega),
            ancScore_ok (fit hfit (by rw [q2]; exact g1)) (fit hfit (by rw [q4]; exact g2)),
            ancScore_ok (fit hfit (by simp only [dropAG, q2]; omega)) (fit hfit (by simp only [dropAG, q4]; exact g2)),
            by rw [hx, q5]; rfl⟩)
        h.byAnc
      refine ⟨dl, m2, a2, ?_, g2, g3, hm2g, hx2⟩
      unfold dropDescendants
      rw [if_pos hr, collectDescendants_of_ok g1]
      simp only [bind, Except.bind, hm2]
      rfl
  obtain ⟨dl, m2, a2, hdd, hl2, hl3, hm2g, hxa⟩ := hDl
  have hm2k : ∀ k, m2.get k = if k = n then none
      else (s.byId.get k).map (fun x => if k ∈ dl then dropAG e.tx (if k ∈ anc then dropDG e.tx x else x)
        else (if k ∈ anc then dropDG e.tx x else x)) := by
    intro k
    rw [hm2g, hm1k]
    by_cases hk : k = n
    · subst hk; simp
    · rw [if_neg hk, if_neg hk]
      by_cases hkd : k ∈ dl <;> simp only [hkd, if_true, if_false, Option.map_map] <;> rfl
  have hpn : ∀ p ∈ e.parents, p ≠ n ∧ ∃ x, s.byId.get p = some x := by
    intro p hp
    have := ((h.parents n e he).2 p).1 hp
    exact ⟨this.1, mem_ids.1 (edge_mem this).1⟩
  have hcn : ∀ c ∈ e.children, c ≠ n ∧ ∃ x, s.byId.get c = some x := by
    intro c hc
    have := ((h.children n e he).2 c).1 hc
    exact ⟨this.1.symm, mem_ids.1 (edge_mem this).2⟩
  obtain ⟨m3, h3, h3g⟩ := modAll_spec (eraseChild e.tx.id) e.parents m2 (h.parents n e he).1 (by
    intro k hk
    obtain ⟨g1, x, g2⟩ := hpn k hk
    exact ⟨_, by rw [hm2k, if_neg g1, g2]; rfl⟩)
  obtain ⟨m4, h4, h4g⟩ := modAll_spec (eraseParent e.tx.id) e.children m3 (h.children n e he).1 (by
    intro k hk
    obtain ⟨g1, x, g2⟩ := hcn k hk
    rw [h3g, hm2k, if_neg g1, g2]
    split <;> exact ⟨_, rfl⟩)
  have hget : ∀ k, m4.get k = if k = n then none
      else (s.byId.get k).map (afterDrop e.tx e.parents e.children anc dl k) := by
    intro k
    rw [h4g, h3g, hm2k]
    by_cases hk : k = n
    · subst hk; simp
    · rw [if_neg hk, if_neg hk]
      cases s.byId.get k with
      | none => simp
      | some x =>
        unfold afterDrop
        by_cases g1 : k ∈ e.parents <;> by_cases g2 : k ∈ e.children <;>
          simp only [g1, g2, if_true, if_false, Option.map_some]
  obtain ⟨q, hq⟩ := (h.seq_dom n).2 hnids
  have hbq := (h.seq_inv n q).1 hq
  obtain ⟨pr, hpr, hprg⟩ := retract_spec n e.tx.provided s.provider (h.provider_nodup n e he)
    (fun d hd => (h.provider d n).2 ⟨e, he, hd⟩)
  obtain ⟨sp, hsp, hspg⟩ := retract_spec n e.tx.consumed s.spender (h.spender_nodup n e he)
    (fun d hd => (h.spender d n).2 ⟨e, he, hd⟩)
  have hds := h.descScore he
  have has := h.ancScore he
  refine ⟨⟨s.maxCount, s.maxSize, m4, d1.erase (toLex (e.descN, n)), a2.erase (toLex (e.ancN, n)),
    s.byTime.erase (toLex (e.tx.time, n)), sp, pr, s.bySeq.erase q, s.seqOf.erase n, s.nextSeq⟩, ?_, ?_, ?_, rfl, rfl,
    rfl, ?_⟩
  · simp only [removeTx, he, bind, Except.bind, ha1, hm1, hdd]
    simp only [dropTx]
    have h3' : modAll (fun p => { p with children := setErase e.tx.id p.children }) e.parents m2 = .ok m3 := h3
    have h4' : modAll (fun c => { c with parents := setErase e.tx.id c.parents }) e.children m3 = .ok m4 := h4
    simp only [bind, Except.bind, h3', h4']
    simp only [hds, has, hid, okOr, hq, ensure, hbq, if_true, hpr, hsp]
    rfl
  rotate_left
  · intro k
    show (m4.get k).map Entry.tx = _
    rw [hget]
    by_cases hk : k = n
    · simp [hk]
    · rw [if_neg hk, if_neg hk]
      unfold Store.view
      cases s.byId.get k with
      | none => rfl
      | some x => simp [afterDrop_tx]
  · intro k; exact BMap.get_erase _ _ _
  have hview : (⟨s.maxCount, s.maxSize, m4, d1.erase (toLex (e.descN, n)), a2.erase (toLex (e.ancN, n)),
    s.byTime.erase (toLex (e.tx.time, n)), sp, pr, s.bySeq.erase q, s.seqOf.erase n, s.nextSeq⟩ : Store).view = v' := by
    funext k
    show (m4.get k).map Entry.tx = _
    rw [hget]
    by_cases hk : k = n
    · simp [hk, hv']
    · simp only [hv', if_neg hk]
      unfold Store.view
      cases s.byId.get k with
      | none => rfl
      | some x => simp [afterDrop_tx]
  have hids : (⟨s.maxCount, s.maxSize, m4, d1.erase (toLex (e.descN, n)), a2.erase (toLex (e.ancN, n)),
    s.byTime.erase (toLex (e.tx.time, n)), sp, pr, s.bySeq.erase q, s.seqOf.erase n, s.nextSeq⟩ : Store).ids
      = s.ids.erase n := by
    ext k
    rw [Finset.mem_erase, mem_ids, mem_ids]
    show (∃ e, m4.get k = some e) ↔ _
    rw [hget]
    by_cases hk : k = n
    · simp [hk]
    · simp only [hk, if_false, ne_eq, not_false_eq_true, true_and]
      cases s.byId.get k <;> simp
  have hold : ∀ k x', m4.get k = some x' → k ≠ n ∧
      ∃ x, s.byId.get k = some x ∧ x' = afterDrop e.tx e.parents e.children anc dl k x := by
    intro k x' hx'
    rw [hget] at hx'
    split at hx'
    · simp at hx'
    · rename_i hk
      obtain ⟨x, hx, rfl⟩ := Option.map_eq_some_iff.1 hx'
      exact ⟨hk, x, hx, rfl⟩
  refine ⟨?_, ?_, ?_, ?_, ?_, ?_, ?_, ?_, ?_, ?_, ?_, ?_, ?_, ?_, ?_, ?_, ?_⟩
  · intro k x' hx'
    obtain ⟨hk, x, hx, rfl⟩ := hold k x' hx'
    rw [afterDrop_tx]; exact h.key k x hx
  · intro k x' hx'
    obtain ⟨hk, x, hx, rfl⟩ := hold k x' hx'
    obtain ⟨g1, g2⟩ := h.parents k x hx
    rw [afterDrop_parents, hview]
    by_cases hkc : k ∈ e.children
    · rw [if_pos hkc]
      refine ⟨nodup_setErase g1, fun p => ?_⟩
      rw [mem_setErase, hE, g2, hid]
      exact ⟨fun ⟨a, b⟩ => ⟨a, b, hk⟩, fun ⟨a, b, _⟩ => ⟨a, b⟩⟩
    · rw [if_neg hkc]
      refine ⟨g1, fun p => ?_⟩
      rw [hE, g2]
      refine ⟨fun a => ⟨a, ?_, hk⟩, fun ⟨a, _⟩ => a⟩
      rintro rfl
      exact hkc (((h.children p e he).2 k).2 a)
  · intro k x' hx'
    obtain ⟨hk, x, hx, rfl⟩ := hold k x' hx'
    obtain ⟨g1, g2⟩ := h.children k x hx
    rw [afterDrop_children, hview]
    by_cases hkp : k ∈ e.parents
    · rw [if_pos hkp]
      refine ⟨nodup_setErase g1, fun c => ?_⟩
      rw [mem_setErase, hE, g2, hid]
      exact ⟨fun ⟨a, b⟩ => ⟨a, hk, b⟩, fun ⟨a, _, b⟩ => ⟨a, b⟩⟩
    · rw [if_neg hkp]
      refine ⟨g1, fun c => ?_⟩
      rw [hE, g2]
      refine ⟨fun a => ⟨a, hk, ?_⟩, fun ⟨a, _⟩ => a⟩
      rintro rfl
      exact hkp (((h.parents c e he).2 k).2 a)
  · intro k x' hx'
    obtain ⟨hk, x, hx, rfl⟩ := hold k x' hx'
    rw [afterDrop_D, hview, hids]
    by_cases hka : k ∈ anc
    · rw [if_pos hka]
      exact dropDG_D (hDdec k x hk hx ((ha3 k).1 hka).2)
    · rw [if_neg hka, h.descendants k x hx, hneg _ (fun hr => hka ((ha3 k).2 ⟨hk, hr⟩))]
      exact total_congr (fun j hj => (hreach k j hk (Finset.ne_of_mem_erase hj)).symm)
  · intro k x' hx'
    obtain ⟨hk, x, hx, rfl⟩ := hold k x' hx'
    rw [afterDrop_A, hview, hids]
    by_cases hka : k ∈ dl
    · rw [if_pos hka]
      exact dropAG_A (hAdec k x hk hx ((hl3 k).1 hka).2)
    · rw [if_neg hka, h.ancestors k x hx, hneg (fun a => Reach s.view a k) (fun hr => hka ((hl3 k).2 ⟨hk, hr⟩))]
      exact total_congr (fun j hj => (hreach j k (Finset.ne_of_mem_erase hj) hk).symm)
  · rw [hview, hids]
    have := hpos (fun _ => True) trivial
    have h2 : (total s.view s.ids (fun _ => True)).2.1 = e.tx.fee + _ := congrArg (fun w => w.2.1) this
    exact fit hfit (by rw [h2]; exact Nat.le_add_left _ _)
  · intro d k
    show sp.get d = some k ↔ ∃ x', m4.get k = some x' ∧ _
    rw [hspg]
    constructor
    · intro hd
      split at hd
      · simp at hd
      rename_i hdn
      obtain ⟨x, hx, hdx⟩ := (h.spender d k).1 hd
      have hk : k ≠ n := by rintro rfl; rw [he] at hx; simp only [Option.some.injEq] at hx; subst hx; exact hdn hdx
      exact ⟨_, by rw [hget, if_neg hk, hx]; rfl, by rw [afterDrop_tx]; exact hdx⟩
    · rintro ⟨x', hx', hdx⟩
      obtain ⟨hk, x, hx, rfl⟩ := hold k x' hx'
      rw [afterDrop_tx] at hdx
      have h1 := (h.spender d k).2 ⟨x, hx, hdx⟩
      rw [if_neg, h1]
      intro hdn
      have h2 := (h.spender d n).2 ⟨e, he, hdn⟩
      rw [h1] at h2
      simp only [Option.some.injEq] at h2
      exact hk h2
  · intro k x' hx'
    obtain ⟨hk, x, hx, rfl⟩ := hold k x' hx'
    rw [afterDrop_tx]; exact h.spender_nodup k x hx
  · intro d k
    show pr.get d = some k ↔ ∃ x', m4.get k = some x' ∧ _
    rw [hprg]
    constructor
    · intro hd
      split at hd
      · simp at hd
      rename_i hdn
      obtain ⟨x, hx, hdx⟩ := (h.provider d k).1 hd
      have hk : k ≠ n := by rintro rfl; rw [he] at hx; simp only [Option.some.injEq] at hx; subst hx; exact hdn hdx
      exact ⟨_, by rw [hget, if_neg hk, hx]; rfl, by rw [afterDrop_tx]; exact hdx⟩
    · rintro ⟨x', hx', hdx⟩
      obtain ⟨hk, x, hx, rfl⟩ := hold k x' hx'
      rw [afterDrop_tx] at hdx
      have h1 := (h.provider d k).2 ⟨x, hx, hdx⟩
      rw [if_neg, h1]
      intro hdn
      have h2 := (h.provider d n).2 ⟨e, he, hdn⟩
      rw [h1] at h2
      simp only [Option.some.injEq] at h2
      exact hk h2
  · intro k x' hx'
    obtain ⟨hk, x, hx, rfl⟩ := hold k x' hx'
    rw [afterDrop_tx]; exact h.provider_nodup k x hx
  · refine (hd1.erase (k := n) (q := e.descN) ?_).congr (fun k => ?_)
    · have : n ∉ anc := fun hm => ((ha3 n).1 hm).1 rfl
      beta_reduce
      rw [if_neg this, he]; rfl
    · show _ = (m4.get k).map Entry.descN
      rw [hget]
      by_cases hk : k = n
      · simp [hk]
      · simp only [if_neg hk, BMap.get_erase]
        cases s.byId.get k with
        | none => simp
        | some x => by_cases hka : k ∈ anc <;> simp [hka, afterDrop_descN]
  · refine (hxa.erase (k := n) (q := e.ancN) ?_).congr (fun k => ?_)
    · have : n ∉ dl := fun hm => ((hl3 n).1 hm).1 rfl
      beta_reduce
      rw [if_neg this, he]; rfl
    · show _ = (m4.get k).map Entry.ancN
      rw [hget]
      by_cases hk : k = n
      · simp [hk]
      · simp only [if_neg hk, hm1k]
        cases s.byId.get k with
        | none => simp
        | some x =>
          by_cases hka : k ∈ dl
          · simp only [hka, if_true, Option.map_some, afterDrop_ancN, Option.some.injEq]
            split <;> rfl
          · simp [hka, afterDrop_ancN]
  · refine (h.byTime.erase (k := n) (q := e.tx.time) (by rw [he]; rfl)).congr (fun k => ?_)
    show _ = (m4.get k).map _
    rw [hget]
    by_cases hk : k = n
    · simp [hk]
    · simp only [if_neg hk]
      cases s.byId.get k with
      | none => simp
      | some x => simp [afterDrop_tx]
  · intro k j
    show (s.seqOf.erase n).get k = some j ↔ (s.bySeq.erase q).get j = some k
    rw [BMap.get_erase, BMap.get_erase]
    have := h.seq_inv k j
    by_cases hk : k = n
    · subst hk
      simp only [if_true, reduceCtorEq, false_iff]
      split
      · simp
      · rename_i hj
        intro hh
        rw [← this, hq] at hh
        simp only [Option.some.injEq] at hh
        exact hj hh.symm
    · rw [if_neg hk]
      by_cases hj : j = q
      · subst hj
        rw [if_pos rfl, this, hbq]
        simp only [Option.some.injEq, reduceCtorEq, iff_false]
        exact fun hh => hk hh.symm
      · rw [if_neg hj]; exact this
  · intro k
    rw [hids, Finset.mem_erase]
    show (∃ j, (s.seqOf.erase n).get k = some j) ↔ _
    rw [BMap.get_erase]
    by_cases hk : k = n
    · simp [hk]
    · simp only [if_neg hk, ne_eq, hk, not_false_eq_true, true_and]; exact h.seq_dom k
  · intro k j hkj
    have hkj : (s.seqOf.erase n).get k = some j := hkj
    rw [BMap.get_erase] at hkj
    split at hkj
    · simp at hkj
    · exact h.seq_lt k j hkj
  · intro a b i j hab hai hbj
    rw [hview] at hab
    obtain ⟨g1, g2, g3⟩ := (hE a b).1 hab
    have hai : (s.seqOf.erase n).get a = some i := hai
    have hbj : (s.seqOf.erase n).get b = some j := hbj
    rw [BMap.get_erase, if_neg g2] at hai
    rw [BMap.get_erase, if_neg g3] at hbj
    exact h.seq_edge a b i j g1 hai hbj

end Verif.Mempool
