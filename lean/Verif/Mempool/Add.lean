import Verif.Mempool.Rel

namespace Verif.Mempool

open Verif (BMap okOr ensure bind_eq_ok)
open Relation (ReflTransGen)

theorem fit {a F U : Nat} (hF : F * 1000 < U) (h : a ≤ F) : a * 1000 < U :=
  lt_of_le_of_lt (Nat.mul_le_mul_right _ h) hF

/-! ## Facts about a valid store -/

theorem view_some {s : Store} {k : Nat} {t : Tx} : s.view k = some t ↔ ∃ e, s.byId.get k = some e ∧ e.tx = t := by
  unfold Store.view; simp [Option.map_eq_some_iff]

theorem view_none {s : Store} {k : Nat} : s.view k = none ↔ s.byId.get k = none := by
  unfold Store.view; simp

theorem mem_ids {s : Store} {k : Nat} : k ∈ s.ids ↔ ∃ e, s.byId.get k = some e := mem_keys

theorem edge_mem {s : Store} {a b : Nat} (h : Edge s.view a b) : a ∈ s.ids ∧ b ∈ s.ids := by
  obtain ⟨-, ta, tb, ha, hb, -⟩ := h
  obtain ⟨e, he, -⟩ := view_some.1 ha
  obtain ⟨e', he', -⟩ := view_some.1 hb
  exact ⟨mem_ids.2 ⟨e, he⟩, mem_ids.2 ⟨e', he'⟩⟩

theorem reach_mem {s : Store} {a b : Nat} (h : Reach s.view a b) (hb : b ∈ s.ids) : a ∈ s.ids := by
  rcases Relation.ReflTransGen.cases_head h with rfl | ⟨c, hc, -⟩
  · exact hb
  · exact (edge_mem hc).1

theorem reach_mem' {s : Store} {a b : Nat} (h : Reach s.view a b) (ha : a ∈ s.ids) : b ∈ s.ids := by
  rcases Relation.ReflTransGen.cases_tail h with h1 | ⟨c, -, hc⟩
  · rw [h1]; exact ha
  · exact (edge_mem hc).2

theorem Inv.nextRel_parents {s : Store} (h : Inv s) {x y : Nat} :
    NextRel (nextOf s.byId Entry.parents) x y ↔ Edge s.view y x := by
  rw [nextRel_nextOf]
  constructor
  · rintro ⟨e, he, hy⟩; exact ((h.parents x e he).2 y).1 hy
  · intro hE
    obtain ⟨e, he⟩ := mem_ids.1 (edge_mem hE).2
    exact ⟨e, he, ((h.parents x e he).2 y).2 hE⟩

theorem Inv.nextRel_children {s : Store} (h : Inv s) {x y : Nat} :
    NextRel (nextOf s.byId Entry.children) x y ↔ Edge s.view x y := by
  rw [nextRel_nextOf]
  constructor
  · rintro ⟨e, he, hy⟩; exact ((h.children x e he).2 y).1 hy
  · intro hE
    obtain ⟨e, he⟩ := mem_ids.1 (edge_mem hE).1
    exact ⟨e, he, ((h.children x e he).2 y).2 hE⟩

/-- connected: related in either direction -/
def Adj (v : Pool) (a b : Nat) : Prop := Edge v a b ∨ Edge v b a

theorem Inv.nextRel_cluster {s : Store} (h : Inv s) {x y : Nat} :
    NextRel (nextOf s.byId (fun e => e.parents ++ e.children)) x y ↔ Adj s.view x y := by
  rw [nextRel_nextOf]
  constructor
  · rintro ⟨e, he, hy⟩
    rcases List.mem_append.1 hy with hy | hy
    · exact Or.inr (((h.parents x e he).2 y).1 hy)
    · exact Or.inl (((h.children x e he).2 y).1 hy)
  · rintro (hE | hE)
    · obtain ⟨e, he⟩ := mem_ids.1 (edge_mem hE).1
      exact ⟨e, he, List.mem_append_right _ (((h.children x e he).2 y).2 hE)⟩
    · obtain ⟨e, he⟩ := mem_ids.1 (edge_mem hE).2
      exact ⟨e, he, List.mem_append_left _ (((h.parents x e he).2 y).2 hE)⟩

theorem Inv.feesD_le {s : Store} (h : Inv s) {k : Nat} {e : Entry} (he : s.byId.get k = some e) :
    e.feesD ≤ (total s.view s.ids (fun _ => True)).2.1 := by
  have := congrArg (fun x => x.2.1) (h.descendants k e he)
  simp only [Entry.D] at this
  rw [this]; exact total_fee_le _ _ _

theorem Inv.feesA_le {s : Store} (h : Inv s) {k : Nat} {e : Entry} (he : s.byId.get k = some e) :
    e.feesA ≤ (total s.view s.ids (fun _ => True)).2.1 := by
  have := congrArg (fun x => x.2.1) (h.ancestors k e he)
  simp only [Entry.A] at this
  rw [this]; exact total_fee_le _ _ _

theorem Inv.fee_le {s : Store} {k : Nat} {e : Entry} (he : s.byId.get k = some e) :
    e.tx.fee ≤ (total s.view s.ids (fun _ => True)).2.1 :=
  fee_le_total (mem_ids.2 ⟨e, he⟩) (view_some.2 ⟨e, he, rfl⟩) trivial

theorem Inv.descScore {s : Store} (h : Inv s) {k : Nat} {e : Entry} (he : s.byId.get k = some e) :
    e.descScore = .ok e.descN := by
  have h1 := h.feesD_le he
  have h2 := Inv.fee_le he
  have h3 := h.fits
  generalize (total s.view s.ids (fun _ => True)).2.1 = F at h1 h2 h3
  exact descScore_ok (lt_of_le_of_lt (Nat.mul_le_mul_right _ h1) h3) (lt_of_le_of_lt (Nat.mul_le_mul_right _ h2) h3)

theorem Inv.ancScore {s : Store} (h : Inv s) {k : Nat} {e : Entry} (he : s.byId.get k = some e) :
    e.ancScore = .ok e.ancN := by
  have h1 := h.feesA_le he
  have h2 := Inv.fee_le he
  have h3 := h.fits
  generalize (total s.view s.ids (fun _ => True)).2.1 = F at h1 h2 h3
  exact ancScore_ok (lt_of_le_of_lt (Nat.mul_le_mul_right _ h1) h3) (lt_of_le_of_lt (Nat.mul_le_mul_right _ h2) h3)

/-! ## The new entry -/

theorem provided_nonUtxo {t : Tx} {d : Dep} (h : d ∈ t.provided) : d.isNonUtxo = true := by
  unfold Tx.provided at h
  rcases List.mem_append.1 h with h | h
  · obtain ⟨i, -, hi⟩ := List.mem_filterMap.1 h
    cases i <;> simp only [Input.provides, Option.map_eq_some_iff, reduceCtorEq] at hi
    · obtain ⟨_, -, rfl⟩ := hi; rfl
    · obtain ⟨_, -, rfl⟩ := hi; rfl
  · obtain ⟨o, -, ho⟩ := List.mem_filterMap.1 h
    cases o <;> simp only [Output.provides, Option.map_eq_some_iff, Option.some.injEq, reduceCtorEq] at ho
    · obtain ⟨_, -, rfl⟩ := ho; rfl
    · subst ho; rfl
    · obtain ⟨_, -, rfl⟩ := ho; rfl
    · obtain ⟨_, -, rfl⟩ := ho; rfl

theorem Inv.mem_txParents {s : Store} (h : Inv s) {t : Tx} {p : Nat} :
    p ∈ txParents s t ↔ ∃ tp, s.view p = some tp ∧ DependsOn tp t := by
  unfold txParents
  rw [mem_toSet, List.mem_append, List.mem_filter, List.mem_filterMap]
  constructor
  · rintro (⟨h1, h2⟩ | ⟨d, h1, h2⟩)
    · obtain ⟨e, he⟩ := Option.isSome_iff_exists.1 h2
      refine ⟨e.tx, view_some.2 ⟨e, he, rfl⟩, Or.inl ?_⟩
      rw [(h.key p e he).1]; exact h1
    · obtain ⟨e, he, hd⟩ := (h.provider d p).1 h2
      exact ⟨e.tx, view_some.2 ⟨e, he, rfl⟩, Or.inr ⟨d, (List.mem_filter.1 h1).1, hd⟩⟩
  · rintro ⟨tp, hv, hd⟩
    obtain ⟨e, he, rfl⟩ := view_some.1 hv
    rcases hd with h1 | ⟨d, h1, h2⟩
    · left
      rw [(h.key p e he).1] at h1
      exact ⟨h1, by rw [he]; rfl⟩
    · right
      exact ⟨d, List.mem_filter.2 ⟨h1, provided_nonUtxo h2⟩, (h.provider d p).2 ⟨e, he, h2⟩⟩

theorem sum_weight_count {s : Store} : ∀ (l : List Nat), (∀ k ∈ l, k ∈ s.ids) →
    ((l.map (weightAt s.view)).sum).1 = l.length := by
  intro l
  induction l with
  | nil => intro _; rfl
  | cons a as ih =>
    intro h
    obtain ⟨e, he⟩ := mem_ids.1 (h a (by simp))
    rw [List.map_cons, List.sum_cons, Prod.fst_add, ih (fun k hk => h k (by simp [hk])), List.length_cons]
    have : weightAt s.view a = weight e.tx := by simp [weightAt, Store.view, he]
    rw [this]; simp only [weight]; omega

theorem sumAncestors_spec {s : Store} : ∀ (l : List Nat) (f z : Nat), (∀ k ∈ l, k ∈ s.ids) →
    f + ((l.map (weightAt s.view)).sum).2.1 < U128 →
    sumAncestors s.byId l (f, z) = .ok (f + ((l.map (weightAt s.view)).sum).2.1,
      z + ((l.map (weightAt s.view)).sum).2.2) := by
  intro l
  induction l with
  | nil => intro f z _ _; simp [sumAncestors]
  | cons a as ih =>
    intro f z h hf
    obtain ⟨e, he⟩ := mem_ids.1 (h a (by simp))
    have hw : weightAt s.view a = weight e.tx := by simp [weightAt, Store.view, he]
    rw [List.map_cons, List.sum_cons, hw] at hf ⊢
    simp only [Prod.snd_add, Prod.fst_add, weight] at hf ⊢
    have hlt : f + e.tx.fee < U128 := by omega
    simp only [sumAncestors, he, Amt.add, hlt, if_true, okOr, bind, Except.bind]
    rw [ih (f + e.tx.fee) (z + e.tx.size) (fun k hk => h k (by simp [hk])) (by omega)]
    congr 2 <;> omega

theorem clusterSize_spec {s : Store} : ∀ (l : List Nat) (z : Nat), (∀ k ∈ l, k ∈ s.ids) →
    clusterSize s.byId l z = .ok (z + ((l.map (weightAt s.view)).sum).2.2) := by
  intro l
  induction l with
  | nil => intro z _; simp [clusterSize]
  | cons a as ih =>
    intro z h
    obtain ⟨e, he⟩ := mem_ids.1 (h a (by simp))
    have hw : weightAt s.view a = weight e.tx := by simp [weightAt, Store.view, he]
    rw [List.map_cons, List.sum_cons, hw]
    simp only [clusterSize, he]
    rw [ih _ (fun k hk => h k (by simp [hk]))]
    simp only [Prod.snd_add, weight]
    congr 1; omega

/-- the cluster limits hold for a new transaction joining the listed cluster -/
def Within (s : Store) (t : Tx) (cluster : List Nat) : Prop :=
  cluster.Nodup ∧ (∀ x, x ∈ cluster ↔ ∃ p ∈ txParents s t, ReflTransGen (Adj s.view) p x) ∧
  (cluster = [] ∨ 1 + cluster.length ≤ s.maxCount) ∧
  t.size + ((cluster.map (weightAt s.view)).sum).2.2 ≤ s.maxSize

theorem Inv.newEntry_spec {s : Store} (h : Inv s) {t : Tx} (ha : Addable s t) :
    (newEntry s t = .error .clusterTxCount ∨ newEntry s t = .error .clusterTxSize) ∨
    ∃ anc cluster, newEntry s t = .ok (⟨t, txParents s t, [], 1,
        1 + anc.length, t.fee, t.fee + ((anc.map (weightAt s.view)).sum).2.1, t.size,
        t.size + ((anc.map (weightAt s.view)).sum).2.2⟩, anc) ∧
      anc.Nodup ∧ (∀ x, x ∈ anc ↔ ∃ p ∈ txParents s t, Reach s.view x p) ∧ Within s t cluster := by
  have hpar : ∀ p ∈ txParents s t, p ∈ keys s.byId := by
    intro p hp
    obtain ⟨tp, hv, -⟩ := h.mem_txParents.1 hp
    obtain ⟨e, he, -⟩ := view_some.1 hv
    exact mem_keys.2 ⟨e, he⟩
  have hclC : ∀ x e, s.byId.get x = some e → ∀ y ∈ e.parents ++ e.children, y ∈ keys s.byId := by
    intro x e he y hy
    rcases List.mem_append.1 hy with hy | hy
    · exact (edge_mem (((h.parents x e he).2 y).1 hy)).1
    · exact (edge_mem (((h.children x e he).2 y).1 hy)).2
  have hclP : ∀ x e, s.byId.get x = some e → ∀ y ∈ e.parents, y ∈ keys s.byId :=
    fun x e he y hy => hclC x e he y (List.mem_append_left _ hy)
  dsimp only [newEntry]
  rcases collect_spec (check := fun n => ensure (1 + n ≤ s.maxCount) Err.clusterTxCount) hclC hpar with
    ⟨cl, c1, c2, c3, c4⟩ | ⟨k, er, c1, c2⟩
  · rcases collect_spec (check := noCheck) hclP hpar with ⟨anc, a1, a2, a3, -⟩ | ⟨k, er, a1, -⟩
    · have hclmem : ∀ x ∈ cl, x ∈ s.ids := by
        intro x hx
        obtain ⟨p, hp, hpx⟩ := (c3 x).1 hx
        rcases Relation.ReflTransGen.cases_tail hpx with h1 | ⟨c, -, hc⟩
        · rw [h1]; exact hpar p hp
        · rcases h.nextRel_cluster.1 hc with h1 | h1
          · exact (edge_mem h1).2
          · exact (edge_mem h1).1
      have ha3 : ∀ x, x ∈ anc ↔ ∃ p ∈ txParents s t, Reach s.view x p := by
        intro x
        rw [a3 x]
        have : NextRel (nextOf s.byId Entry.parents) = fun x y => Edge s.view y x := by
          funext x y; exact propext h.nextRel_parents
        rw [this]
        constructor
        · rintro ⟨p, hp, hpx⟩; exact ⟨p, hp, reach_flip.1 hpx⟩
        · rintro ⟨p, hp, hpx⟩; exact ⟨p, hp, reach_flip.2 hpx⟩
      have hancmem : ∀ x ∈ anc, x ∈ s.ids := by
        intro x hx
        obtain ⟨p, hp, hpx⟩ := (ha3 x).1 hx
        exact reach_mem hpx (hpar p hp)
      have hfee : t.fee + ((anc.map (weightAt s.view)).sum).2.1 < U128 := by
        have e1 : total s.view s.ids (· ∈ anc) = (anc.map (weightAt s.view)).sum :=
          total_list a2 (fun k => ⟨fun hk => ⟨hancmem k hk, hk⟩, fun hk => hk.2⟩)
        have e2 := total_fee_le s.view s.ids (· ∈ anc)
        rw [e1] at e2
        have := ha.fits
        omega
      rw [c1]
      simp only [bind, Except.bind]
      rw [clusterSize_spec cl t.size hclmem]
      simp only
      by_cases hsz : t.size + ((cl.map (weightAt s.view)).sum).2.2 ≤ s.maxSize
      · right
        refine ⟨anc, cl, ?_, a2, ha3, c2, ?_, ?_, hsz⟩
        · simp only [ensure, hsz, if_true, a1]
          rw [sumAncestors_spec anc t.fee t.size hancmem hfee]
          rfl
        · have : NextRel (nextOf s.byId (fun e => e.parents ++ e.children)) = Adj s.view := by
            funext x y; exact propext h.nextRel_cluster
          rw [← this]; exact c3
        · rcases c4 with c4 | c4
          · exact Or.inl c4
          · right
            simp only [ensure] at c4
            by_contra hc
            simp [hc] at c4
      · left; right
        simp only [ensure, hsz, if_false]
    · simp [noCheck] at a1
  · left; left
    rw [c2]
    simp only [ensure] at c1
    split at c1
    · simp at c1
    · simp only [Except.error.injEq] at c1
      subst c1; rfl

/-! ## Pools and leaves -/

theorem leafExt_of_pool {v v' : Pool} {n : Nat} {t : Tx} (hn : v n = none)
    (hv : ∀ k, v' k = if k = n then some t else v k) (hleaf : ∀ k u, v k = some u → ¬ DependsOn t u) :
    LeafExt (Edge v) (Edge v') n (fun a => ∃ ta, v a = some ta ∧ DependsOn ta t) where
  old := by
    rintro a b ⟨-, ta, tb, ha, hb, -⟩
    constructor <;> rintro rfl <;> simp_all
  par := by
    rintro a ⟨ta, ha, -⟩ rfl
    simp_all
  iff := by
    intro a b
    constructor
    · rintro ⟨hne, ta, tb, ha, hb, hd⟩
      rw [hv] at ha hb
      by_cases hbn : b = n
      · subst hbn
        have han : a ≠ b := hne
        rw [if_neg han] at ha
        simp only [if_true, Option.some.injEq] at hb
        subst hb
        exact Or.inr ⟨rfl, ta, ha, hd⟩
      · rw [if_neg hbn] at hb
        by_cases han : a = n
        · subst han
          simp only [if_true, Option.some.injEq] at ha
          subst ha
          exact absurd hd (hleaf b tb hb)
        · rw [if_neg han] at ha
          exact Or.inl ⟨hne, ta, tb, ha, hb, hd⟩
    · rintro (⟨hne, ta, tb, ha, hb, hd⟩ | ⟨rfl, ta, ha, hd⟩)
      · have h1 : a ≠ n := by rintro rfl; simp_all
        have h2 : b ≠ n := by rintro rfl; simp_all
        exact ⟨hne, ta, tb, by rw [hv, if_neg h1]; exact ha, by rw [hv, if_neg h2]; exact hb, hd⟩
      · have h1 : a ≠ b := by rintro rfl; simp_all
        exact ⟨h1, ta, t, by rw [hv, if_neg h1]; exact ha, by rw [hv, if_pos rfl], hd⟩

/-- the effect of `bumpDesc` when nothing overflows -/
def bumpG (t : Tx) (e : Entry) : Entry :=
  { e with feesD := e.feesD + t.fee, sizeD := t.size + e.sizeD, countD := e.countD + 1 }

theorem bumpDesc_ok {t : Tx} {e : Entry} (h : e.feesD + t.fee < U128) : bumpDesc t e = .ok (bumpG t e) := by
  simp [bumpDesc, Amt.add, h, okOr, bind, Except.bind, pure, Except.pure, bumpG]

theorem bumpG_D (t : Tx) (e : Entry) : (bumpG t e).D = weight t + e.D := by
  simp only [bumpG, Entry.D, weight, Prod.mk_add_mk, Prod.mk.injEq]
  exact ⟨by omega, by omega, trivial⟩

/-- children list with the new one added -/
def addChild (n : Nat) (p : Entry) : Entry := { p with children := setInsert n p.children }

/-- the old entries after an addition -/
def afterAdd (t : Tx) (parents anc : List Nat) (k : Nat) (x : Entry) : Entry :=
  let x1 := if k ∈ parents then addChild t.id x else x
  if k ∈ anc then bumpG t x1 else x1

theorem afterAdd_tx (t : Tx) (ps anc : List Nat) (k : Nat) (x : Entry) : (afterAdd t ps anc k x).tx = x.tx := by
  unfold afterAdd addChild bumpG; split <;> split <;> rfl
theorem afterAdd_parents (t : Tx) (ps anc : List Nat) (k : Nat) (x : Entry) :
    (afterAdd t ps anc k x).parents = x.parents := by
  unfold afterAdd addChild bumpG; split <;> split <;> rfl
theorem afterAdd_children (t : Tx) (ps anc : List Nat) (k : Nat) (x : Entry) :
    (afterAdd t ps anc k x).children = if k ∈ ps then setInsert t.id x.children else x.children := by
  unfold afterAdd addChild bumpG; split <;> split <;> rfl
theorem afterAdd_A (t : Tx) (ps anc : List Nat) (k : Nat) (x : Entry) : (afterAdd t ps anc k x).A = x.A := by
  unfold afterAdd addChild bumpG; split <;> split <;> rfl
theorem afterAdd_D (t : Tx) (ps anc : List Nat) (k : Nat) (x : Entry) :
    (afterAdd t ps anc k x).D = if k ∈ anc then weight t + x.D else x.D := by
  dsimp only [afterAdd]
  by_cases ha : k ∈ anc
  · rw [if_pos ha, if_pos ha, bumpG_D]; split <;> rfl
  · rw [if_neg ha, if_neg ha]; split <;> rfl
theorem afterAdd_ancN (t : Tx) (ps anc : List Nat) (k : Nat) (x : Entry) : (afterAdd t ps anc k x).ancN = x.ancN := by
  unfold afterAdd addChild bumpG Entry.ancN; split <;> split <;> rfl

/-- What `addEntry` does to the maps. -/
theorem Inv.addEntry_spec {s : Store} (h : Inv s) {e : Entry} {anc : List Nat} (ha : Addable s e.tx)
    (hpar : e.parents.Nodup ∧ ∀ p ∈ e.parents, p ∈ s.ids)
    (hanc : anc.Nodup ∧ ∀ p ∈ anc, p ∈ s.ids)
    (hd : e.feesD * 1000 < U128) (hA : e.feesA * 1000 < U128) :
    ∃ s', addEntry s e anc = .ok s' ∧
      (∀ k, s'.byId.get k = if k = e.tx.id then some e else (s.byId.get k).map (afterAdd e.tx e.parents anc k)) ∧
      Exact s'.byDesc (fun k => (s'.byId.get k).map Entry.descN) ∧
      Exact s'.byAnc (fun k => (s'.byId.get k).map Entry.ancN) ∧
      Exact s'.byTime (fun k => (s'.byId.get k).map (fun e => e.tx.time)) ∧
      s'.spender = extend s.spender e.tx.id e.tx.consumed ∧
      s'.provider = extend s.provider e.tx.id e.tx.provided ∧
      s'.bySeq = s.bySeq.insert s.nextSeq e.tx.id ∧ s'.seqOf = s.seqOf.insert e.tx.id s.nextSeq ∧
      s'.nextSeq = s.nextSeq + 1 ∧ s'.maxCount = s.maxCount ∧ s'.maxSize = s.maxSize := by
  have hfresh : s.byId.get e.tx.id = none := view_none.1 ha.fresh
  have hnid : e.tx.id ∉ s.ids := by
    intro hm; obtain ⟨x, hx⟩ := mem_ids.1 hm; rw [hfresh] at hx; simp at hx
  have hfit := ha.fits
  obtain ⟨m1, h1, h1g⟩ := modAll_spec (addChild e.tx.id) e.parents s.byId hpar.1
    (fun k hk => mem_ids.1 (hpar.2 k hk))
  have hdN : ∀ (k : Nat) (x : Entry), (if k ∈ e.parents then addChild e.tx.id x else x).descN = x.descN := by
    intro k x; split <;> rfl
  have hm1 : ∀ k, m1.get k = (s.byId.get k).map (fun x => if k ∈ e.parents then addChild e.tx.id x else x) := by
    intro k
    rw [h1g k]
    by_cases hk : k ∈ e.parents
    · simp [hk]
    · simp [hk]
  obtain ⟨m2, d2, h2, h2g, h2x⟩ := modScored_spec (score := Entry.descScore) (f := bumpDesc e.tx) (bumpG e.tx)
    Entry.descN anc m1 s.byDesc (fun k => (s.byId.get k).map Entry.descN) hanc.1 (by
      intro k hk
      obtain ⟨x, hx⟩ := mem_ids.1 (hanc.2 k hk)
      have hxD := h.feesD_le hx
      have hxF := Inv.fee_le hx
      refine ⟨if k ∈ e.parents then addChild e.tx.id x else x, by rw [hm1, hx]; rfl, ?_, ?_, ?_, ?_⟩
      · apply bumpDesc_ok
        have : (if k ∈ e.parents then addChild e.tx.id x else x).feesD = x.feesD := by split <;> rfl
        rw [this]; omega
      · have e1 : (if k ∈ e.parents then addChild e.tx.id x else x).feesD = x.feesD := by split <;> rfl
        have e2 : (if k ∈ e.parents then addChild e.tx.id x else x).tx = x.tx := by split <;> rfl
        apply descScore_ok
        · rw [e1]; exact fit hfit (by omega)
        · rw [e2]; exact fit hfit (by omega)
      · have e1 : (bumpG e.tx (if k ∈ e.parents then addChild e.tx.id x else x)).feesD = x.feesD + e.tx.fee := by
          split <;> rfl
        have e2 : (bumpG e.tx (if k ∈ e.parents then addChild e.tx.id x else x)).tx = x.tx := by split <;> rfl
        apply descScore_ok
        · rw [e1]; exact fit hfit (by omega)
        · rw [e2]; exact fit hfit (by omega)
      · rw [hx, hdN]; rfl)
    h.byDesc
  have hm2n : m2.get e.tx.id = none := by
    rw [h2g]
    have : e.tx.id ∉ anc := fun hm => hnid (hanc.2 _ hm)
    rw [if_neg this, hm1, hfresh]; rfl
  have hds : e.descScore = .ok e.descN := descScore_ok hd (fit hfit (by omega))
  have has : e.ancScore = .ok e.ancN := ancScore_ok hA (fit hfit (by omega))
  have hget : ∀ k, (m2.insert e.tx.id e).get k
      = if k = e.tx.id then some e else (s.byId.get k).map (afterAdd e.tx e.parents anc k) := by
    intro k
    rw [BMap.get_insert]
    by_cases hk : k = e.tx.id
    · simp [hk]
    · rw [if_neg hk, if_neg hk, h2g, hm1]
      unfold afterAdd
      cases s.byId.get k with
      | none => simp
      | some x => by_cases hka : k ∈ anc <;> simp [hka]
  refine ⟨⟨s.maxCount, s.maxSize, m2.insert e.tx.id e, d2.insert (toLex (e.descN, e.tx.id)) (),
    s.byAnc.insert (toLex (e.ancN, e.tx.id)) (), s.byTime.insert (toLex (e.tx.time, e.tx.id)) (),
    extend s.spender e.tx.id e.tx.consumed, extend s.provider e.tx.id e.tx.provided,
    s.bySeq.insert s.nextSeq e.tx.id, s.seqOf.insert e.tx.id s.nextSeq, s.nextSeq + 1⟩, ?_, hget, ?_, ?_, ?_,
    rfl, rfl, rfl, rfl, rfl, rfl, rfl⟩
  · unfold addEntry
    have h1' : modAll (fun p => { p with children := setInsert e.tx.id p.children }) e.parents s.byId = .ok m1 := h1
    rw [h1']
    simp only [bind, Except.bind, h2, hds, has, hm2n]
    rfl
  · refine (h2x.insert (k := e.tx.id) (q := e.descN) ?_).congr (fun k => ?_)
    · have : e.tx.id ∉ anc := fun hm => hnid (hanc.2 _ hm)
      rw [if_neg this, hfresh]; rfl
    · rw [hget]
      by_cases hk : k = e.tx.id
      · simp [hk]
      · simp only [if_neg hk, hm1]
        cases hg : s.byId.get k with
        | none => simp
        | some x =>
          by_cases hka : k ∈ anc
          · simp [hka, afterAdd]
          · simp [hka, afterAdd, hdN]
  · refine (h.byAnc.insert (k := e.tx.id) (q := e.ancN) (by rw [hfresh]; rfl)).congr (fun k => ?_)
    rw [hget]
    by_cases hk : k = e.tx.id
    · simp [hk]
    · simp only [if_neg hk]
      cases hg : s.byId.get k with
      | none => simp
      | some x => simp only [Option.map_some, afterAdd_ancN]; rfl
  · refine (h.byTime.insert (k := e.tx.id) (q := e.tx.time) (by rw [hfresh]; rfl)).congr (fun k => ?_)
    rw [hget]
    by_cases hk : k = e.tx.id
    · simp [hk]
    · simp only [if_neg hk]
      cases hg : s.byId.get k with
      | none => simp
      | some x => simp [afterAdd_tx]

/-- A valid store accepts an admissible transaction (or refuses it because of the cluster limits) and stays
valid. -/
theorem Inv.add_spec_entry {s : Store} (h : Inv s) {t : Tx} (ha : Addable s t) :
    (newEntry s t = .error .clusterTxCount ∨ newEntry s t = .error .clusterTxSize) ∨
    ∃ s' cluster, add s t = .ok s' ∧ Inv s' ∧ (∀ k, s'.view k = if k = t.id then some t else s.view k) ∧
      s'.maxCount = s.maxCount ∧ s'.maxSize = s.maxSize ∧ Within s t cluster := by
  rcases h.newEntry_spec ha with h0 | ⟨anc, cl, h0, hn, hmem, hw⟩
  · exact .inl h0
  right
  have hfresh : s.byId.get t.id = none := view_none.1 ha.fresh
  have hnid : t.id ∉ s.ids := by
    intro hm; obtain ⟨x, hx⟩ := mem_ids.1 hm; rw [hfresh] at hx; simp at hx
  have hparids : ∀ p ∈ txParents s t, p ∈ s.ids := by
    intro p hp
    obtain ⟨tp, hv, -⟩ := h.mem_txParents.1 hp
    obtain ⟨e, he, -⟩ := view_some.1 hv
    exact mem_ids.2 ⟨e, he⟩
  have hancids : ∀ x ∈ anc, x ∈ s.ids := by
    intro x hx
    obtain ⟨p, hp, hpx⟩ := (hmem x).1 hx
    exact reach_mem hpx (hparids p hp)
  have hanctot : total s.view s.ids (· ∈ anc) = (anc.map (weightAt s.view)).sum :=
    total_list hn (fun k => ⟨fun hk => ⟨hancids k hk, hk⟩, fun hk => hk.2⟩)
  have hfit := ha.fits
  generalize hent : (⟨t, txParents s t, [], 1, 1 + anc.length, t.fee,
    t.fee + ((anc.map (weightAt s.view)).sum).2.1, t.size,
    t.size + ((anc.map (weightAt s.view)).sum).2.2⟩ : Entry) = e at h0
  have etx : e.tx = t := by rw [← hent]
  have epar : e.parents = txParents s t := by rw [← hent]
  have echi : e.children = [] := by rw [← hent]
  have eD : e.D = weight t := by rw [← hent]; rfl
  have eA : e.A = weight t + total s.view s.ids (· ∈ anc) := by
    rw [hanctot, ← hent]
    refine Prod.ext ?_ (Prod.ext ?_ ?_)
    · show 1 + anc.length = 1 + _
      rw [sum_weight_count anc hancids]
    · rfl
    · rfl
  have hfA := total_fee_le s.view s.ids (· ∈ anc)
  obtain ⟨s', h1, hget, hxD, hxA, hxT, hsp, hpr, hbs, hso, hns, hmc, hms⟩ := h.addEntry_spec (e := e) (anc := anc)
    (by rw [etx]; exact ha) ⟨by rw [epar]; exact nodup_toSet _, by rw [epar]; exact hparids⟩ ⟨hn, hancids⟩
    (by
      have : e.feesD = t.fee := congrArg (fun x => x.2.1) eD
      rw [this]; exact fit hfit (by omega))
    (by
      have : e.feesA = t.fee + (total s.view s.ids (· ∈ anc)).2.1 := congrArg (fun x => x.2.1) eA
      rw [this]; exact fit hfit (by omega))
  rw [etx] at hget hsp hpr hbs hso
  refine ⟨s', cl, by unfold add; rw [h0]; exact h1, ?_, ?_, hmc, hms, hw⟩
  rotate_left
  · intro k
    unfold Store.view
    rw [hget]
    by_cases hk : k = t.id
    · simp [hk, etx]
    · simp only [if_neg hk, Option.map_map]
      cases s.byId.get k with
      | none => rfl
      | some x => simp [afterAdd_tx]
  have hview : ∀ k, s'.view k = if k = t.id then some t else s.view k := by
    intro k
    unfold Store.view
    rw [hget]
    by_cases hk : k = t.id
    · simp [hk, etx]
    · simp only [if_neg hk, Option.map_map]
      cases s.byId.get k with
      | none => rfl
      | some x => simp [afterAdd_tx]
  have hids : s'.ids = insert t.id s.ids := by
    ext k
    rw [Finset.mem_insert, mem_ids, mem_ids, hget]
    by_cases hk : k = t.id
    · simp [hk]
    · simp only [if_neg hk, hk, false_or]
      cases s.byId.get k <;> simp
  have hL : LeafExt (Edge s.view) (Edge s'.view) t.id (fun a => ∃ ta, s.view a = some ta ∧ DependsOn ta t) :=
    leafExt_of_pool ha.fresh hview ha.not_needed
  have hPmem : ∀ a, (∃ ta, s.view a = some ta ∧ DependsOn ta t) ↔ a ∈ txParents s t := fun a => h.mem_txParents.symm
  have hvold : ∀ k ∈ s.ids, s'.view k = s.view k := by
    intro k hk
    rw [hview, if_neg]
    rintro rfl; exact hnid hk
  have hvn : s'.view t.id = some t := by rw [hview, if_pos rfl]
  -- the entry stored under an old id
  have hold : ∀ k x', s'.byId.get k = some x' → k ≠ t.id →
      ∃ x, s.byId.get k = some x ∧ x' = afterAdd t (txParents s t) anc k x := by
    intro k x' hx' hk
    rw [hget, if_neg hk, epar] at hx'
    obtain ⟨x, hx, rfl⟩ := Option.map_eq_some_iff.1 hx'
    exact ⟨x, hx, rfl⟩
  have hnew : ∀ x', s'.byId.get t.id = some x' → x' = e := by
    intro x' hx'
    rw [hget, if_pos rfl] at hx'
    simpa using hx'.symm
  refine ⟨?_, ?_, ?_, ?_, ?_, ?_, ?_, ?_, ?_, ?_, hxD, hxA, hxT, ?_, ?_, ?_, ?_⟩
  · -- key
    intro k x' hx'
    by_cases hk : k = t.id
    · subst hk; rw [hnew _ hx', etx]; exact ⟨rfl, ha.size_pos⟩
    · obtain ⟨x, hx, rfl⟩ := hold k x' hx' hk
      rw [afterAdd_tx]; exact h.key k x hx
  · -- parents
    intro k x' hx'
    by_cases hk : k = t.id
    · subst hk
      rw [hnew _ hx', epar]
      refine ⟨nodup_toSet _, fun p => ?_⟩
      rw [hL.iff, ← hPmem]
      constructor
      · intro hp; exact Or.inr ⟨rfl, hp⟩
      · rintro (hp | ⟨-, hp⟩)
        · exact absurd rfl (hL.old _ _ hp).2
        · exact hp
    · obtain ⟨x, hx, rfl⟩ := hold k x' hx' hk
      rw [afterAdd_parents]
      obtain ⟨g1, g2⟩ := h.parents k x hx
      refine ⟨g1, fun p => ?_⟩
      rw [g2, hL.iff]
      constructor
      · exact Or.inl
      · rintro (hp | ⟨hp, -⟩)
        · exact hp
        · exact absurd hp hk
  · -- children
    intro k x' hx'
    by_cases hk : k = t.id
    · subst hk
      rw [hnew _ hx', echi]
      refine ⟨by simp, fun c => ?_⟩
      simp only [List.not_mem_nil, false_iff]
      exact hL.no_out c
    · obtain ⟨x, hx, rfl⟩ := hold k x' hx' hk
      rw [afterAdd_children]
      obtain ⟨g1, g2⟩ := h.children k x hx
      by_cases hkp : k ∈ txParents s t
      · rw [if_pos hkp]
        refine ⟨nodup_setInsert g1, fun c => ?_⟩
        rw [mem_setInsert, g2, hL.iff, hPmem]
        constructor
        · rintro (rfl | hc)
          · exact Or.inr ⟨rfl, hkp⟩
          · exact Or.inl hc
        · rintro (hc | ⟨hc, -⟩)
          · exact Or.inr hc
          · exact Or.inl hc
      · rw [if_neg hkp]
        refine ⟨g1, fun c => ?_⟩
        rw [g2, hL.iff, hPmem]
        constructor
        · exact Or.inl
        · rintro (hc | ⟨-, hc⟩)
          · exact hc
          · exact absurd hc hkp
  · -- descendants
    intro k x' hx'
    rw [hids]
    by_cases hk : k = t.id
    · subst hk
      rw [hnew _ hx', eD]
      rw [total_insert_pos (P := Reach s'.view t.id) hnid hvn hvold Relation.ReflTransGen.refl]
      have : total s.view s.ids (Reach s'.view t.id) = 0 := by
        unfold total
        apply Finset.sum_eq_zero
        intro j hj
        rw [if_neg]
        intro hr
        have := hL.reach_leaf.1 hr
        subst this
        exact hnid hj
      rw [this, add_zero]
    · obtain ⟨x, hx, rfl⟩ := hold k x' hx' hk
      rw [afterAdd_D]
      have hcong : total s.view s.ids (Reach s'.view k) = total s.view s.ids (Reach s.view k) := by
        apply total_congr
        intro j hj
        exact hL.reach_old (by rintro rfl; exact hnid hj)
      have hiff : Reach s'.view k t.id ↔ k ∈ anc := by
        show ReflTransGen _ _ _ ↔ _
        rw [hL.reach_new hk, hmem]
        constructor
        · rintro ⟨p, hp, hr⟩; exact ⟨p, (hPmem p).1 hp, hr⟩
        · rintro ⟨p, hp, hr⟩; exact ⟨p, (hPmem p).2 hp, hr⟩
      by_cases hka : k ∈ anc
      · rw [if_pos hka, total_insert_pos hnid hvn hvold (hiff.2 hka), hcong, h.descendants k x hx]
      · rw [if_neg hka, total_insert_neg hnid hvold (fun hr => hka (hiff.1 hr)), hcong, h.descendants k x hx]
  · -- ancestors
    intro k x' hx'
    rw [hids]
    by_cases hk : k = t.id
    · subst hk
      rw [hnew _ hx', eA]
      rw [total_insert_pos (P := fun a => Reach s'.view a t.id) hnid hvn hvold Relation.ReflTransGen.refl]
      congr 1
      apply total_congr
      intro j hj
      have hjn : j ≠ t.id := by rintro rfl; exact hnid hj
      show _ ↔ ReflTransGen _ _ _
      rw [hL.reach_new hjn, hmem]
      constructor
      · rintro ⟨p, hp, hr⟩; exact ⟨p, (hPmem p).2 hp, hr⟩
      · rintro ⟨p, hp, hr⟩; exact ⟨p, (hPmem p).1 hp, hr⟩
    · obtain ⟨x, hx, rfl⟩ := hold k x' hx' hk
      rw [afterAdd_A, total_insert_neg hnid hvold (fun hr => hk (hL.reach_leaf.1 hr)), h.ancestors k x hx]
      apply total_congr
      intro j hj
      exact (hL.reach_old hk).symm
  · -- fits
    rw [hids, total_insert_pos (P := fun _ => True) hnid hvn hvold trivial]
    show (t.fee + _) * 1000 < U128
    rw [Nat.add_comm]; exact hfit
  · -- spender
    intro d k
    rw [hsp, extend_get]
    by_cases hd : d ∈ t.consumed
    · rw [if_pos hd]
      constructor
      · intro hk
        simp only [Option.some.injEq] at hk
        subst hk
        exact ⟨e, by rw [hget, if_pos rfl], by rw [etx]; exact hd⟩
      · rintro ⟨x', hx', hdx⟩
        by_cases hk : k = t.id
        · rw [hk]
        · exfalso
          obtain ⟨x, hx, rfl⟩ := hold k x' hx' hk
          rw [afterAdd_tx] at hdx
          have := (h.spender d k).2 ⟨x, hx, hdx⟩
          rw [ha.no_conflict d hd] at this
          simp at this
    · rw [if_neg hd, h.spender]
      constructor
      · rintro ⟨x, hx, hdx⟩
        have hk : k ≠ t.id := by rintro rfl; rw [hfresh] at hx; simp at hx
        exact ⟨_, by rw [hget, if_neg hk, hx]; rfl, by rw [afterAdd_tx]; exact hdx⟩
      · rintro ⟨x', hx', hdx⟩
        by_cases hk : k = t.id
        · subst hk
          rw [hnew _ hx', etx] at hdx
          exact absurd hdx hd
        · obtain ⟨x, hx, rfl⟩ := hold k x' hx' hk
          rw [afterAdd_tx] at hdx
          exact ⟨x, hx, hdx⟩
  · intro k x' hx'
    by_cases hk : k = t.id
    · subst hk; rw [hnew _ hx', etx]; exact ha.consumed_nodup
    · obtain ⟨x, hx, rfl⟩ := hold k x' hx' hk
      rw [afterAdd_tx]; exact h.spender_nodup k x hx
  · -- provider
    intro d k
    rw [hpr, extend_get]
    by_cases hd : d ∈ t.provided
    · rw [if_pos hd]
      constructor
      · intro hk
        simp only [Option.some.injEq] at hk
        subst hk
        exact ⟨e, by rw [hget, if_pos rfl], by rw [etx]; exact hd⟩
      · rintro ⟨x', hx', hdx⟩
        by_cases hk : k = t.id
        · rw [hk]
        · exfalso
          obtain ⟨x, hx, rfl⟩ := hold k x' hx' hk
          rw [afterAdd_tx] at hdx
          have := (h.provider d k).2 ⟨x, hx, hdx⟩
          rw [ha.provided_fresh d hd] at this
          simp at this
    · rw [if_neg hd, h.provider]
      constructor
      · rintro ⟨x, hx, hdx⟩
        have hk : k ≠ t.id := by rintro rfl; rw [hfresh] at hx; simp at hx
        exact ⟨_, by rw [hget, if_neg hk, hx]; rfl, by rw [afterAdd_tx]; exact hdx⟩
      · rintro ⟨x', hx', hdx⟩
        by_cases hk : k = t.id
        · subst hk
          rw [hnew _ hx', etx] at hdx
          exact absurd hdx hd
        · obtain ⟨x, hx, rfl⟩ := hold k x' hx' hk
          rw [afterAdd_tx] at hdx
          exact ⟨x, hx, hdx⟩
  · intro k x' hx'
    by_cases hk : k = t.id
    · subst hk; rw [hnew _ hx', etx]; exact ha.provided_nodup
    · obtain ⟨x, hx, rfl⟩ := hold k x' hx' hk
      rw [afterAdd_tx]; exact h.provider_nodup k x hx
  · -- seq_inv
    intro k n
    rw [hso, hbs, BMap.get_insert, BMap.get_insert]
    by_cases hk : k = t.id
    · subst hk
      rw [if_pos rfl]
      by_cases hnn : n = s.nextSeq
      · simp [hnn]
      · rw [if_neg hnn]
        constructor
        · intro hh; simp only [Option.some.injEq] at hh; exact absurd hh.symm hnn
        · intro hh
          exfalso
          have h1 := (h.seq_inv t.id n).2 hh
          exact hnid ((h.seq_dom _).1 ⟨n, h1⟩)
    · rw [if_neg hk]
      by_cases hnn : n = s.nextSeq
      · rw [if_pos hnn]
        constructor
        · intro hh
          have := h.seq_lt k n hh
          omega
        · intro hh; simp only [Option.some.injEq] at hh; exact absurd hh.symm hk
      · rw [if_neg hnn]; exact h.seq_inv k n
  · -- seq_dom
    intro k
    rw [hso, hids, BMap.get_insert, Finset.mem_insert]
    by_cases hk : k = t.id
    · simp [hk]
    · simp only [if_neg hk, hk, false_or]; exact h.seq_dom k
  · -- seq_lt
    intro k n hkn
    rw [hso, BMap.get_insert] at hkn
    rw [hns]
    split at hkn
    · simp only [Option.some.injEq] at hkn; omega
    · have := h.seq_lt k n hkn; omega
  · -- seq_edge
    intro a b m n hE hma hnb
    rw [hso, BMap.get_insert] at hma hnb
    rcases (hL.iff a b).1 hE with hE | ⟨rfl, hP⟩
    · obtain ⟨g1, g2⟩ := hL.old _ _ hE
      rw [if_neg g1] at hma
      rw [if_neg g2] at hnb
      exact h.seq_edge a b m n hE hma hnb
    · have g1 := hL.par _ hP
      rw [if_neg g1] at hma
      rw [if_pos rfl] at hnb
      simp only [Option.some.injEq] at hnb
      have := h.seq_lt a m hma
      omega

theorem Inv.add_spec {s : Store} (h : Inv s) {t : Tx} (ha : Addable s t) :
    (add s t = .error .clusterTxCount ∨ add s t = .error .clusterTxSize) ∨
    ∃ s' cluster, add s t = .ok s' ∧ Inv s' ∧ (∀ k, s'.view k = if k = t.id then some t else s.view k) ∧
      s'.maxCount = s.maxCount ∧ s'.maxSize = s.maxSize ∧ Within s t cluster := by
  rcases h.add_spec_entry ha with (h0 | h0) | h0
  · left; left; unfold add; rw [h0]; rfl
  · left; right; unfold add; rw [h0]; rfl
  · exact .inr h0

end Verif.Mempool
