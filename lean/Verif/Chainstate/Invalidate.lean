import Verif.Chainstate.Reorg

/-! # Branches: invalidation and resetting of failure flags -/

namespace Verif.Chainstate
open Verif BlockTree Spec
open Verif.BlockStatus (Stage)
variable {L : Type} {env : Env L}

theorem mem_higher {s : Db L} (ht : TInv env s) {h : Nat} {e : Entry} : e ∈ s.higher h ↔ s.index.get e.idx.id = some e ∧ h ≤ e.idx.height := by
  unfold Db.higher
  rw [List.Perm.mem_iff (List.perm_insertionSort _ _)]
  simp only [List.mem_filter, List.mem_map, decide_eq_true_eq, Prod.exists, exists_eq_right]
  constructor
  · rintro ⟨⟨k, hk⟩, h2⟩
    have := BMap.mem_entries.1 hk
    rw [ht.id_eq' this]; exact ⟨this, h2⟩
  · rintro ⟨h1, h2⟩
    exact ⟨⟨_, BMap.mem_entries.2 h1⟩, h2⟩

theorem higher_sorted (s : Db L) (h : Nat) : (s.higher h).Pairwise (fun a b => a.idx.height ≤ b.idx.height) := by
  unfold Db.higher
  haveI : Std.Total (fun a b : Entry => a.idx.height ≤ b.idx.height) := ⟨fun a b => Nat.le_total _ _⟩
  haveI : IsTrans Entry (fun a b : Entry => a.idx.height ≤ b.idx.height) := ⟨fun a b c => Nat.le_trans⟩
  exact List.pairwise_insertionSort _ _

theorem collectLoop_spec {s : Db L} (ht : TInv env s) {root : Nat} (hr : 1 ≤ height env s root) :
    ∀ (es : List Entry) (seen : List Nat) (acc : List Entry), es.Pairwise (fun a b => a.idx.height ≤ b.idx.height) →
      (∀ x ∈ es, s.index.get x.idx.id = some x ∧ height env s root < x.idx.height) →
      (∀ x ∈ seen, Anc env s x root) → (∀ x, Anc env s x root → x ∈ seen ∨ ∃ y ∈ es, y.idx.id = x) →
      ∃ ds, collectLoop env es seen acc = .ok (acc ++ ds) ∧ ∀ x, x ∈ ds ↔ x ∈ es ∧ Anc env s x.idx.id root
  | [], seen, acc, _, _, _, _ => ⟨[], by simp [collectLoop], by simp⟩
  | e :: es, seen, acc, hs, hm, h1, h2 => by
    obtain ⟨he, hh⟩ := hm e (List.mem_cons_self ..)
    have hpar := ht.parent he
    have hhe := ht.height_eq he
    have hng : e.idx.prev ≠ env.tree.genesisId := by
      intro h; rw [h, height_genesis] at hpar; omega
    have hanc : Anc env s e.idx.id root ↔ Anc env s e.idx.prev root := by
      rw [ht.anc_iff he]
      constructor
      · rintro (h | h)
        · rw [h] at hh; omega
        · exact h
      · exact .inr
    have hps : e.idx.prev ∈ seen ↔ Anc env s e.idx.prev root := by
      refine ⟨h1 _, fun h => ?_⟩
      rcases h2 _ h with h | ⟨y, hy, hyi⟩
      · exact h
      · exfalso
        have hyg := (hm y hy).1
        have hyh := ht.height_eq hyg
        rw [hyi] at hyh
        rcases List.mem_cons.1 hy with rfl | hy
        · omega
        · have := (List.pairwise_cons.1 hs).1 y hy; omega
    rw [collectLoop, if_neg hng]
    by_cases hc : e.idx.prev ∈ seen
    · rw [if_pos hc]
      have ha : Anc env s e.idx.id root := hanc.2 (hps.1 hc)
      obtain ⟨ds, g1, g2⟩ := collectLoop_spec ht hr es (e.idx.id :: seen) (acc ++ [e]) (List.pairwise_cons.1 hs).2
        (fun x hx => hm x (List.mem_cons_of_mem _ hx)) (by
          intro x hx
          rcases List.mem_cons.1 hx with rfl | hx
          · exact ha
          · exact h1 x hx) (by
          intro x hx
          rcases h2 x hx with h | ⟨y, hy, hyi⟩
          · exact .inl (List.mem_cons_of_mem _ h)
          · rcases List.mem_cons.1 hy with rfl | hy
            · exact .inl (by rw [hyi]; exact List.mem_cons_self ..)
            · exact .inr ⟨y, hy, hyi⟩)
      refine ⟨e :: ds, by rw [g1]; simp, ?_⟩
      intro x
      rw [List.mem_cons, List.mem_cons, g2]
      constructor
      · rintro (rfl | ⟨h, h'⟩)
        · exact ⟨.inl rfl, ha⟩
        · exact ⟨.inr h, h'⟩
      · rintro ⟨rfl | h, h'⟩
        · exact .inl rfl
        · exact .inr ⟨h, h'⟩
    · rw [if_neg hc]
      have ha : ¬ Anc env s e.idx.id root := fun h => hc (hps.2 (hanc.1 h))
      obtain ⟨ds, g1, g2⟩ := collectLoop_spec ht hr es seen acc (List.pairwise_cons.1 hs).2
        (fun x hx => hm x (List.mem_cons_of_mem _ hx)) h1 (by
          intro x hx
          rcases h2 x hx with h | ⟨y, hy, hyi⟩
          · exact .inl h
          · rcases List.mem_cons.1 hy with rfl | hy
            · rw [hyi] at ha; exact absurd hx ha
            · exact .inr ⟨y, hy, hyi⟩)
      refine ⟨ds, g1, ?_⟩
      intro x
      rw [g2, List.mem_cons]
      constructor
      · rintro ⟨h, h'⟩; exact ⟨.inr h, h'⟩
      · rintro ⟨rfl | h, h'⟩
        · exact absurd h' ha
        · exact ⟨h, h'⟩

theorem branch_ok {s : Db L} (ht : TInv env s) {id r} (hr : s.index.get id = some r) :
    ∃ ds, s.branch env id = .ok (r :: ds) ∧ ∀ x, x ∈ ds ↔ s.index.get x.idx.id = some x ∧ Anc env s x.idx.id id ∧ x.idx.id ≠ id := by
  have hh := ht.height_eq hr
  have hp := (ht.parent hr).2.1
  obtain ⟨ds, h1, h2⟩ := collectLoop_spec ht (root := id) (by omega) (s.higher (r.idx.height + 1)) [id] [r] (higher_sorted _ _)
    (by
      intro x hx
      obtain ⟨g1, g2⟩ := (mem_higher ht).1 hx
      exact ⟨g1, by omega⟩)
    (by simp only [List.mem_singleton, forall_eq]; exact anc_refl (known_of_get hr))
    (by
      intro x hx
      by_cases hxi : x = id
      · exact .inl (by simp [hxi])
      · right
        obtain ⟨h1, h2⟩ := ht.anc_height hx
        have hlt : height env s id < height env s x := by
          rcases Nat.lt_or_ge (height env s id) (height env s x) with h | h
          · exact h
          · exact absurd (h2 (by omega)).symm hxi
        rcases known_cases hx.known_left with hg | ⟨e, he⟩
        · rw [hg, height_genesis] at hlt; omega
        · refine ⟨e, ?_, ht.id_eq' he⟩
          rw [mem_higher ht, ht.id_eq' he]
          exact ⟨he, by have := ht.height_eq he; omega⟩)
  refine ⟨ds, ?_, ?_⟩
  · simp only [Db.branch, hr, okOr, bind, Except.bind, h1, List.singleton_append]
  · intro x
    rw [h2, mem_higher ht]
    constructor
    · rintro ⟨⟨g1, g2⟩, g3⟩
      refine ⟨g1, g3, fun h => ?_⟩
      rw [h, hr] at g1; cases g1; omega
    · rintro ⟨g1, g2, g3⟩
      refine ⟨⟨g1, ?_⟩, g2⟩
      obtain ⟨q1, q2⟩ := ht.anc_height g2
      have := ht.height_eq g1
      rcases Nat.lt_or_ge (height env s id) (height env s x.idx.id) with h | h
      · omega
      · exact absurd (q2 (by omega)).symm g3

theorem foldl_setStatus {s : Db L} (f : Status → Status) (id : Nat) : ∀ (ds : List Entry) (m : BMap Nat Entry),
    (∀ x ∈ ds, s.index.get x.idx.id = some x) →
    (ds.foldl (fun m e => setStatus m e (f e.status)) m).get id =
      if id ∈ ds.map (fun e => e.idx.id) then (s.index.get id).map (fun e => { e with status := f e.status }) else m.get id
  | [], m, _ => by simp
  | e :: ds, m, h => by
    rw [List.foldl_cons, foldl_setStatus f id ds _ (fun x hx => h x (List.mem_cons_of_mem _ hx))]
    have he := h e (List.mem_cons_self ..)
    by_cases hd : id ∈ ds.map (fun e => e.idx.id)
    · rw [if_pos hd, if_pos (by rw [List.map_cons]; exact List.mem_cons_of_mem _ hd)]
    · rw [if_neg hd, setStatus, BMap.get_insert]
      by_cases hc : id = e.idx.id
      · rw [if_pos hc, if_pos (by rw [hc]; simp), hc, he]; rfl
      · rw [if_neg hc, if_neg (by rw [List.map_cons, List.mem_cons]; exact fun h => h.elim hc hd)]

theorem foldl_reset {s : Db L} (id : Nat) : ∀ (ds : List Entry) (m : BMap Nat Entry), (∀ x ∈ ds, s.index.get x.idx.id = some x) →
    (ds.foldl resetEntry m).get id =
      if id ∈ ds.map (fun e => e.idx.id) then
        (s.index.get id).bind (fun e => if e.persisted then some { e with status := e.status.cleared } else none)
      else m.get id
  | [], m, _ => by simp
  | e :: ds, m, h => by
    rw [List.foldl_cons, foldl_reset id ds _ (fun x hx => h x (List.mem_cons_of_mem _ hx))]
    have he := h e (List.mem_cons_self ..)
    by_cases hd : id ∈ ds.map (fun e => e.idx.id)
    · rw [if_pos hd, if_pos (by rw [List.map_cons]; exact List.mem_cons_of_mem _ hd)]
    · rw [if_neg hd]
      by_cases hc : id = e.idx.id
      · rw [if_pos (by rw [hc]; simp), hc, he, resetEntry, Option.bind_some]
        by_cases hp : e.persisted = true
        · rw [if_pos hp, if_pos hp, setStatus, BMap.get_insert_self]
        · rw [if_neg hp, if_neg hp, BMap.get_erase, if_pos rfl]
      · rw [if_neg (by rw [List.map_cons, List.mem_cons]; exact fun h => h.elim hc hd), resetEntry]
        split
        · rw [setStatus, BMap.get_insert_ne _ _ hc]
        · rw [BMap.get_erase_ne _ hc]

theorem mem_branch {s : Db L} (ht : TInv env s) {id : Nat} {ds : List Entry}
    (h : ∀ x, x ∈ ds ↔ s.index.get x.idx.id = some x ∧ Anc env s x.idx.id id ∧ x.idx.id ≠ id) (x : Nat) :
    x ∈ ds.map (fun e => e.idx.id) ↔ Anc env s x id ∧ x ≠ id ∧ (s.index.get x).isSome = true := by
  constructor
  · intro hx
    obtain ⟨e, he, rfl⟩ := List.mem_map.1 hx
    obtain ⟨h1, h2, h3⟩ := (h e).1 he
    exact ⟨h2, h3, by rw [h1]; rfl⟩
  · rintro ⟨h1, h2, h3⟩
    obtain ⟨e, he⟩ := Option.isSome_iff_exists.1 h3
    have := ht.id_eq' he
    exact List.mem_map.2 ⟨e, (h e).2 (by rw [this]; exact ⟨he, h1, h2⟩), this⟩

/-- what the invalidation of a block does to the index table -/
structure Marked (env : Env L) (s s' : Db L) (id : Nat) (explicit : Bool) : Prop where
  root : s'.index.get id = (s.index.get id).map (fun e => { e with status := rootStatus explicit e.status })
  desc : ∀ x, Anc env s x id → x ≠ id → s'.index.get x = (s.index.get x).map (fun e => { e with status := { e.status with invalidParent := true } })
  others : ∀ x, ¬ Anc env s x id → s'.index.get x = s.index.get x
  blocks : s'.blocks = s.blocks
  byHeight : s'.byHeight = s.byHeight
  best : s'.best = s.best
  minHeight : s'.minHeight = s.minHeight
  ledger : s'.ledger = s.ledger

theorem invalidateStale_ok {s : Db L} (hi : IBase env s) (hm : MInv env s) {id r} (hr : s.index.get id = some r) (hn : ¬ Main env s id) (explicit : Bool) :
    ∃ s' ds, s.invalidateStale env id explicit = .ok (s', r :: ds) ∧ Marked env s s' id explicit ∧
      ∀ x, x ∈ ds ↔ s.index.get x.idx.id = some x ∧ Anc env s x.idx.id id ∧ x.idx.id ≠ id := by
  obtain ⟨ds, h1, h2⟩ := branch_ok hi.tree hr
  have hnm : s.inMain env id = false := by
    cases h : s.inMain env id with
    | false => rfl
    | true => exact absurd ((inMain_iff hi hm id).1 h) hn
  have hmem := mem_branch hi.tree h2
  have hfold : ∀ x, (invalidateAll explicit s.index (r :: ds)).get x = if x ∈ ds.map (fun e => e.idx.id) then
      (s.index.get x).map (fun e => { e with status := { e.status with invalidParent := true } })
      else (setStatus s.index r (rootStatus explicit r.status)).get x := by
    intro x
    exact foldl_setStatus (s := s) (fun st => { st with invalidParent := true }) x ds _ (fun y hy => ((h2 y).1 hy).1)
  have hrid := hi.tree.id_eq' hr
  refine ⟨{ s with index := invalidateAll explicit s.index (r :: ds) }, ds, ?_, ⟨?_, ?_, ?_, rfl, rfl, rfl, rfl, rfl⟩, h2⟩
  · simp only [Db.invalidateStale, Db.staleBranch, hnm, ensure, Bool.not_false, if_true, h1, bind, Except.bind, pure, Except.pure]
  · show (invalidateAll explicit s.index (r :: ds)).get id = _
    rw [hfold, if_neg (by rw [hmem]; rintro ⟨-, h, -⟩; exact h rfl), setStatus, hrid, BMap.get_insert_self, hr]; rfl
  · intro x hx hxi
    show (invalidateAll explicit s.index (r :: ds)).get x = _
    rw [hfold]
    split
    · rfl
    · rename_i hc
      have : s.index.get x = none := by
        cases hg : s.index.get x with
        | none => rfl
        | some e => exact absurd ((hmem x).2 ⟨hx, hxi, by rw [hg]; rfl⟩) hc
      rw [setStatus, hrid, BMap.get_insert_ne _ _ hxi, this]; rfl
  · intro x hx
    show (invalidateAll explicit s.index (r :: ds)).get x = _
    have hxi : x ≠ id := by rintro rfl; exact hx (anc_refl (known_of_get hr))
    rw [hfold, if_neg (by rw [hmem]; rintro ⟨h, -⟩; exact hx h), setStatus, hrid, BMap.get_insert_ne _ _ hxi]

theorem rootStatus_not_ok (explicit : Bool) (st : Status) : (rootStatus explicit st).ok = false := by
  cases explicit <;> simp [rootStatus, Status.ok]

theorem rootStatus_stage (explicit : Bool) (st : Status) : (rootStatus explicit st).stage = st.stage := by
  cases explicit <;> rfl

namespace Marked
variable {s s' : Db L} {id : Nat} {explicit : Bool}

/-- an entry afterwards and before -/
theorem get (h : Marked env s s' id explicit) {x e'} (he : s'.index.get x = some e') : ∃ e, s.index.get x = some e ∧ e.idx = e'.idx ∧
    e.persisted = e'.persisted ∧ e.status.stage = e'.status.stage ∧ (e'.status.ok = true → e.status.ok = true ∧ ¬ Anc env s x id) := by
  by_cases ha : Anc env s x id
  · by_cases hx : x = id
    · subst hx
      rw [h.root, Option.map_eq_some_iff] at he
      obtain ⟨e, h1, rfl⟩ := he
      refine ⟨e, h1, rfl, rfl, (rootStatus_stage _ _).symm, fun h => ?_⟩
      rw [rootStatus_not_ok] at h; cases h
    · rw [h.desc x ha hx, Option.map_eq_some_iff] at he
      obtain ⟨e, h1, rfl⟩ := he
      exact ⟨e, h1, rfl, rfl, rfl, fun h => by simp [Status.ok] at h⟩
  · rw [h.others x ha] at he
    exact ⟨e', he, rfl, rfl, rfl, fun h => ⟨h, ha⟩⟩

theorem get_back (h : Marked env s s' id explicit) {x e} (he : s.index.get x = some e) : ∃ e', s'.index.get x = some e' ∧ e'.idx = e.idx := by
  by_cases ha : Anc env s x id
  · by_cases hx : x = id
    · subst hx; exact ⟨{ e with status := rootStatus explicit e.status }, by rw [h.root, he]; rfl, rfl⟩
    · exact ⟨{ e with status := { e.status with invalidParent := true } }, by rw [h.desc x ha hx, he]; rfl, rfl⟩
  · exact ⟨e, by rw [h.others x ha, he], rfl⟩

theorem tree (h : Marked env s s' id explicit) : s'.tree = s.tree := by
  apply tree_eq
  intro x
  cases he : s'.index.get x with
  | some e' => obtain ⟨e, h1, h2, -⟩ := h.get he; rw [h1]; simp [h2]
  | none =>
    cases he2 : s.index.get x with
    | none => rfl
    | some e => obtain ⟨e', h1, -⟩ := h.get_back he2; rw [he] at h1; cases h1

theorem ok_iff (h : Marked env s s' id explicit) (hi : IBase env s) (hid : id ≠ env.tree.genesisId) (x : Nat) :
    s'.genOk env x = true ↔ s.genOk env x = true ∧ ¬ Anc env s x id := by
  by_cases hg : x = env.tree.genesisId
  · subst hg
    simp only [genOk_genesis, true_and, true_iff]
    intro h; exact hid (anc_of_genesis h)
  · cases he : s'.index.get x with
    | some e' =>
      obtain ⟨e, h1, -, -, -, h2⟩ := h.get he
      rw [genOk_block hg he, genOk_block hg h1]
      refine ⟨h2, ?_⟩
      rintro ⟨q1, q2⟩
      rw [h.others x q2, h1] at he; cases he; exact q1
    | none =>
      have : s.index.get x = none := by
        cases he2 : s.index.get x with
        | none => rfl
        | some e => obtain ⟨e', h1, -⟩ := h.get_back he2; rw [he] at h1; cases h1
      simp [Db.genOk, hg, he, this]

theorem ibase (h : Marked env s s' id explicit) (hi : IBase env s) : IBase env s' := by
  refine ⟨by unfold TInv; rw [h.tree]; exact hi.tree, ?_, ?_, ?_, ?_⟩
  · intro x e' he'
    obtain ⟨e, h1, -, h3, -⟩ := h.get he'
    rw [h.blocks, ← h3]; exact hi.pers x e h1
  · intro x hx
    rw [h.blocks] at hx
    obtain ⟨e, he⟩ := hi.blk x hx
    obtain ⟨e', h1, -⟩ := h.get_back he
    exact ⟨e', h1⟩
  · intro x e' p' he' hp'
    obtain ⟨e, h1, h2, h3, h4, h5⟩ := h.get he'
    obtain ⟨p, g1, g2, g3, g4, g5⟩ := h.get hp'
    rw [← h2] at g1
    obtain ⟨q1, q2, q3⟩ := hi.parent x e p h1 g1
    refine ⟨fun hh => g3 ▸ q1 (h3.trans hh), fun hh => ?_, by rw [← h4, ← g4]; exact q3⟩
    obtain ⟨k1, k2⟩ := h5 hh
    have hpa : ¬ Anc env s e.idx.prev id := fun hc => k2 ((hi.tree.anc_parent h1).trans hc)
    rw [← h2, h.others _ hpa, g1] at hp'; cases hp'
    exact q2 k1
  · intro x e' he' hp
    obtain ⟨e, h1, h2, h3, h4, h5⟩ := h.get he'
    rw [← h4]; exact hi.stage x e h1 (h3.trans hp)

theorem iinv' (h : Marked env s s' id explicit) (hi : IBase env s)
    (hok : ∀ x e, s.index.get x = some e → e.status.ok = true → ¬ Anc env s x id → e.persisted = true) : IInv env s' := by
  refine ⟨h.ibase hi, ?_⟩
  intro x e' he' ho
  obtain ⟨e, h1, h2, h3, h4, h5⟩ := h.get he'
  rw [← h3]; exact hok x e h1 (h5 ho).1 (h5 ho).2

theorem iinv (h : Marked env s s' id explicit) (hi : IInv env s) : IInv env s' :=
  h.iinv' hi.toIBase fun x e he ho _ => hi.okp x e he ho

theorem minv (h : Marked env s s' id explicit) (hm : MInv env s) (hn : ¬ Main env s id) : MInv env s' := by
  have ht := h.tree
  have hmn : ∀ x, Main env s' x ↔ Main env s x := fun x => by unfold Main; rw [h.best, anc_of_tree ht]
  refine ⟨by rw [h.best]; exact (known_of_tree ht).2 hm.known, ?_, ?_, by rw [h.best, h.ledger]; exact hm.led⟩
  · intro hh x
    rw [h.byHeight, hm.heights, hmn, height_of_tree ht]
  · intro x e' hx he'
    rw [hmn] at hx
    have hna : ¬ Anc env s x id := fun hc => hn (hx.trans hc)
    rw [h.others x hna] at he'
    exact hm.full x e' hx he'

end Marked

/-- what resetting the failure flags of a block does to the index table -/
structure Cleared (env : Env L) (s s' : Db L) (id : Nat) : Prop where
  desc : ∀ x, Anc env s x id →
    s'.index.get x = (s.index.get x).bind (fun e => if e.persisted then some { e with status := e.status.cleared } else none)
  others : ∀ x, ¬ Anc env s x id → s'.index.get x = s.index.get x
  blocks : s'.blocks = s.blocks
  byHeight : s'.byHeight = s.byHeight
  best : s'.best = s.best
  minHeight : s'.minHeight = s.minHeight
  ledger : s'.ledger = s.ledger

theorem cleared_ok {s : Db L} (hi : IBase env s) {id r} (hr : s.index.get id = some r) : ∃ es, s.branch env id = .ok es ∧
    Cleared env s ({ s with index := es.foldl resetEntry s.index } : Db L) id := by
  obtain ⟨ds, h1, h2⟩ := branch_ok hi.tree hr
  have hmem := mem_branch hi.tree h2
  have hrid := hi.tree.id_eq' hr
  have hfold := fun x => foldl_reset (s := s) x (r :: ds) s.index (by
    intro y hy
    rcases List.mem_cons.1 hy with rfl | hy
    · rw [hrid]; exact hr
    · exact ((h2 y).1 hy).1)
  have hmem' : ∀ x, x ∈ (r :: ds).map (fun e => e.idx.id) ↔ Anc env s x id ∧ (s.index.get x).isSome = true := by
    intro x
    rw [List.map_cons, List.mem_cons, hmem, hrid]
    constructor
    · rintro (rfl | ⟨g1, g2, g3⟩)
      · exact ⟨anc_refl (known_of_get hr), by rw [hr]; rfl⟩
      · exact ⟨g1, g3⟩
    · rintro ⟨g1, g2⟩
      by_cases hx : x = id
      · exact .inl hx
      · exact .inr ⟨g1, hx, g2⟩
  refine ⟨r :: ds, h1, ⟨?_, ?_, rfl, rfl, rfl, rfl, rfl⟩⟩
  · intro x hx
    show ((r :: ds).foldl resetEntry s.index).get x = _
    rw [hfold]
    split
    · rfl
    · rename_i hc
      have : s.index.get x = none := by
        cases hg : s.index.get x with
        | none => rfl
        | some e => exact absurd ((hmem' x).2 ⟨hx, by rw [hg]; rfl⟩) hc
      rw [this]; rfl
  · intro x hx
    show ((r :: ds).foldl resetEntry s.index).get x = _
    rw [hfold, if_neg (by rw [hmem']; rintro ⟨h, -⟩; exact hx h)]

namespace Cleared
variable {s s' : Db L} {id : Nat}

theorem cleared_stage (st : Status) : st.cleared.stage = st.stage := rfl
theorem cleared_isOk (st : Status) : st.cleared.ok = true := rfl

theorem get (h : Cleared env s s' id) {x e'} (he : s'.index.get x = some e') : ∃ e, s.index.get x = some e ∧ e.idx = e'.idx ∧
    e.persisted = e'.persisted ∧ e.status.stage = e'.status.stage ∧
    (Anc env s x id ∧ e'.persisted = true ∧ e'.status.ok = true ∨ ¬ Anc env s x id ∧ e = e') := by
  by_cases ha : Anc env s x id
  · rw [h.desc x ha, Option.bind_eq_some_iff] at he
    obtain ⟨e, h1, h2⟩ := he
    split at h2
    · rename_i hp
      cases h2
      exact ⟨e, h1, rfl, rfl, rfl, .inl ⟨ha, hp, rfl⟩⟩
    · cases h2
  · rw [h.others x ha] at he
    exact ⟨e', he, rfl, rfl, rfl, .inr ⟨ha, rfl⟩⟩

theorem get_back (h : Cleared env s s' id) {x e} (he : s.index.get x = some e) (hp : e.persisted = true ∨ ¬ Anc env s x id) :
    ∃ e', s'.index.get x = some e' ∧ e'.idx = e.idx ∧ e'.persisted = e.persisted := by
  by_cases ha : Anc env s x id
  · have hp := hp.resolve_right (fun h => h ha)
    exact ⟨{ e with status := e.status.cleared }, by rw [h.desc x ha, he, Option.bind_some, if_pos hp], rfl, rfl⟩
  · exact ⟨e, by rw [h.others x ha, he], rfl, rfl⟩

theorem grows (h : Cleared env s s' id) : Grows s' s := by
  intro x e' he'
  obtain ⟨e, h1, h2, -⟩ := h.get he'
  exact ⟨e, h1, h2⟩

theorem parent_back (h : Cleared env s s' id) (hi : IBase env s) {x e'} (he' : s'.index.get x = some e') {p}
    (hp : s.index.get e'.idx.prev = some p) : ∃ p', s'.index.get e'.idx.prev = some p' ∧ p'.idx = p.idx ∧ p'.persisted = p.persisted := by
  obtain ⟨e, h1, h2, h3, h4, h5⟩ := h.get he'
  refine h.get_back hp ?_
  rcases h5 with ⟨-, g2, -⟩ | ⟨g1, -⟩
  · left
    rw [← h2] at hp
    exact (hi.parent x e p h1 hp).1 (h3.trans g2)
  · right
    intro hc; rw [← h2] at hc
    exact g1 ((hi.tree.anc_parent h1).trans hc)

theorem tinv (h : Cleared env s s' id) (hi : IBase env s) : TInv env s' := by
  have hsub := h.grows.sub
  have hc : BlockTree.Closed env.tree s'.tree := by
    intro x i hx
    rw [tree_get, Option.map_eq_some_iff] at hx
    obtain ⟨e', he', rfl⟩ := hx
    obtain ⟨e, h1, h2, -⟩ := h.get he'
    refine ⟨by rw [← h2]; exact hi.tree.prev_eq h1, ?_⟩
    rcases hi.tree.parent_cases h1 with hg | ⟨p, hp⟩
    · rw [← h2]; exact .inl hg
    · rw [h2] at hp
      obtain ⟨p', hp', -⟩ := h.parent_back hi he' hp
      exact known_of_get (env := env) hp'
  intro x i hx
  exact good_down hsub hc hx (hi.tree x i (hsub x i hx))

theorem iinv (h : Cleared env s s' id) (hi : IInv env s) (hp : s.genOk env (env.tree.body id).prev = true) : IInv env s' := by
  refine ⟨⟨h.tinv hi.toIBase, ?_, ?_, ?_, ?_⟩, ?_⟩
  · intro x e' he'
    obtain ⟨e, h1, h2, h3, h4, h5⟩ := h.get he'
    rw [h.blocks, ← h3]; exact hi.pers x e h1
  · intro x hx
    rw [h.blocks] at hx
    obtain ⟨e, he⟩ := hi.blk x hx
    obtain ⟨e', he', -⟩ := h.get_back he (.inl ((hi.pers x e he).2 hx))
    exact ⟨e', he'⟩
  · intro x e' p' he' hp'
    obtain ⟨e, h1, h2, h3, h4, h5⟩ := h.get he'
    obtain ⟨p, g1, g2, g3, g4, g5⟩ := h.get hp'
    rw [← h2] at g1 g5
    obtain ⟨q1, q2, q3⟩ := hi.parent x e p h1 g1
    refine ⟨fun hh => g3 ▸ q1 (h3.trans hh), fun hh => ?_, by rw [← h4, ← g4]; exact q3⟩
    rcases g5 with ⟨-, -, g⟩ | ⟨ga, rfl⟩
    · exact g
    · rcases h5 with ⟨ha, -, -⟩ | ⟨ha, rfl⟩
      · rcases (hi.tree.anc_iff h1).1 ha with rfl | hx
        · rw [← hi.tree.prev_eq h1, genOk_block (hi.tree.ne_genesis g1) g1] at hp; exact hp
        · exact absurd hx ga
      · exact q2 hh
  · intro x e' he' hp
    obtain ⟨e, h1, h2, h3, h4, h5⟩ := h.get he'
    rw [← h4]; exact hi.stage x e h1 (h3.trans hp)
  · intro x e' he' ho
    obtain ⟨e, h1, h2, h3, h4, h5⟩ := h.get he'
    rcases h5 with ⟨-, g, -⟩ | ⟨-, rfl⟩
    · exact g
    · exact hi.okp x e h1 ho

theorem known_back (h : Cleared env s s' id) (hi : IInv env s) {x} (hk : Known env s x) (ho : s.genOk env x = true) : Known env s' x := by
  rcases known_cases hk with rfl | ⟨e, he⟩
  · exact known_genesis s'
  · rw [genOk_block (hi.tree.ne_genesis he) he] at ho
    obtain ⟨e', he', -⟩ := h.get_back he (.inl (hi.okp x e he ho))
    exact known_of_get he'

theorem minv (h : Cleared env s s' id) (hi : IInv env s) (hm : MInv env s) : MInv env s' := by
  have ht := h.tinv hi.toIBase
  have hkb : Known env s' s.best := h.known_back hi hm.known (hm.main_ok (anc_refl hm.known))
  have hmn : ∀ x, Main env s' x ↔ Main env s x := fun x => by
    unfold Main; rw [h.best]; exact (h.grows.anc_iff ht hkb).symm
  have hkm : ∀ x, Main env s x → Known env s' x := fun x hx => ((hmn x).2 hx).known_right
  refine ⟨by rw [h.best]; exact hkb, ?_, ?_, by rw [h.best, h.ledger]; exact hm.led⟩
  · intro hh x
    rw [h.byHeight, hm.heights, hmn]
    constructor
    · rintro ⟨h1, h2⟩; exact ⟨h1, by rw [← h.grows.height (hkm x h1)]; exact h2⟩
    · rintro ⟨h1, h2⟩; exact ⟨h1, by rw [h.grows.height (hkm x h1)]; exact h2⟩
  · intro x e' hx he'
    rw [hmn] at hx
    obtain ⟨e, h1, h2, h3, h4, h5⟩ := h.get he'
    have hf := hm.full x e hx h1
    refine ⟨?_, by rw [← h4]; exact hf.2⟩
    rcases h5 with ⟨-, -, g⟩ | ⟨-, rfl⟩
    · exact g
    · exact hf.1

end Cleared

end Verif.Chainstate
