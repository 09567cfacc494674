import Verif.Chainstate.Candidates

/-! # Processing a new block -/

namespace Verif.Chainstate
open Verif BlockTree Spec
open Verif.BlockStatus (Stage)
variable {L : Type} {env : Env L}

/-- the state with one more index -/
structure Added (env : Env L) (s s' : Db L) (id : Nat) (e : Entry) : Prop where
  ne : id ≠ env.tree.genesisId
  fresh : s.index.get id = none
  idx : createIndex env.tree s.tree id = .ok e.idx
  index : s'.index = s.index.insert id e
  blocks : s'.blocks = if e.persisted then s.blocks.insert id () else s.blocks
  byHeight : s'.byHeight = s.byHeight
  best : s'.best = s.best
  minHeight : s'.minHeight = s.minHeight
  ledger : s'.ledger = s.ledger

namespace Added
variable {s s' : Db L} {id : Nat} {e : Entry}

theorem get (h : Added env s s' id e) (x : Nat) : s'.index.get x = if x = id then some e else s.index.get x := by
  rw [h.index, BMap.get_insert]

theorem tree (h : Added env s s' id e) : s'.tree = s.tree.insert id e.idx := by
  apply BMap.ext_get; intro x
  rw [tree_get, h.get, BMap.get_insert]
  split
  · rfl
  · rw [tree_get]

theorem grows (h : Added env s s' id e) : Grows s s' := by
  intro x e0 he0
  refine ⟨e0, ?_, rfl⟩
  rw [h.get, if_neg]
  · exact he0
  · rintro rfl; rw [h.fresh] at he0; cases he0

theorem tinv (h : Added env s s' id e) (ht : TInv env s) : TInv env s' := by
  unfold TInv; rw [h.tree]
  exact insert_inv ht h.ne (by rw [tree_get, h.fresh]; rfl) h.idx

theorem self (h : Added env s s' id e) : s'.index.get id = some e := by rw [h.get, if_pos rfl]

theorem parent_known (h : Added env s s' id e) (ht : TInv env s) : Known env s e.idx.prev := by
  have h1 := (h.tinv ht).prev_eq h.self
  obtain ⟨p, hp⟩ := createIndex_prev h.idx
  rw [h1]; exact known_gen.2 ⟨p, hp⟩

theorem known (h : Added env s s' id e) {x} : Known env s' x ↔ Known env s x ∨ x = id := by
  constructor
  · intro hk
    rcases known_cases hk with rfl | ⟨e', he'⟩
    · exact .inl (known_genesis s)
    · rw [h.get] at he'
      split at he'
      · exact .inr (by assumption)
      · exact .inl (known_of_get he')
  · rintro (hk | rfl)
    · exact h.grows.known hk
    · exact known_of_get h.self

theorem not_known (h : Added env s s' id e) : ¬ Known env s id := by
  intro hk
  rcases known_cases hk with hg | ⟨e', he'⟩
  · exact h.ne hg
  · rw [h.fresh] at he'; cases he'

theorem ibase (h : Added env s s' id e) (hi : IBase env s)
    (hp : ∀ p, s.index.get e.idx.prev = some p →
      (e.persisted = true → p.persisted = true) ∧ (e.status.ok = true → p.status.ok = true) ∧ e.status.stage.toNat ≤ p.status.stage.toNat)
    (hst : e.persisted = true → 1 ≤ e.status.stage.toNat) : IBase env s' := by
  have hbn : s.blocks.get id = none := by
    cases hb : s.blocks.get id with
    | none => rfl
    | some u => obtain ⟨e', he'⟩ := hi.blk id (by rw [hb]; rfl); rw [h.fresh] at he'; cases he'
  have hbg : ∀ x, (s'.blocks.get x).isSome = if x = id then e.persisted else (s.blocks.get x).isSome := by
    intro x
    rw [h.blocks]
    by_cases hx : x = id
    · subst hx
      rw [if_pos rfl]
      by_cases hpe : e.persisted = true
      · rw [if_pos hpe, BMap.get_insert_self, hpe]; rfl
      · rw [if_neg hpe, hbn]
        cases hq : e.persisted with
        | true => exact absurd hq hpe
        | false => rfl
    · rw [if_neg hx]
      split
      · rw [BMap.get_insert_ne _ _ hx]
      · rfl
  refine ⟨h.tinv hi.tree, ?_, ?_, ?_, ?_⟩
  · intro x e' he'
    rw [h.get] at he'
    rw [hbg]
    split at he'
    · rename_i hx; cases he'; rw [if_pos hx]
    · rename_i hx; rw [if_neg hx]; exact hi.pers x e' he'
  · intro x hx
    rw [hbg] at hx
    rw [h.get]
    split at hx
    · rename_i hc; rw [if_pos hc]; exact ⟨e, rfl⟩
    · rename_i hc; rw [if_neg hc]; exact hi.blk x hx
  · intro x e' p' he' hp'
    rw [h.get] at he' hp'
    have hpid : ∀ {y ey}, s.index.get y = some ey → ey.idx.prev ≠ id := by
      intro y ey hy hc
      exact h.not_known (hc ▸ (hi.tree.parent hy).1)
    split at he'
    · cases he'
      rw [if_neg (fun hc : e.idx.prev = id => h.not_known (hc ▸ h.parent_known hi.tree))] at hp'
      exact hp p' hp'
    · rw [if_neg (hpid he')] at hp'
      exact hi.parent x e' p' he' hp'
  · intro x e' he' hpe
    rw [h.get] at he'
    split at he'
    · cases he'; exact hst hpe
    · exact hi.stage x e' he' hpe

theorem minv (h : Added env s s' id e) (hi : TInv env s) (hm : MInv env s) : MInv env s' := by
  have hmn : ∀ x, Main env s' x ↔ Main env s x := fun x => by
    unfold Main; rw [h.best]; exact h.grows.anc_iff hi hm.known
  refine ⟨by rw [h.best]; exact h.grows.known hm.known, ?_, ?_, by rw [h.best, h.ledger]; exact hm.led⟩
  · intro hh x
    rw [h.byHeight, hm.heights, hmn]
    constructor
    · rintro ⟨h1, h2⟩; exact ⟨h1, by rw [h.grows.height h1.known_right]; exact h2⟩
    · rintro ⟨h1, h2⟩; exact ⟨h1, by rw [h.grows.height h1.known_right] at h2; exact h2⟩
  · intro x e' hx he'
    rw [hmn] at hx
    rw [h.get, if_neg (fun hc : x = id => h.not_known (hc ▸ hx.known_right))] at he'
    exact hm.full x e' hx he'

theorem ok_iff (h : Added env s s' id e) (x : Nat) : s'.genOk env x = true ↔ s.genOk env x = true ∧ x ≠ id ∨ x = id ∧ e.status.ok = true := by
  by_cases hg : x = env.tree.genesisId
  · subst hg
    simp only [genOk_genesis, true_and, true_iff]
    exact .inl (fun hc => h.ne hc.symm)
  · by_cases hx : x = id
    · subst hx
      rw [genOk_block hg h.self]; simp
    · have : s'.index.get x = s.index.get x := by rw [h.get, if_neg hx]
      simp [Db.genOk, hg, this, hx]

end Added

/-! ### checks -/

theorem checkParent_ok {s : Db L} (ht : TInv env s) (hb : Known env s s.best) {id} : s.checkParent env id = .ok () ↔
    Known env s (env.tree.body id).prev ∧ s.genOk env (env.tree.body id).prev = true ∧
      Shares env s s.minHeight (env.tree.body id).prev s.best := by
  unfold Db.checkParent
  cases hp : s.gen env (env.tree.body id).prev with
  | none =>
    simp only [okOr, bind, Except.bind]
    constructor
    · intro h; cases h
    · rintro ⟨h, -⟩
      obtain ⟨g, hg⟩ := known_gen.1 h
      rw [hp] at hg; cases hg
  | some p =>
    obtain ⟨z, hz, hz2⟩ := forkPoint_shares ht hb hp s.minHeight
    simp only [okOr, bind, Except.bind]
    constructor
    · intro h
      by_cases ho : s.genOk env (env.tree.body id).prev = true
      · simp only [ensure, ho, if_true, hz] at h
        split at h
        · rename_i hc; exact ⟨known_gen.2 ⟨p, hp⟩, ho, hz2.1 hc⟩
        · cases h
      · simp only [ensure, ho] at h; cases h
    · rintro ⟨-, h2, h3⟩
      simp only [ensure, h2, if_true, hz, hz2.2 h3]

theorem otherChecks_ok {now : Now} {id} : otherChecks now id = .ok () ↔ now.check id = none := by
  unfold otherChecks
  cases now.check id with
  | none => simp
  | some c => simp

theorem checkBlock_new {s : Db L} {now : Now} {id} (hn : s.index.get id = none) :
    s.checkBlock env now id = (do s.checkParent env id; otherChecks now id) := by
  simp only [Db.checkBlock, hn]

theorem checkBlock_ok {s : Db L} (ht : TInv env s) (hb : Known env s s.best) {now : Now} {id} (hn : s.index.get id = none) :
    s.checkBlock env now id = .ok () ↔ (Known env s (env.tree.body id).prev ∧ s.genOk env (env.tree.body id).prev = true ∧
      Shares env s s.minHeight (env.tree.body id).prev s.best) ∧ now.check id = none := by
  rw [checkBlock_new hn, ← checkParent_ok ht hb, ← otherChecks_ok]
  cases s.checkParent env id with
  | ok u => cases u; simp [bind, Except.bind]
  | error e => simp [bind, Except.bind]

/-- a block was accepted -/
structure Accepted (env : Env L) (now : Now) (s s' : Db L) (id : Nat) (r : Option Entry) : Prop where
  ne : id ≠ env.tree.genesisId
  fresh : s.index.get id = none
  iinv : IInv env s'
  minv : MInv env s'
  grows : Grows s s'
  known : ∀ x, Known env s' x ↔ Known env s x ∨ x = id
  blocks : s'.blocks = s.blocks.insert id ()
  minHeight : s'.minHeight = max s.minHeight (height env s' s'.best - env.maxDepth)
  ok : ∀ x, s'.genOk env x = true ↔ s.genOk env x = true ∨ x = id
  prevKnown : Known env s (env.tree.body id).prev
  prevOk : s.genOk env (env.tree.body id).prev = true
  prevShares : Shares env s s.minHeight (env.tree.body id).prev s.best
  check : now.check id = none
  tip : (∃ e, r = some e ∧ s'.index.get id = some e ∧ s'.best = id ∧ trust env s s.best < trust env s' id) ∨
    r = none ∧ s'.best = s.best ∧ s'.byHeight = s.byHeight ∧ s'.ledger = s.ledger ∧ trust env s' id ≤ trust env s s.best

/-- a block was rejected -/
structure Rejected (env : Env L) (now : Now) (s s' : Db L) (id : Nat) : Prop where
  iinv : IInv env s'
  minv : MInv env s'
  grows : Grows s s'
  known : ∀ x, Known env s' x → Known env s x ∨ x = id ∧ s'.genOk env x = false
  blocks : s'.blocks = s.blocks
  byHeight : s'.byHeight = s.byHeight
  best : s'.best = s.best
  minHeight : s'.minHeight = s.minHeight
  ledger : s'.ledger = s.ledger
  okSub : ∀ x, s'.genOk env x = true → s.genOk env x = true
  blamed : ∀ x, s.genOk env x = true → s'.genOk env x = true ∨ ¬ Valid env x

theorem rejected_same {now : Now} {s : Db L} {id} (hi : IInv env s) (hm : MInv env s) : Rejected env now s s id :=
  ⟨hi, hm, grows_of_eq rfl, fun _ h => .inl h, rfl, rfl, rfl, rfl, rfl, fun _ h => h, fun _ h => .inl h⟩

/-- why the checks of a new block failed -/
theorem checkBlock_err {s : Db L} (ht : TInv env s) (hb : Known env s s.best) {now : Now} {id err} (hn : s.index.get id = none)
    (hk : Known env s (env.tree.body id).prev) (h : s.checkBlock env now id = .error err) : Reason env now s id err := by
  rw [checkBlock_new hn] at h
  cases hp : s.checkParent env id with
  | ok u =>
    rw [hp] at h
    simp only [bind, Except.bind, otherChecks] at h
    cases hc : now.check id with
    | none => rw [hc] at h; cases h
    | some c => rw [hc] at h; cases h; exact .check hc
  | error e =>
    rw [hp] at h
    simp only [bind, Except.bind] at h
    cases h
    obtain ⟨p, hpg⟩ := known_gen.1 hk
    obtain ⟨z, hz, hz2⟩ := forkPoint_shares ht hb hpg s.minHeight
    unfold Db.checkParent at hp
    simp only [hpg, okOr, bind, Except.bind] at hp
    by_cases ho : s.genOk env (env.tree.body id).prev = true
    · simp only [ensure, ho, if_true, hz] at hp
      split at hp
      · cases hp
      · rename_i hc
        cases hp; exact .deep (fun h => hc (hz2.2 h))
    · simp only [ensure, ho] at hp
      cases hp
      exact .parent hk ho

theorem checkFailure_spec {now : Now} {s : Db L} (hi : IInv env s) (hm : MInv env s) {id idx} (hid : id ≠ env.tree.genesisId) (hn : s.index.get id = none)
    (hidx : createIndex env.tree s.tree id = .ok idx) (hii : idx.id = id) : 
    Rejected env now s (s.afterCheckFailure idx {}) id ∧ Known env (s.afterCheckFailure idx {}) id ∧ (s.afterCheckFailure idx {}).genOk env id = false := by
  have hs : s.afterCheckFailure idx {} = { s with index := s.index.insert id { idx := idx, status := { failed := true } } } := by
    simp only [Db.afterCheckFailure, Db.setNewIndex, hii, hn]
  rw [hs]
  generalize hs' : ({ s with index := s.index.insert id { idx := idx, status := { failed := true } } } : Db L) = s'
  have ha : Added env s s' id { idx := idx, status := { failed := true } } := by
    subst hs'; exact ⟨hid, hn, hidx, rfl, rfl, rfl, rfl, rfl, rfl⟩
  have hib := ha.ibase hi.toIBase (fun p _ => ⟨fun h => (by cases h), fun h => (by cases h), Nat.zero_le _⟩) (fun h => (by cases h))
  refine ⟨?_, known_of_get ha.self, by rw [genOk_block hid ha.self]; rfl⟩
  refine ⟨⟨hib, ?_⟩, ha.minv hi.tree hm, ha.grows, ?_, ha.blocks, ha.byHeight, ha.best, ha.minHeight, ha.ledger, ?_, ?_⟩
  · intro x e he ho
    rw [ha.get] at he
    split at he
    · cases he; cases ho
    · exact hi.okp x e he ho
  · intro x hx
    rcases ha.known.1 hx with h | rfl
    · exact .inl h
    · exact .inr ⟨rfl, by rw [genOk_block hid ha.self]; rfl⟩
  · intro x hx
    rcases (ha.ok_iff x).1 hx with ⟨h, -⟩ | ⟨-, h⟩
    · exact h
    · cases h
  · intro x hx
    left
    rw [ha.ok_iff]
    refine .inl ⟨hx, ?_⟩
    rintro rfl
    simp [Db.genOk, hid, hn] at hx

theorem connectFailure_spec {now : Now} {s : Db L} (hi : IInv env s) (hm : MInv env s) {id idx bad} (hid : id ≠ env.tree.genesisId)
    (hn : s.index.get id = none) (hidx : createIndex env.tree s.tree id = .ok idx) (hii : idx.id = id)
    (hprev : s.genOk env (env.tree.body id).prev = true) (hnb : ¬ Main env s bad)
    (hanc : ∀ s' e, Added env s s' id e → Anc env s' id bad)
    (hbad : ∃ l, Led env (env.tree.body bad).prev l ∧ env.connect l bad = none) :
    Rejected env now s (s.afterConnectFailure env now idx checkedStatus bad) id ∧
      Known env (s.afterConnectFailure env now idx checkedStatus bad) id ∧
      (s.afterConnectFailure env now idx checkedStatus bad).genOk env id = false := by
  have hs : s.afterConnectFailure env now idx checkedStatus bad =
      (({ s with index := s.index.insert id { idx := idx, status := checkedStatus } } : Db L).invalidate env now bad false).1 := by
    simp only [Db.afterConnectFailure, Db.setNewIndex, hii, hn]
  rw [hs]
  generalize hs' : ({ s with index := s.index.insert id { idx := idx, status := checkedStatus } } : Db L) = s1
  have ha : Added env s s1 id { idx := idx, status := checkedStatus } := by
    subst hs'; exact ⟨hid, hn, hidx, rfl, rfl, rfl, rfl, rfl, rfl⟩
  have hpe : idx.prev = (env.tree.body id).prev := (ha.tinv hi.tree).prev_eq ha.self
  have hib := ha.ibase hi.toIBase (fun p hp => by
    have hp' : s.index.get idx.prev = some p := hp
    have hpg := hi.tree.ne_genesis hp'
    rw [← hpe, genOk_block hpg hp'] at hprev
    have hpp := hi.okp _ _ hp' hprev
    exact ⟨fun h => (by cases h), fun _ => hprev, hi.stage _ _ hp' hpp⟩) (fun h => by cases h)
  have hm1 := ha.minv hi.tree hm
  have hnb1 : ¬ Main env s1 bad := by
    unfold Main; rw [ha.best, ha.grows.anc_iff hi.tree hm.known]; exact hnb
  have hanc1 := hanc _ _ ha
  have hbg : bad ≠ env.tree.genesisId := by rintro rfl; exact hnb (hi.tree.anc_genesis hm.known)
  obtain ⟨r, hr⟩ := (known_cases hanc1.known_right).resolve_left hbg
  obtain ⟨s2, ds, g1, g2, -⟩ := invalidateStale_ok hib hm1 hr hnb1 false
  have hinv : (s1.invalidate env now bad false).1 = s2 := by
    have hnm : s1.inMain env bad = false := by
      cases h : s1.inMain env bad with
      | false => rfl
      | true => exact absurd ((inMain_iff hib hm1 bad).1 h) hnb1
    simp only [Db.invalidate, hnm, Bool.not_false, if_true, g1]
  rw [hinv]
  have hi2 : IInv env s2 := by
    refine g2.iinv' hib ?_
    intro x e he ho hna
    rw [ha.get] at he
    split at he
    · rename_i hx; subst hx; exact absurd hanc1 hna
    · exact hi.okp x e he ho
  have hg12 : Grows s1 s2 := grows_of_eq g2.tree
  have hnok : s2.genOk env id = false := by
    cases h : s2.genOk env id with
    | false => rfl
    | true => exact absurd hanc1 ((g2.ok_iff hib hbg id).1 h).2
  refine ⟨?_, (known_of_tree g2.tree).2 (known_of_get ha.self), hnok⟩
  refine ⟨hi2, g2.minv hm1 hnb1, ?_, ?_, g2.blocks.trans ha.blocks, g2.byHeight.trans ha.byHeight, g2.best.trans ha.best,
    g2.minHeight.trans ha.minHeight, g2.ledger.trans ha.ledger, ?_, ?_⟩
  · intro x e he
    obtain ⟨e1, h1, h2⟩ := ha.grows x e he
    obtain ⟨e2, h3, h4⟩ := hg12 x e1 h1
    exact ⟨e2, h3, h4.trans h2⟩
  · intro x hx
    rw [known_of_tree g2.tree] at hx
    rcases ha.known.1 hx with h | rfl
    · exact .inl h
    · exact .inr ⟨rfl, hnok⟩
  · intro x hx
    obtain ⟨h1, h2⟩ := (g2.ok_iff hib hbg x).1 hx
    rcases (ha.ok_iff x).1 h1 with ⟨h, -⟩ | ⟨rfl, -⟩
    · exact h
    · exact absurd hanc1 h2
  · intro x hx
    have hxi : x ≠ id := by
      rintro rfl
      simp [Db.genOk, hid, hn] at hx
    have h1 : s1.genOk env x = true := (ha.ok_iff x).2 (.inl ⟨hx, hxi⟩)
    by_cases hxa : Anc env s1 x bad
    · right
      obtain ⟨l, hl, hc⟩ := hbad
      exact fun hv => not_valid hbg hl hc (valid_anc hib.tree hxa hv)
    · exact .inl ((g2.ok_iff hib hbg x).2 ⟨h1, hxa⟩)

theorem process_spec (hu : Undoes env) {now : Now} {s : Db L} (hi : IInv env s) (hm : MInv env s) {id} (hid : id ≠ env.tree.genesisId) :
    (∃ s' r, s.process env now id = (s', .ok r) ∧ Accepted env now s s' id r) ∨
    (∃ s' e, s.process env now id = (s', .error e) ∧ Rejected env now s s' id ∧ Reason env now s id e ∧
      (s' = s ∨ e.classify = .bad ∧ Known env s' id ∧ s'.genOk env id = false)) := by
  unfold Db.process
  cases hn : s.index.get id with
  | some e =>
    refine .inr ⟨s, _, rfl, rejected_same hi hm, ?_, .inl rfl⟩
    by_cases ho : e.status.ok = true
    · rw [if_pos ho]; exact .again (known_of_get hn) (by unfold Ok; rw [genOk_block hid hn]; exact ho)
    · rw [if_neg ho]; exact .bad (known_of_get hn) (by unfold Ok; rw [genOk_block hid hn]; exact ho)
  | none =>
    dsimp only
    cases hidx : createIndex env.tree s.tree id with
    | error e =>
      right
      have hnk : ¬ Known env s (env.tree.body id).prev := by
        intro hk
        obtain ⟨p, hp⟩ := known_gen.1 hk
        obtain ⟨y, a, -, -, h⟩ := createIndex_ok hi.tree hp
        rw [hidx] at h; cases h
      have he : e = .prevNotFound := by
        cases hp : getGen env.tree s.tree (env.tree.body id).prev with
        | none => simp [createIndex, hp, okOr, bind, Except.bind] at hidx; exact hidx.symm
        | some p => exact absurd (known_gen.2 ⟨p, hp⟩) hnk
      subst he
      exact ⟨s, _, rfl, rejected_same hi hm, .orphan hnk, .inl rfl⟩
    | ok idx =>
      dsimp only
      have hpk : Known env s (env.tree.body id).prev := known_gen.2 (createIndex_prev hidx)
      -- the block stored
      generalize hs2 : ({ s with index := s.index.insert id { idx := idx, status := checkedStatus, persisted := true }, blocks := s.blocks.insert id () } : Db L) = s2
      have ha : Added env s s2 id { idx := idx, status := checkedStatus, persisted := true } := by
        subst hs2; exact ⟨hid, hn, hidx, rfl, rfl, rfl, rfl, rfl, rfl⟩
      have hii : idx.id = id := (ha.tinv hi.tree).id_eq' ha.self
      have hpe : idx.prev = (env.tree.body id).prev := (ha.tinv hi.tree).prev_eq ha.self
      have hbn : s.blocks.get id = none := by
        cases hb : s.blocks.get id with
        | none => rfl
        | some u => obtain ⟨e', he'⟩ := hi.blk id (by rw [hb]; rfl); rw [hn] at he'; cases he'
      unfold Db.finish
      cases hck : s.checkBlock env now id with
      | error e =>
        right
        have : s.integrate env now idx = .error (.check e {}) := by
          simp only [Db.integrate, hii, hck, asCheck, bind, Except.bind]
        rw [this]
        dsimp only
        have hwhy := checkBlock_err hi.tree hm.known hn hpk hck
        by_cases hcl : e.classify.shouldInvalidate = true
        · rw [if_pos hcl]
          have hcb : e.classify = .bad := by
            cases hq : e.classify <;> rw [hq] at hcl <;> first | rfl | cases hcl
          obtain ⟨h1, h2, h3⟩ := checkFailure_spec (now := now) hi hm hid hn hidx hii
          exact ⟨_, _, rfl, h1, hwhy, .inr ⟨hcb, h2, h3⟩⟩
        · rw [if_neg hcl]
          exact ⟨_, _, rfl, rejected_same hi hm, hwhy, .inl rfl⟩
      | ok u =>
        cases u
        obtain ⟨⟨hp1, hp2, hp3⟩, hcn⟩ := (checkBlock_ok hi.tree hm.known hn).1 hck
        have hib := ha.ibase hi.toIBase (fun p hp => by
          have hp' : s.index.get idx.prev = some p := hp
          have hpg := hi.tree.ne_genesis hp'
          rw [← hpe, genOk_block hpg hp'] at hp2
          have hpp := hi.okp _ _ hp' hp2
          exact ⟨fun _ => hpp, fun _ => hp2, hi.stage _ _ hp' hpp⟩) (fun _ => Nat.le_refl _)
        have hi2 : IInv env s2 := by
          refine ⟨hib, ?_⟩
          intro x e he ho
          rw [ha.get] at he
          split at he
          · cases he; rfl
          · exact hi.okp x e he ho
        have hm2 := ha.minv hi.tree hm
        have hint : s.integrate env now idx = (do
            let (s3, reorg) ← asReorg checkedStatus (s2.activate env now { idx := idx, status := checkedStatus, persisted := true })
            let s4 ← asOther (s3.updateMinHeight env)
            pure (s4, reorg)) := by
          subst hs2
          simp only [Db.integrate, hii, hck, asCheck, Db.setNewIndex, hn, Db.persistBlock, hbn, bind, Except.bind]
        have hact := activate_spec (now := now) hu hi2 hm2 (e := { idx := idx, status := checkedStatus, persisted := true })
          (by show s2.index.get idx.id = _; rw [hii]; exact ha.self) rfl
        have htb : trust env s2 s2.best = trust env s s.best := by rw [ha.best]; exact ha.grows.trust hm.known
        rw [hint]
        revert hact
        cases s2.activate env now { idx := idx, status := checkedStatus, persisted := true } with
        | ok r =>
          obtain ⟨s3, b⟩ := r
          intro hact
          left
          -- facts common to both outcomes
          have hcom : IInv env s3 ∧ MInv env s3 ∧ Keeps s2 s3 ∧
              (b = true ∧ s3.best = id ∧ trust env s s.best < trust env s2 id ∨
               b = false ∧ s3 = s2 ∧ trust env s2 id ≤ trust env s s.best) := by
            cases b with
            | true =>
              obtain ⟨a1, a2, a3, a4, a5⟩ := hact
              refine ⟨a1, a2, a3, .inl ⟨rfl, a4.trans hii, ?_⟩⟩
              rw [htb] at a5
              have : trust env s2 idx.id = trust env s2 id := by rw [hii]
              rw [← this]; exact a5
            | false =>
              obtain ⟨rfl, a5⟩ := hact
              refine ⟨hi2, hm2, Keeps.refl _, .inr ⟨rfl, rfl, ?_⟩⟩
              rw [htb] at a5
              have : trust env s3 idx.id = trust env s3 id := by rw [hii]
              rw [← this]; exact a5
          obtain ⟨c1, c2, c3, c4⟩ := hcom
          obtain ⟨bg, hbg⟩ := known_gen.1 c2.known
          have hupd : s3.updateMinHeight env = .ok { s3 with minHeight := max s3.minHeight (height env s3 s3.best - env.maxDepth) } := by
            simp only [Db.updateMinHeight, Db.bestIndex, hbg, okOr, bind, Except.bind, pure, Except.pure, gen_height hbg]
          obtain ⟨e0, he0, -, -, heok⟩ := c3.symm.get ha.self
          have heok' : e0.status.ok = true := heok
          simp only [asReorg, bind, Except.bind, hupd, asOther, pure, Except.pure]
          generalize hs4 : ({ s3 with minHeight := max s3.minHeight (height env s3 s3.best - env.maxDepth) } : Db L) = s4
          have hx4 : s4.index = s3.index := by subst hs4; rfl
          have hb4 : s4.best = s3.best := by subst hs4; rfl
          have ht4 : s4.tree = s3.tree := by subst hs4; rfl
          have ht42 : s4.tree = s2.tree := ht4.trans c3.tree
          have hi4 : IInv env s4 := c1.congr hx4 (by subst hs4; rfl)
          have hm4 : MInv env s4 := by subst hs4; exact ⟨c2.known, c2.heights, c2.full, c2.led⟩
          have hg4 : s4.index.get id = some e0 := by rw [hx4]; exact he0
          have hg3 : s3.index.get idx.id = some e0 := by rw [hii]; exact he0
          simp only [hg3, heok', if_true]
          refine ⟨s4, _, rfl, hid, hn, hi4, hm4, ?_, ?_, ?_, ?_, ?_, hp1, hp2, hp3, hcn, ?_⟩
          · intro x e he
            obtain ⟨e1, h1, h2⟩ := ha.grows x e he
            obtain ⟨e2, h3, h4⟩ := grows_of_eq ht42 x e1 h1
            exact ⟨e2, h3, h4.trans h2⟩
          · intro x; rw [known_of_tree ht42, ha.known]
          · have : s4.blocks = s3.blocks := by subst hs4; rfl
            rw [this, c3.blocks, ha.blocks]; rfl
          · have h1 : s4.minHeight = max s3.minHeight (height env s3 s3.best - env.maxDepth) := by subst hs4; rfl
            rw [h1, c3.minHeight, ha.minHeight, height_of_tree ht4, hb4]
          · intro x
            have h1 : s4.genOk env x = s3.genOk env x := by simp only [Db.genOk, hx4]
            rw [h1, c3.ok, ha.ok_iff]
            constructor
            · rintro (⟨h, -⟩ | ⟨h, -⟩)
              · exact .inl h
              · exact .inr h
            · rintro (h | h)
              · refine .inl ⟨h, ?_⟩
                rintro rfl
                simp [Db.genOk, hid, hn] at h
              · exact .inr ⟨h, rfl⟩
          · rcases c4 with ⟨rfl, h1, h2⟩ | ⟨rfl, h1, h2⟩
            · refine .inl ⟨e0, rfl, hg4, hb4.trans h1, ?_⟩
              rw [trust_of_tree ht42]; exact h2
            · refine .inr ⟨rfl, ?_, ?_, ?_, ?_⟩
              · rw [hb4, h1, ha.best]
              · have : s4.byHeight = s3.byHeight := by subst hs4; rfl
                rw [this, h1, ha.byHeight]
              · have : s4.ledger = s3.ledger := by subst hs4; rfl
                rw [this, h1, ha.ledger]
              · rw [trust_of_tree ht42]; exact h2
        | error re =>
          cases re with
          | other err => exact False.elim
          | connectFailed bad err =>
            rintro ⟨b1, b2, b3, -⟩
            right
            simp only [asReorg, bind, Except.bind]
            have hnb : ¬ Main env s bad := by
              intro h; apply b2; unfold Main; rw [ha.best, ha.grows.anc_iff hi.tree hm.known]; exact h
            have hnm : s.inMain env bad = false := by
              cases h : s.inMain env bad with
              | false => rfl
              | true => exact absurd ((inMain_iff hi.toIBase hm bad).1 h) hnb
            rw [hnm, if_neg (by simp)]
            rcases b3 with ⟨rfl, hfl⟩ | ⟨rfl, hbad⟩
            · have hcl : (Err.storage.classify).shouldInvalidate = false := rfl
              rw [hcl, if_neg (by simp)]
              exact ⟨_, _, rfl, rejected_same hi hm, .fault hfl, .inl rfl⟩
            · have hcl : (Err.badBlock.classify).shouldInvalidate = true := rfl
              rw [if_pos hcl]
              have hb1 : Anc env s2 id bad := by
                have : Anc env s2 idx.id bad := b1
                rw [hii] at this; exact this
              have hbg : bad ≠ env.tree.genesisId := by rintro rfl; exact hnb (hi.tree.anc_genesis hm.known)
              have hnv : ¬ Valid env id := by
                obtain ⟨l, hl, hc⟩ := hbad
                exact fun hv => not_valid hbg hl hc (valid_anc hib.tree hb1 hv)
              have hcf := connectFailure_spec (now := now) hi hm hid hn hidx hii hp2 hnb (bad := bad) ?_ hbad
              · exact ⟨_, _, rfl, hcf.1, .invalid hnv, .inr ⟨rfl, hcf.2⟩⟩
              intro s' e ha'
              have hte : s'.tree = s2.tree := by
                have := ha'.idx
                rw [hidx] at this
                rw [ha'.tree, ha.tree, ← Except.ok.inj this]
              rw [anc_of_tree hte]; exact hb1

end Verif.Chainstate
