import Verif.Chainstate.Process

/-! # Histories of calls -/

namespace Verif.Chainstate
open Verif BlockTree Spec
open Verif.BlockStatus (Stage)
variable {L : Type} {env : Env L}

/-- the invariant of all histories -/
structure SInv (env : Env L) (s : Db L) : Prop where
  i : IInv env s
  m : MInv env s
  low : s.minHeight ≤ height env s s.best

theorem sinv_init : SInv env (Db.init env) := by
  have ht : TInv env (Db.init env) := by intro id b h; rw [tree_get] at h; simp [Db.init] at h
  have hn : ∀ id, (Db.init env).index.get id = none := fun id => BMap.get_empty _
  have hk : ∀ id, Known env (Db.init env) id → id = env.tree.genesisId := by
    intro id h
    rcases known_cases h with h | ⟨e, h⟩
    · exact h
    · rw [hn] at h; cases h
  refine ⟨⟨⟨ht, ?_, ?_, ?_, ?_⟩, ?_⟩, ⟨known_genesis _, ?_, ?_, .genesis⟩, Nat.zero_le _⟩
  · intro id e h; rw [hn] at h; cases h
  · intro id h; simp [Db.init] at h
  · intro id e p h; rw [hn] at h; cases h
  · intro id e h; rw [hn] at h; cases h
  · intro id e h; rw [hn] at h; cases h
  · intro h id
    show (BMap.empty.insert 0 env.tree.genesisId).get h = some id ↔ _
    rw [BMap.get_insert]
    constructor
    · intro hh
      split at hh
      · rename_i h0; cases hh; subst h0
        exact ⟨anc_refl (known_genesis _), height_genesis _⟩
      · simp at hh
    · rintro ⟨h1, h2⟩
      have := hk id h1.known_right
      subst this
      rw [height_genesis] at h2
      rw [if_pos h2.symm]
  · intro id e _ h; rw [hn] at h; cases h

/-- ancestors at or below the height of a shared ancestor are shared -/
theorem Spec.Shares.final {s : Db L} (ht : TInv env s) {m a b x} (h : Shares env s m a b) (hx : Anc env s b x) (hh : height env s x ≤ m) : Anc env s a x := by
  obtain ⟨c, h1, h2, h3⟩ := h
  rcases h2.total hx with h | h
  · exact h1.trans h
  · have := (ht.anc_height h).1
    have := (ht.anc_height h).2 (by omega)
    rw [← this]; exact h1

theorem SInv.shares_self {s : Db L} (h : SInv env s) : Shares env s s.minHeight s.best s.best :=
  ⟨s.best, anc_refl h.m.known, anc_refl h.m.known, h.low⟩

theorem Grows.shares {s s' : Db L} (h : Grows s s') (ht : TInv env s) {m a b} (ha : Known env s a) (hb : Known env s b) :
    Shares env s' m a b ↔ Shares env s m a b := by
  constructor
  · rintro ⟨c, h1, h2, h3⟩
    rw [h.anc_iff ht ha] at h1; rw [h.anc_iff ht hb] at h2
    exact ⟨c, h1, h2, by rw [← h.height h1.known_right]; exact h3⟩
  · rintro ⟨c, h1, h2, h3⟩
    exact ⟨c, (h.anc_iff ht ha).2 h1, (h.anc_iff ht hb).2 h2, by rw [h.height h1.known_right]; exact h3⟩

/-- the new tip of an accepted block shares the protected part of the main chain -/
theorem Accepted.shares {now : Now} {s s' : Db L} {id r} (h : SInv env s) (ha : Accepted env now s s' id r) :
    Shares env s' s.minHeight s'.best s.best := by
  have ht := h.i.tree
  rcases ha.tip with ⟨e, -, he, hb, -⟩ | ⟨-, hb, -⟩
  · rw [hb]
    have hp : Anc env s' id (env.tree.body id).prev := by
      rw [← ha.iinv.tree.prev_eq he]; exact ha.iinv.tree.anc_parent he
    exact Shares.desc ((ha.grows.shares ht ha.prevKnown h.m.known).2 ha.prevShares) hp
  · rw [hb]
    exact (ha.grows.shares ht h.m.known h.m.known).2 h.shares_self

theorem Accepted.sinv {now : Now} {s s' : Db L} {id r} (h : SInv env s) (ha : Accepted env now s s' id r) : SInv env s' := by
  refine ⟨ha.iinv, ha.minv, ?_⟩
  obtain ⟨c, h1, h2, h3⟩ := ha.shares h
  have := (ha.iinv.tree.anc_height h1).1
  rw [ha.minHeight]
  omega

theorem Rejected.sinv {now : Now} {s s' : Db L} {id} (h : SInv env s) (ha : Rejected env now s s' id) : SInv env s' := by
  refine ⟨ha.iinv, ha.minv, ?_⟩
  rw [ha.minHeight, ha.best, ha.grows.height h.m.known]; exact h.low

/-- outcome of an invalidation -/
structure Invalidated (env : Env L) (now : Now) (s s' : Db L) (id : Nat) : Prop where
  sinv : SInv env s'
  tree : s'.tree = s.tree
  blocks : s'.blocks = s.blocks
  minHeight : s'.minHeight = s.minHeight
  okSub : ∀ x, s'.genOk env x = true → s.genOk env x = true ∧ ¬ Anc env s x id
  blamed : ∀ x, s.genOk env x = true → s'.genOk env x = true ∨ Anc env s x id ∨ ¬ Valid env x
  shares : Shares env s s.minHeight s'.best s.best
  max : (s'.best = s.best ∧ s'.ledger = s.ledger ∧ s'.byHeight = s.byHeight) ∨ (Main env s id ∧ ∀ x, s'.genOk env x = true →
    Shares env s s.minHeight x s'.best → Spec.trust env s x ≤ Spec.trust env s s'.best ∨ ∃ f, now.fault f = true ∧ Anc env s x f)

theorem invalidate_spec (hu : Undoes env) {now : Now} {s : Db L} (h : SInv env s) (id : Nat) :
    (∃ s', s.invalidate env now id true = (s', .ok ()) ∧ Invalidated env now s s' id) ∨
    (∃ e, s.invalidate env now id true = (s, .error e) ∧
      (e = .indexNotFound ∧ s.index.get id = none ∨ e = .tooDeep ∧ Main env s id ∧ height env s id ≤ s.minHeight)) := by
  have hi := h.i
  have hm := h.m
  have ht := hi.tree
  unfold Db.invalidate
  by_cases hmn : Main env s id
  · have hin : s.inMain env id = true := (inMain_iff hi.toIBase hm id).2 hmn
    rw [hin]
    simp only [Bool.not_true, Bool.false_eq_true, if_false]
    obtain ⟨b, hb⟩ := known_gen.1 hm.known
    by_cases hg : id = env.tree.genesisId
    · have hn : s.index.get id = none := by
        cases hx : s.index.get id with
        | none => rfl
        | some e => exact absurd hg (ht.ne_genesis hx)
      right
      refine ⟨.indexNotFound, ?_, .inl ⟨rfl, hn⟩⟩
      simp only [Db.disconnectBlock, hn, okOr, bind, Except.bind]
    · obtain ⟨e, he⟩ := (known_cases hmn.known_right).resolve_left hg
      have hbg : s.best ≠ env.tree.genesisId := by
        intro hc; unfold Main at hmn; rw [hc] at hmn; exact hg (anc_of_genesis hmn)
      have hhe := ht.height_eq he
      by_cases hd : s.minHeight < e.idx.height
      · left
        obtain ⟨hpk, hph, -⟩ := ht.parent he
        have hmp : Main env s e.idx.prev := hmn.trans (ht.anc_parent he)
        obtain ⟨s1, g1, g2, g3, g4, g5, g6⟩ := disconnectUntil_ok hu (b.height + 1) hi hm hmp (by rw [gen_height hb]; omega)
        have hdb : s.disconnectBlock env id = .ok s1 := by
          simp only [Db.disconnectBlock, he, okOr, Db.bestIndex, hb, ensure, hbg, ne_eq, not_false_eq_true, if_true, hd, bind, Except.bind, g1]
        have hi1 := hi.congr g2 g3
        have ht1 : s1.tree = s.tree := by simp only [Db.tree, g2]
        have hok1 : ∀ x, s1.genOk env x = s.genOk env x := fun x => by simp only [Db.genOk, g2]
        have hn1 : ¬ Main env s1 id := by
          unfold Main; rw [g5, anc_of_tree ht1]
          intro hc; have := (ht.anc_height hc).1; omega
        obtain ⟨s2, ds, q1, q2, -⟩ := invalidateStale_ok hi1.toIBase g6 (r := e) (by rw [g2]; exact he) hn1 true
        have hi2 := q2.iinv hi1
        have hm2 := q2.minv g6 hn1
        obtain ⟨s3, bb, k1, k2⟩ := findBest_spec hu now hi2 hm2
        have ht2 : s2.tree = s.tree := q2.tree.trans ht1
        have hb2 : s2.best = e.idx.prev := q2.best.trans g5
        have hmin2 : s2.minHeight = s.minHeight := q2.minHeight.trans g4
        have hpsh : Shares env s s.minHeight e.idx.prev s.best := ⟨e.idx.prev, anc_refl hpk, hmp, by omega⟩
        have hsh : Shares env s s.minHeight s3.best s.best := by
          rcases k2.shares with hc | hc
          · rw [hc, hb2]; exact hpsh
          · rw [shares_of_tree ht2, hmin2, hb2] at hc; exact hc.trans hpsh
        have hok2 : ∀ x, s2.genOk env x = true ↔ s.genOk env x = true ∧ ¬ Anc env s x id := by
          intro x; rw [q2.ok_iff hi1.toIBase hg, hok1, anc_of_tree ht1]
        refine ⟨s3, by rw [hdb]; dsimp only; rw [q1]; dsimp only; rw [k1], ?_⟩
        have ht3 : s3.tree = s.tree := k2.tree.trans ht2
        refine ⟨⟨k2.iinv, k2.minv, ?_⟩, ht3, (k2.blocks.trans q2.blocks).trans g3, k2.minHeight.trans hmin2, ?_, ?_, hsh, .inr ⟨hmn, ?_⟩⟩
        · obtain ⟨c, c1, c2, c3⟩ := hsh
          have := (ht.anc_height c1).1
          rw [k2.minHeight, hmin2, height_of_tree ht3]; omega
        · intro x hx
          exact (hok2 x).1 (k2.okSub x hx)
        · intro x hx
          by_cases hxa : Anc env s x id
          · exact .inr (.inl hxa)
          · rcases k2.blamed x ((hok2 x).2 ⟨hx, hxa⟩) with h | h
            · exact .inl h
            · exact .inr (.inr h)
        · intro x hx hs
          have := k2.max x hx (by rw [shares_of_tree ht2, hmin2]; exact hs)
          simpa only [trust_of_tree ht2, anc_of_tree ht2] using this
      · right
        refine ⟨.tooDeep, ?_, .inr ⟨rfl, hmn, by omega⟩⟩
        simp only [Db.disconnectBlock, he, okOr, Db.bestIndex, hb, ensure, hbg, ne_eq, not_false_eq_true, if_true, hd, bind, Except.bind, if_false]
  · have hin : s.inMain env id = false := by
      cases hh : s.inMain env id with
      | false => rfl
      | true => exact absurd ((inMain_iff hi.toIBase hm id).1 hh) hmn
    have hg : id ≠ env.tree.genesisId := by rintro rfl; exact hmn (ht.anc_genesis hm.known)
    cases he : s.index.get id with
    | none =>
      right
      refine ⟨.indexNotFound, ?_, .inl ⟨rfl, rfl⟩⟩
      simp only [hin, Bool.not_false, if_true, Db.invalidateStale, Db.staleBranch, Db.branch, he, okOr, ensure, bind, Except.bind]
    | some e =>
      left
      obtain ⟨s2, ds, q1, q2, -⟩ := invalidateStale_ok hi.toIBase hm he hmn true
      refine ⟨s2, by simp only [hin, Bool.not_false, if_true, q1], ?_⟩
      refine ⟨⟨q2.iinv hi, q2.minv hm hmn, by rw [q2.minHeight, q2.best, height_of_tree q2.tree]; exact h.low⟩, q2.tree, q2.blocks, q2.minHeight,
        fun x hx => (q2.ok_iff hi.toIBase hg x).1 hx, ?_, by rw [q2.best]; exact h.shares_self, .inl ⟨q2.best, q2.ledger, q2.byHeight⟩⟩
      intro x hx
      by_cases hxa : Anc env s x id
      · exact .inr (.inl hxa)
      · exact .inl ((q2.ok_iff hi.toIBase hg x).2 ⟨hx, hxa⟩)

/-- outcome of resetting failure flags -/
structure WasReset (env : Env L) (now : Now) (s s' : Db L) (id : Nat) : Prop where
  sinv : SInv env s'
  grows : Grows s' s
  blocks : s'.blocks = s.blocks
  minHeight : s'.minHeight = s.minHeight
  known : ∀ x, Known env s x → (Known env s' x ↔ ¬ Anc env s x id ∨ (s.blocks.get x).isSome = true)
  okSub : ∀ x, s'.genOk env x = true → s.genOk env x = true ∨ Anc env s x id
  blamed : ∀ x, s.genOk env x = true ∨ (Anc env s x id ∧ (s.blocks.get x).isSome = true) → s'.genOk env x = true ∨ ¬ Valid env x
  trust : trust env s s.best ≤ trust env s s'.best
  shares : Shares env s s.minHeight s'.best s.best
  max : ∀ x, s'.genOk env x = true → Shares env s s.minHeight x s'.best →
    Spec.trust env s x ≤ Spec.trust env s s'.best ∨ ∃ f, now.fault f = true ∧ Anc env s x f

theorem reset_spec (hu : Undoes env) {now : Now} {s : Db L} (h : SInv env s) {id : Nat}
    (hp : Known env s id → s.genOk env (env.tree.body id).prev = true) :
    (∃ s', s.reset env now id = (s', .ok ()) ∧ WasReset env now s s' id) ∨
    (s.reset env now id = (s, .error .indexNotFound) ∧ s.index.get id = none) := by
  have hi := h.i
  have hm := h.m
  have ht := hi.tree
  unfold Db.reset
  cases hr : s.index.get id with
  | none =>
    right
    refine ⟨?_, rfl⟩
    simp only [Db.branch, hr, okOr, bind, Except.bind]
  | some r =>
    left
    obtain ⟨es, g1, g2⟩ := cleared_ok hi.toIBase hr
    rw [g1]
    dsimp only
    generalize ({ s with index := es.foldl resetEntry s.index } : Db L) = s1 at g2
    have hi1 := g2.iinv hi (hp (known_of_get hr))
    have hm1 := g2.minv hi hm
    obtain ⟨s2, b, k1, k2⟩ := findBest_spec hu now hi1 hm1
    have hgr : Grows s2 s := by
      intro x e he
      have h1 : s2.tree.get x = s1.tree.get x := by rw [k2.tree]
      rw [tree_get, tree_get, he] at h1
      cases he1 : s1.index.get x with
      | none => rw [he1] at h1; cases h1
      | some e1 =>
        rw [he1] at h1
        obtain ⟨e2, q1, q2⟩ := g2.grows x e1 he1
        simp only [Option.map_some, Option.some.injEq] at h1
        exact ⟨e2, q1, q2.trans h1.symm⟩
    have hid : id ≠ env.tree.genesisId := ht.ne_genesis hr
    have hkn : ∀ x, Known env s x → (Known env s1 x ↔ ¬ Anc env s x id ∨ (s.blocks.get x).isSome = true) := by
      intro x hx
      rcases known_cases hx with rfl | ⟨e, he⟩
      · refine ⟨fun _ => .inl (fun hc => hid (anc_of_genesis hc)), fun _ => known_genesis _⟩
      · constructor
        · intro hk
          obtain ⟨e', he'⟩ := (known_cases hk).resolve_left (ht.ne_genesis he)
          obtain ⟨e0, q1, q2, q3, q4, q5⟩ := g2.get he'
          rcases q5 with ⟨-, q, -⟩ | ⟨q, -⟩
          · right; exact (hi.pers x e0 q1).1 (q3.trans q)
          · exact .inl q
        · intro hc
          obtain ⟨e', he', -⟩ := g2.get_back he (hc.elim .inr (fun hb => .inl ((hi.pers x e he).2 hb)))
          exact known_of_get he'
    have hkb : Known env s1 s.best := by have := hm1.known; rw [g2.best] at this; exact this
    have hkb2 : Known env s1 s2.best := (known_of_tree k2.tree).1 k2.minv.known
    have hsh : Shares env s s.minHeight s2.best s.best := by
      rcases k2.shares with hc | hc
      · rw [hc, g2.best]; exact h.shares_self
      · rw [g2.minHeight, g2.best] at hc
        exact (g2.grows.shares hi1.tree hkb2 hkb).2 hc
    have hok1 : ∀ x, s1.genOk env x = true → s.genOk env x = true ∨ Anc env s x id := by
      intro x hx
      by_cases hg : x = env.tree.genesisId
      · subst hg; exact .inl (genOk_genesis s)
      · cases he' : s1.index.get x with
        | none => simp [Db.genOk, hg, he'] at hx
        | some e' =>
          rw [genOk_block hg he'] at hx
          obtain ⟨e, q1, q2, q3, q4, q5⟩ := g2.get he'
          rcases q5 with ⟨q, -⟩ | ⟨-, rfl⟩
          · exact .inr q
          · left; rw [genOk_block hg q1]; exact hx
    have hokk : ∀ x, s1.genOk env x = true → Known env s1 x := by
      intro x hx
      by_cases hg : x = env.tree.genesisId
      · subst hg; exact known_genesis _
      · cases he' : s1.index.get x with
        | none => simp [Db.genOk, hg, he'] at hx
        | some e' => exact known_of_get he'
    refine ⟨s2, by rw [k1], ⟨k2.iinv, k2.minv, ?_⟩, hgr, k2.blocks.trans g2.blocks, k2.minHeight.trans g2.minHeight, ?_, ?_, ?_, ?_, hsh, ?_⟩
    · obtain ⟨c, c1, c2, c3⟩ := hsh
      have := (ht.anc_height c1).1
      rw [k2.minHeight, g2.minHeight, ← hgr.height k2.minv.known]; omega
    · intro x hx
      rw [known_of_tree k2.tree]; exact hkn x hx
    · intro x hx
      exact hok1 x (k2.okSub x hx)
    · intro x hx
      refine k2.blamed x ?_
      by_cases hg : x = env.tree.genesisId
      · subst hg; exact genOk_genesis s1
      · by_cases hxa : Anc env s x id
        · obtain ⟨e, he⟩ := (known_cases hxa.known_left).resolve_left hg
          have hpe : e.persisted = true := by
            rcases hx with hx | ⟨-, hx⟩
            · rw [genOk_block hg he] at hx; exact hi.okp x e he hx
            · exact (hi.pers x e he).2 hx
          have : s1.index.get x = some { e with status := e.status.cleared } := by
            rw [g2.desc x hxa, he, Option.bind_some, if_pos hpe]
          rw [genOk_block hg this]; rfl
        · have hx := hx.resolve_right (fun h => hxa h.1)
          have : s1.index.get x = s.index.get x := g2.others x hxa
          simp only [Db.genOk, this] at hx ⊢; exact hx
    · have := k2.trust
      rw [g2.best, ← g2.grows.trust hkb, ← g2.grows.trust hkb2] at this; exact this
    · intro x hx hs
      have hkx := hokk x (k2.okSub x hx)
      have := k2.max x hx (by rw [g2.minHeight]; exact (g2.grows.shares hi1.tree hkx hkb2).1 hs)
      rw [← g2.grows.trust hkx, ← g2.grows.trust hkb2] at this
      rcases this with h | ⟨f, h1, h2⟩
      · exact .inl h
      · exact .inr ⟨f, h1, (g2.grows.anc_iff hi1.tree hkx).2 h2⟩

theorem genOk_known {s : Db L} {x} (h : s.genOk env x = true) : Known env s x := by
  by_cases hg : x = env.tree.genesisId
  · subst hg; exact known_genesis _
  · cases he' : s.index.get x with
    | none => simp [Db.genOk, hg, he'] at h
    | some e' => exact known_of_get he'

theorem step_sinv (hu : Undoes env) {s : Db L} (h : SInv env s) (op : Op) (hp : Proper env s op) : SInv env (step env s op) := by
  cases op with
  | process id now =>
    rcases process_spec (now := now) hu h.i h.m hp with ⟨s', r, h1, h2⟩ | ⟨s', e, h1, h2, -⟩
    · simp only [step, h1]; exact h2.sinv h
    · simp only [step, h1]; exact h2.sinv h
  | invalidate id now =>
    rcases invalidate_spec (now := now) hu h id with ⟨s', h1, h2⟩ | ⟨e, h1, -⟩
    · simp only [step, h1]; exact h2.sinv
    · simp only [step, h1]; exact h
  | reset id now =>
    rcases reset_spec (now := now) hu h hp with ⟨s', h1, h2⟩ | ⟨h1, -⟩
    · simp only [step, h1]; exact h2.sinv
    · simp only [step, h1]; exact h

theorem later_sinv (hu : Undoes env) {P : Op → Prop} {s0 s : Db L} (h0 : SInv env s0) (h : Later env P s0 s) : SInv env s := by
  induction h with
  | refl => exact h0
  | step op _ _ hp ih => exact step_sinv hu ih op hp

theorem reach_sinv (hu : Undoes env) {s : Db L} (h : Reach env s) : SInv env s := later_sinv hu sinv_init h

theorem later_mono {P Q : Op → Prop} (hpq : ∀ op, P op → Q op) {s0 s : Db L} (h : Later env P s0 s) : Later env Q s0 s := by
  induction h with
  | refl => exact .refl
  | step op _ h1 h2 ih => exact .step op ih (hpq op h1) h2

/-! ### what every step preserves -/

theorem step_final (hu : Undoes env) {s : Db L} (h : SInv env s) (op : Op) (hp : Proper env s op) :
    s.minHeight ≤ (step env s op).minHeight ∧ ∀ x, Main env s x → height env s x ≤ s.minHeight →
      Main env (step env s op) x ∧ height env (step env s op) x = height env s x := by
  cases op with
  | process id now =>
    rcases process_spec (now := now) hu h.i h.m hp with ⟨s', r, h1, h2⟩ | ⟨s', e, h1, h2, -⟩
    · simp only [step, h1]
      refine ⟨by rw [h2.minHeight]; omega, ?_⟩
      intro x hx hh
      have hk := hx.known_right
      refine ⟨(h2.shares h).final h2.iinv.tree ((h2.grows.anc_iff h.i.tree h.m.known).2 hx) (by rw [h2.grows.height hk]; exact hh), h2.grows.height hk⟩
    · simp only [step, h1]
      refine ⟨by rw [h2.minHeight], ?_⟩
      intro x hx hh
      refine ⟨?_, h2.grows.height hx.known_right⟩
      unfold Main; rw [h2.best]; exact (h2.grows.anc_iff h.i.tree h.m.known).2 hx
  | invalidate id now =>
    rcases invalidate_spec (now := now) hu h id with ⟨s', h1, h2⟩ | ⟨e, h1, -⟩
    · simp only [step, h1]
      refine ⟨by rw [h2.minHeight], ?_⟩
      intro x hx hh
      exact ⟨(anc_of_tree h2.tree).2 (h2.shares.final h.i.tree hx hh), height_of_tree h2.tree x⟩
    · simp only [step, h1]
      exact ⟨Nat.le_refl _, fun x hx _ => ⟨hx, trivial⟩⟩
  | reset id now =>
    rcases reset_spec (now := now) hu h hp with ⟨s', h1, h2⟩ | ⟨h1, -⟩
    · simp only [step, h1]
      refine ⟨by rw [h2.minHeight], ?_⟩
      intro x hx hh
      have := (h2.grows.anc_iff h2.sinv.i.tree h2.sinv.m.known).1 (h2.shares.final h.i.tree hx hh)
      exact ⟨this, (h2.grows.height this.known_right).symm⟩
    · simp only [step, h1]
      exact ⟨Nat.le_refl _, fun x hx _ => ⟨hx, trivial⟩⟩

theorem step_maxTrust (hu : Undoes env) {s : Db L} (h : SInv env s) (hmt : MaxTrust env s) (op : Op) (hn : NoFault op) (hp : Proper env s op) :
    MaxTrust env (step env s op) := by
  cases op with
  | process id now =>
    rcases process_spec (now := now) hu h.i h.m hp with ⟨s', r, h1, h2⟩ | ⟨s', e, h1, h2, -⟩
    · simp only [step, h1]
      intro x hk ho hs
      have hs1 : Shares env s' s.minHeight x s.best := (hs.mono (by rw [h2.minHeight]; omega)).trans (h2.shares h)
      have hold : s.genOk env x = true → trust env s' x ≤ trust env s s.best := by
        intro hx
        have hkx := genOk_known hx
        rw [h2.grows.trust hkx]
        exact hmt x hkx hx ((h2.grows.shares h.i.tree hkx h.m.known).1 hs1)
      rcases h2.tip with ⟨e, -, -, hb, hlt⟩ | ⟨-, hb, -, -, hle⟩
      · rw [hb]
        rcases (h2.ok x).1 ho with hx | rfl
        · have := hold hx; omega
        · exact Nat.le_refl _
      · rw [hb, h2.grows.trust h.m.known]
        rcases (h2.ok x).1 ho with hx | rfl
        · exact hold hx
        · exact hle
    · simp only [step, h1]
      intro x hk ho hs
      have hx := h2.okSub x ho
      have hkx := genOk_known hx
      rw [h2.minHeight, h2.best, h2.grows.shares h.i.tree hkx h.m.known] at hs
      rw [h2.best, h2.grows.trust hkx, h2.grows.trust h.m.known]
      exact hmt x hkx hx hs
  | invalidate id now =>
    rcases invalidate_spec (now := now) hu h id with ⟨s', h1, h2⟩ | ⟨e, h1, -⟩
    · simp only [step, h1]
      intro x hk ho hs
      rw [shares_of_tree h2.tree, h2.minHeight] at hs
      rw [trust_of_tree h2.tree, trust_of_tree h2.tree]
      rcases h2.max with ⟨hb, -⟩ | ⟨-, hmx⟩
      · rw [hb] at hs ⊢
        exact hmt x ((known_of_tree h2.tree).1 hk) (h2.okSub x ho).1 hs
      · rcases hmx x ho hs with h | ⟨f, hf, -⟩
        · exact h
        · rw [hn f] at hf; cases hf
    · simp only [step, h1]; exact hmt
  | reset id now =>
    rcases reset_spec (now := now) hu h hp with ⟨s', h1, h2⟩ | ⟨h1, -⟩
    · simp only [step, h1]
      intro x hk ho hs
      have hkb := h2.sinv.m.known
      rw [← h2.grows.shares h2.sinv.i.tree hk hkb, h2.minHeight] at hs
      rw [← h2.grows.trust hk, ← h2.grows.trust hkb]
      rcases h2.max x ho hs with h | ⟨f, hf, -⟩
      · exact h
      · rw [hn f] at hf; cases hf
    · simp only [step, h1]; exact hmt

theorem maxTrust_init : MaxTrust env (Db.init env) := by
  intro x hk _ _
  rcases known_cases hk with rfl | ⟨e, he⟩
  · exact Nat.le_refl _
  · simp [Db.init] at he

/-! ### agreement of two nodes -/

theorem trust_env {s1 s2 : Db L} (h1 : TInv env s1) (h2 : TInv env s2) : ∀ x, Known env s1 x → Known env s2 x → trust env s1 x = trust env s2 x := by
  intro x hx
  refine h1.induct (P := fun x => Known env s2 x → trust env s1 x = trust env s2 x) ?_ ?_ x hx
  · intro _; rw [trust_genesis, trust_genesis]
  · intro id e he ih hk
    have hg := h1.ne_genesis he
    obtain ⟨e2, he2⟩ := (known_cases hk).resolve_left hg
    obtain ⟨p, hp, -, q1, -⟩ := (h1.good he).parent
    obtain ⟨p2, hp2, -, q2, -⟩ := (h2.good he2).parent
    have hpe : e.idx.prev = e2.idx.prev := by rw [h1.prev_eq he, h2.prev_eq he2]
    have := ih (by rw [hpe]; exact (h2.parent he2).1)
    rw [h1.trust_eq he, h2.trust_eq he2, q1, q2, gen_trust hp, gen_trust hp2, this, hpe]

theorem shares_zero {s : Db L} (ht : TInv env s) {a b} (ha : Known env s a) (hb : Known env s b) : Shares env s 0 a b :=
  ⟨env.tree.genesisId, ht.anc_genesis ha, ht.anc_genesis hb, Nat.zero_le _⟩

theorem valid_prev {id} (hg : id ≠ env.tree.genesisId) (h : Valid env id) : Valid env (env.tree.body id).prev := by
  obtain ⟨l, hl⟩ := h
  cases hl with
  | genesis => exact absurd rfl hg
  | block _ h1 _ => exact ⟨_, h1⟩

theorem honest_ok (hu : Undoes env) {s : Db L} (h : Later env Honest (Db.init env) s) (h0 : s.minHeight = 0) :
    ∀ x, Known env s x → Valid env x → s.genOk env x = true := by
  induction h with
  | refl =>
    intro x hk _
    rcases known_cases hk with rfl | ⟨e, he⟩
    · exact genOk_genesis _
    · simp [Db.init] at he
  | step op hl hon hp ih =>
    rename_i s
    have hs := later_sinv hu sinv_init hl
    cases op with
    | invalidate id now => exact hon.elim
    | reset id now => exact hon.elim
    | process id now =>
      have hz : s.minHeight = 0 := by have := (step_final hu hs _ hp).1; omega
      have ih := ih hz
      rcases process_spec (now := now) hu hs.i hs.m hp with ⟨s', r, h1, h2⟩ | ⟨s', e, h1, h2, h3, h4⟩
      · simp only [step, h1]
        intro x hk hv
        rw [h2.ok]
        rcases (h2.known x).1 hk with h | h
        · exact .inl (ih x h hv)
        · exact .inr h
      · simp only [step, h1]
        intro x hk hv
        by_cases hkx : Known env s x
        · exact (h2.blamed x (ih x hkx hv)).resolve_right (fun h => h hv)
        · obtain ⟨rfl, -⟩ := (h2.known x hk).resolve_left hkx
          rcases h4 with rfl | ⟨hcl, -⟩
          · exact absurd hk hkx
          · cases h3 with
            | again h _ => exact absurd h hkx
            | bad h _ => exact absurd h hkx
            | orphan _ => cases hcl
            | parent hpk hno => exact absurd (ih _ hpk (valid_prev hp hv)) hno
            | deep hns =>
              exfalso
              by_cases hpk : Known env s (env.tree.body x).prev
              · rw [hz] at hns; exact hns (shares_zero hs.i.tree hpk hs.m.known)
              · rcases known_cases hk with hg | ⟨e', he'⟩
                · exact hp hg
                · have hpk' := (h2.iinv.tree.parent he').1
                  rw [h2.iinv.tree.prev_eq he'] at hpk'
                  rcases h2.known _ hpk' with h | ⟨h, -⟩
                  · exact hpk h
                  · have := (h2.iinv.tree.parent he').2.1
                    rw [h2.iinv.tree.prev_eq he', h] at this; omega
            | check hc => rw [hon.1] at hc; cases hc
            | fault hf => rw [hon.2] at hf; cases hf
            | invalid hnv => exact absurd hv hnv

end Verif.Chainstate
