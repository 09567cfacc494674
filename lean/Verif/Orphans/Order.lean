import Verif.Orphans.Node

/-!
# The order of arrival does not matter
-/

namespace Verif.Orphans
open Verif BlockTree Chainstate Chainstate.Spec Orphans.Spec
variable {L : Type} {env : Env L}

/-- height in the database and depth by contents are the same -/
theorem height_depth {s : Db L} (ht : TInv env s) {x k : Nat} (hd : Depth env x k) (hk : Known env s x) : height env s x = k := by
  induction hd with
  | genesis => exact height_genesis s
  | block hg _ ih =>
    obtain ⟨e, he⟩ := (known_cases hk).resolve_left hg
    have hp := ht.parent he
    rw [ht.prev_eq he] at hp
    have hh := ih hp.1
    unfold parent at hh
    rw [hp.2.1, hh]

/-- the invariant of a history that delivers blocks of a given set -/
structure HInv (env : Env L) (B : List Nat) (n : Node L) : Prop where
  later : Later env Honest (Db.init env) n.db
  zero : n.db.minHeight = 0
  known : ∀ x, Known env n.db x → x = env.tree.genesisId ∨ x ∈ B
  rep : Rep (parent env) n.pool
  room : B.length < n.pool.max
  pool : ∀ x ∈ n.pool.ids, x ∈ B

/-- the blocks to be delivered -/
structure Good (env : Env L) (B : List Nat) : Prop where
  nodup : B.Nodup
  closed : Closed env B
  valid : ∀ x ∈ B, Valid env x
  depth : ∀ x ∈ B, ∃ k ≤ env.maxDepth, Depth env x k

theorem HInv.len {B : List Nat} {n : Node L} (h : HInv env B n) : n.pool.ids.length < n.pool.max :=
  Nat.lt_of_le_of_lt (h.rep.nodup.length_le_of_subset h.pool) h.room

/-- a block that is accepted blames no other -/
theorem blamed_ok {now : Now} {s : Db L} {id : Nat} {t} (h : (s.process env now id).2 = .ok t) : blamed env now s id = none := by
  unfold blamed
  cases hg : s.index.get id with
  | some e => rfl
  | none =>
    cases hc : createIndex env.tree s.tree id with
    | error e => rfl
    | ok idx =>
      simp only
      unfold Db.process at h
      rw [hg, hc] at h
      simp only at h
      unfold Db.finish at h
      cases hi : s.integrate env now idx with
      | ok v => rfl
      | error x =>
        cases x with
        | check e st => rfl
        | other e => rfl
        | connect e st bad =>
          rw [hi] at h
          simp only at h
          split at h
          · cases h
          · split at h <;> cases h

theorem blamed_known {now : Now} {s : Db L} {id : Nat} {e} (h : s.index.get id = some e) : blamed env now s id = none := by
  unfold blamed
  rw [h]

/-- a valid block with a known parent is accepted, or was before -/
theorem process_good (hu : Undoes env) {B : List Nat} (hB : Good env B) {n : Node L} (h : HInv env B n) {id : Nat} (hid : id ∈ B) (hp : Known env n.db (parent env id))
    {now : Now} (hc : now.check id = none) (hf : ∀ y, now.fault y = false) :
    HInv env B (⟨(n.db.process env now id).1, n.pool⟩ : Node L) ∧ blamed env now n.db id = none ∧ Ok env (n.db.process env now id).1 id ∧
    (∀ x, Ok env n.db x → Ok env (n.db.process env now id).1 x) ∧ (∀ e, (n.db.process env now id).2 = .error e → (n.db.process env now id).1 = n.db) := by
  have hg := (hB.closed id hid).1
  have hs := later_sinv hu sinv_init h.later
  have hlater : Later env Honest (Db.init env) (n.db.process env now id).1 := Later.step (.process id now) h.later ⟨hc, hf⟩ hg
  have hprev : Ok env n.db (parent env id) := honest_ok hu h.later h.zero _ hp (valid_prev hg (hB.valid id hid))
  rcases process_spec (now := now) hu hs.i hs.m hg with ⟨s', t, h1, h2⟩ | ⟨s', e, h1, h2, h3, h4⟩
  · have hkn : ∀ x, Known env s' x → x = env.tree.genesisId ∨ x ∈ B := by
      intro x hx
      rcases (h2.known x).1 hx with hx | hx
      · exact h.known x hx
      · exact .inr (hx ▸ hid)
    refine ⟨⟨hlater, ?_, ?_, h.rep, h.room, h.pool⟩, blamed_ok (t := t) (by rw [h1]), ?_, ?_, ?_⟩
    · rw [h1]
      show s'.minHeight = 0
      rw [h2.minHeight, h.zero]
      have hb : height env s' s'.best ≤ env.maxDepth := by
        rcases hkn _ h2.minv.known with hb | hb
        · rw [hb, height_genesis]; exact Nat.zero_le _
        · obtain ⟨k, hk, hd⟩ := hB.depth _ hb
          rw [height_depth h2.iinv.tree hd h2.minv.known]; exact hk
      omega
    · rw [h1]; exact hkn
    · rw [h1]; exact (h2.ok id).2 (.inr rfl)
    · rw [h1]; exact fun x hx => (h2.ok x).2 (.inl hx)
    · rw [h1]; exact fun e he => by cases he
  · have hsame : ∃ e', n.db.index.get id = some e' ∧ s' = n.db ∧ Ok env n.db id := by
      have hk : Known env n.db id → ∃ e', n.db.index.get id = some e' ∧ s' = n.db ∧ Ok env n.db id := by
        intro hk
        obtain ⟨e', he'⟩ := (known_cases hk).resolve_left hg
        refine ⟨e', he', ?_, honest_ok hu h.later h.zero _ hk (hB.valid id hid)⟩
        unfold Db.process at h1
        rw [he'] at h1
        cases h1; rfl
      cases h3 with
      | again a _ => exact hk a
      | bad a _ => exact hk a
      | orphan a => exact absurd hp a
      | parent a b => exact absurd hprev b
      | deep a => rw [h.zero] at a; exact absurd (shares_zero hs.i.tree hp hs.m.known) a
      | check a => rw [hc] at a; cases a
      | fault a => rw [hf] at a; cases a
      | invalid a => exact absurd (hB.valid id hid) a
    obtain ⟨e', he', hss, hok⟩ := hsame
    rw [h1] at hlater ⊢
    rw [hss] at hlater ⊢
    exact ⟨⟨h.later, h.zero, h.known, h.rep, h.room, h.pool⟩, blamed_known he', hok, fun x hx => hx, fun _ _ => rfl⟩

/-- an attempt in such a history -/
theorem attempt_good (hu : Undoes env) {B : List Nat} (hB : Good env B) {n n' : Node L} (h : HInv env B n) {id : Nat} (hid : id ∈ B) {now : Now} {pick : Nat}
    (hc : now.check id = none) (hf : ∀ y, now.fault y = false) {res} (ha : n.attempt env now pick id = .ok (n', res)) :
    HInv env B n' ∧ (∀ x, Ok env n.db x → Ok env n'.db x) ∧
    (Known env n.db (parent env id) → n'.pool = n.pool ∧ Ok env n'.db id ∧ ∀ e, res = .error e → n'.db = n.db) ∧
    (¬ Known env n.db (parent env id) → n'.db = n.db ∧ (∀ x, x ∈ n'.pool.ids ↔ x ∈ n.pool.ids ∨ x = id) ∧ ∃ e, res = .error e) := by
  unfold Node.attempt at ha
  cases hg : n.db.gen env (parent env id) with
  | none =>
    have hnk : ¬ Known env n.db (parent env id) := by
      intro hk
      obtain ⟨g, hg'⟩ := known_gen.1 hk
      rw [hg] at hg'; cases hg'
    have hprune : n.pool.prune (parent env) pick = .ok n.pool := by
      unfold Pool.prune Pool.len
      rw [if_pos h.len]
    rw [hg] at ha
    unfold Pool.add at ha
    rw [hprune] at ha
    simp only [bind, Except.bind] at ha
    by_cases hx : n.pool.has id = true
    · rw [if_pos hx] at ha
      cases ha
      refine ⟨h, fun x hx => hx, fun hk => absurd hk hnk, fun _ => ⟨rfl, fun x => ⟨.inl, fun hx' => ?_⟩, _, rfl⟩⟩
      rcases hx' with hx' | hx'
      · exact hx'
      · rw [hx']; exact (has_iff h.rep).1 hx
    · rw [if_neg hx] at ha
      cases ha
      have hn : id ∉ n.pool.ids := fun hm => hx ((has_iff h.rep).2 hm)
      have hmem : ∀ x, x ∈ (n.pool.push (parent env) id).ids ↔ x ∈ n.pool.ids ∨ x = id := by
        intro x
        show x ∈ n.pool.ids ++ [id] ↔ _
        rw [List.mem_append, List.mem_singleton]
      refine ⟨⟨h.later, h.zero, h.known, push_spec h.rep hn, h.room, ?_⟩, fun x hx => hx, fun hk => absurd hk hnk, fun _ => ⟨rfl, hmem, _, rfl⟩⟩
      intro x hx
      rcases (hmem x).1 hx with hx | hx
      · exact h.pool x hx
      · rw [hx]; exact hid
  | some g =>
    have hk : Known env n.db (parent env id) := known_gen.2 ⟨g, hg⟩
    obtain ⟨g1, g2, g3, g4, g5⟩ := process_good hu hB h hid hk hc hf
    rw [hg] at ha
    simp only [g2] at ha
    cases ha
    exact ⟨g1, g4, fun _ => ⟨rfl, g3, fun e he => g5 e he⟩, fun hnk => absurd hk hnk⟩

theorem attempts_good (hu : Undoes env) {B : List Nat} (hB : Good env B) {now : Nat → Now} {pick : Nat → Nat} (hcalm : ∀ x, (now x).check x = none ∧ ∀ y, (now x).fault y = false) :
    ∀ (l : List Nat) {st st' : Node L × Option Entry}, HInv env B st.1 → (∀ x ∈ l, x ∈ B ∧ Ok env st.1.db (parent env x)) →
    l.foldlM (Node.attemptOrphan env now pick) st = .ok st' →
    HInv env B st'.1 ∧ (∀ x, Ok env st.1.db x → Ok env st'.1.db x) ∧ st'.1.pool = st.1.pool ∧ ∀ x ∈ l, Ok env st'.1.db x
  | [], st, st', h, _, e => by
    cases e
    exact ⟨h, fun x hx => hx, rfl, fun x hx => by cases hx⟩
  | x :: l, st, st', h, hl, e => by
    rw [List.foldlM_cons, bind_eq_ok] at e
    obtain ⟨st1, e1, e2⟩ := e
    unfold Node.attemptOrphan at e1
    rw [bind_eq_ok] at e1
    obtain ⟨⟨n1, res⟩, e3, e4⟩ := e1
    cases e4
    obtain ⟨hx1, hx2⟩ := hl x (List.mem_cons_self ..)
    obtain ⟨h1, h2, h3, -⟩ := attempt_good hu hB h hx1 (hcalm x).1 (hcalm x).2 e3
    obtain ⟨h5, h6, -⟩ := h3 (genOk_known hx2)
    obtain ⟨k1, k2, k3, k4⟩ := attempts_good hu hB hcalm l h1 (fun y hy => ⟨(hl y (List.mem_cons_of_mem _ hy)).1, h2 _ (hl y (List.mem_cons_of_mem _ hy)).2⟩) e2
    refine ⟨k1, fun y hy => k2 y (h2 y hy), k3.trans h5, ?_⟩
    intro y hy
    rcases List.mem_cons.1 hy with hy | hy
    · rw [hy]; exact k2 x h6
    · exact k4 y hy

theorem loop_good (hu : Undoes env) {B : List Nat} (hB : Good env B) {now : Nat → Now} {pick : Nat → Nat} (hcalm : ∀ x, (now x).check x = none ∧ ∀ y, (now x).fault y = false) :
    ∀ (k : Nat) (queue : List Nat) {st st' : Node L × Option Entry}, HInv env B st.1 → (∀ q ∈ queue, Ok env st.1.db q) → Node.orphanLoop env now pick k queue st = .ok st' →
    HInv env B st'.1 ∧ (∀ x, Ok env st.1.db x → Ok env st'.1.db x) ∧ ∀ x ∈ st.1.pool.ids, Ok env st'.1.db x ∨ x ∈ st'.1.pool.ids
  | k, [], st, st', h, _, e => by
    cases k <;> (cases e; exact ⟨h, fun x hx => hx, fun x hx => .inr hx⟩)
  | 0, q :: queue, st, st', _, _, e => by cases e
  | k + 1, q :: queue, st, st', h, hq, e => by
    rw [Node.orphanLoop, bind_eq_ok] at e
    obtain ⟨⟨p1, l⟩, e1, e⟩ := e
    rw [bind_eq_ok] at e
    obtain ⟨st2, e2, e3⟩ := e
    obtain ⟨p1', e1', r1, i1, m1⟩ := take_spec h.rep q
    rw [e1'] at e1
    cases e1
    have h1 : HInv env B (⟨st.1.db, p1⟩ : Node L) := ⟨h.later, h.zero, h.known, r1, by show _ < p1.max; rw [m1]; exact h.room, fun x hx => by
      have hx' : x ∈ p1.ids := hx
      rw [i1] at hx'; exact h.pool x (List.mem_filter.1 hx').1⟩
    obtain ⟨k1, k2, k3, k4⟩ := attempts_good hu hB hcalm _ (st := ((⟨st.1.db, p1⟩ : Node L), st.2)) h1
      (fun x hx => ⟨h.pool x (mem_kids.1 hx).1, by rw [(mem_kids.1 hx).2]; exact hq q (List.mem_cons_self ..)⟩) e2
    obtain ⟨j1, j2, j3⟩ := loop_good hu hB hcalm k _ k1 (by
      intro x hx
      rcases List.mem_append.1 hx with hx | hx
      · exact k2 x (hq x (List.mem_cons_of_mem _ hx))
      · exact k4 x hx) e3
    refine ⟨j1, fun x hx => j2 x (k2 x hx), ?_⟩
    intro x hx
    by_cases hp : parent env x = q
    · exact .inl (j2 x (k4 x (mem_kids.2 ⟨hx, hp⟩)))
    · apply j3 x
      rw [k3]
      show x ∈ p1.ids
      rw [i1]
      exact List.mem_filter.2 ⟨hx, decide_eq_true hp⟩

theorem submit_good (hu : Undoes env) {B : List Nat} (hB : Good env B) {n n' : Node L} (h : HInv env B n) {id : Nat} (hid : id ∈ B) {now : Nat → Now} {pick : Nat → Nat}
    (hcalm : ∀ x, (now x).check x = none ∧ ∀ y, (now x).fault y = false) {res} (hs : n.submit env now pick id = .ok (n', res)) :
    HInv env B n' ∧ (∀ x, Ok env n.db x → Ok env n'.db x) ∧ (∀ x ∈ n.pool.ids, Ok env n'.db x ∨ x ∈ n'.pool.ids) ∧ (Ok env n'.db id ∨ id ∈ n'.pool.ids) := by
  unfold Node.submit at hs
  rw [bind_eq_ok] at hs
  obtain ⟨⟨n1, r1⟩, e1, e2⟩ := hs
  obtain ⟨h1, h2, h3, h4⟩ := attempt_good hu hB h hid (hcalm id).1 (hcalm id).2 e1
  by_cases hk : Known env n.db (parent env id)
  · obtain ⟨h5, h6, h7⟩ := h3 hk
    cases r1 with
    | error e =>
      cases e2
      refine ⟨h1, h2, fun x hx => .inr ?_, .inl h6⟩
      rw [h5]; exact hx
    | ok t =>
      simp only at e2
      rw [Node.afterAttempt, bind_eq_ok] at e2
      obtain ⟨o, e3, e4⟩ := e2
      cases e4
      obtain ⟨k1, k2, k3⟩ := loop_good hu hB hcalm _ _ (st := (n1, t)) h1 (fun q hq => by rw [List.mem_singleton.1 hq]; exact h6) e3
      refine ⟨k1, fun x hx => k2 x (h2 x hx), ?_, .inl (k2 id h6)⟩
      intro x hx
      refine k3 x ?_
      show x ∈ n1.pool.ids
      rw [h5]; exact hx
  · obtain ⟨h5, h6, e, he⟩ := h4 hk
    subst he
    cases e2
    exact ⟨h1, h2, fun x hx => .inr ((h6 x).2 (.inl hx)), .inr ((h6 id).2 (.inr rfl))⟩

theorem submitAll_good (hu : Undoes env) {B : List Nat} (hB : Good env B) : ∀ (cs : List Call) {n n' : Node L}, HInv env B n → (∀ c ∈ cs, c.id ∈ B) → Calm cs →
    Node.submitAll env cs n = .ok n' →
    HInv env B n' ∧ (∀ x, Ok env n.db x → Ok env n'.db x) ∧ (∀ x ∈ n.pool.ids, Ok env n'.db x ∨ x ∈ n'.pool.ids) ∧ ∀ c ∈ cs, Ok env n'.db c.id ∨ c.id ∈ n'.pool.ids
  | [], n, n', h, _, _, e => by
    cases e
    exact ⟨h, fun x hx => hx, fun x hx => .inr hx, fun c hc => by cases hc⟩
  | c :: cs, n, n', h, hc, hcalm, e => by
    rw [Node.submitAll, bind_eq_ok] at e
    obtain ⟨⟨n1, res⟩, e1, e2⟩ := e
    obtain ⟨h1, h2, h3, h4⟩ := submit_good hu hB h (hc c (List.mem_cons_self ..)) (hcalm c (List.mem_cons_self ..)) e1
    obtain ⟨k1, k2, k3, k4⟩ := submitAll_good hu hB cs h1 (fun d hd => hc d (List.mem_cons_of_mem _ hd)) (fun d hd => hcalm d (List.mem_cons_of_mem _ hd)) e2
    have hboth : ∀ x, Ok env n1.db x ∨ x ∈ n1.pool.ids → Ok env n'.db x ∨ x ∈ n'.pool.ids := by
      rintro x (hx | hx)
      · exact .inl (k2 x hx)
      · exact k3 x hx
    refine ⟨k1, fun x hx => k2 x (h2 x hx), fun x hx => hboth x (h3 x hx), ?_⟩
    intro d hd
    rcases List.mem_cons.1 hd with hd | hd
    · rw [hd]; exact hboth _ h4
    · exact k4 d hd

theorem hinv_new {B : List Nat} {max : Nat} (hm : B.length < max) : HInv env B (Node.new env max) :=
  ⟨.refl, rfl, fun x hx => by
    rcases known_cases hx with hx | ⟨e, he⟩
    · exact .inl hx
    · simp [Node.new, Db.init] at he, rep_new max, hm, fun x hx => by cases hx⟩

theorem depth_unique {x a b : Nat} (ha : Depth env x a) (hb : Depth env x b) : a = b := by
  induction ha generalizing b with
  | genesis =>
    cases hb with
    | genesis => rfl
    | block h _ => exact absurd rfl h
  | block hg _ ih =>
    cases hb with
    | genesis => exact absurd rfl hg
    | block _ h => rw [ih h]

/-- depth as a rank -/
theorem good_rank {B : List Nat} (hB : Good env B) : ∃ r : Nat → Nat, ∀ x ∈ B, r (parent env x) < r x := by
  classical
  refine ⟨fun x => if h : ∃ k, Depth env x k then h.choose else 0, ?_⟩
  intro x hx
  obtain ⟨k, -, hk⟩ := hB.depth x hx
  have hx' : ∃ k, Depth env x k := ⟨k, hk⟩
  cases hk with
  | genesis => exact absurd rfl (hB.closed _ hx).1
  | block hg hp =>
    rename_i m
    have hp' : ∃ k, Depth env (parent env x) k := ⟨m, hp⟩
    simp only [dif_pos hx', dif_pos hp']
    rw [depth_unique hp'.choose_spec hp, depth_unique hx'.choose_spec (.block hg hp)]
    omega

/-- all blocks arrive, whatever the order -/
theorem any_order (hu : Undoes env) {B : List Nat} (hB : Good env B) {calls : List Call} {max : Nat} (hd : Delivers calls B) (hcalm : Calm calls) (hm : B.length < max) :
    ∃ n, Node.submitAll env calls (Node.new env max) = .ok n ∧ (∀ x ∈ B, Ok env n.db x) ∧ n.pool.ids = [] ∧ HInv env B n := by
  obtain ⟨r, hr⟩ := good_rank hB
  have hin : ∀ c ∈ calls, c.id ∈ B := fun c hc => (hd _).2 ⟨c, hc, rfl⟩
  obtain ⟨n, e, i, -, w⟩ := submitAll_spec hu (r := r) calls (ninv_new (env := env) (max := max) (by omega)) (fun x hx => by cases hx)
    (fun c hc => ⟨(hB.closed _ (hin c hc)).1, hr _ (hin c hc)⟩)
  obtain ⟨h1, -, -, h4⟩ := submitAll_good hu hB calls (hinv_new hm) hin hcalm e
  have hok : ∀ k x, r x = k → x ∈ B → Ok env n.db x := by
    intro k
    induction k using Nat.strong_induction_on with
    | _ k ih =>
      intro x hk hx
      have hp : Ok env n.db (parent env x) := by
        rcases (hB.closed x hx).2 with hp | hp
        · rw [hp]; exact genOk_genesis _
        · exact ih (r (parent env x)) (by have := hr x hx; omega) _ rfl hp
      obtain ⟨c, hc, hcx⟩ := (hd x).1 hx
      rcases h4 c hc with h | h
      · rw [hcx] at h; exact h
      · rw [hcx] at h
        have := w x h hp
        cases this
  refine ⟨n, e, fun x hx => hok _ x rfl hx, ?_, h1⟩
  rw [List.eq_nil_iff_forall_not_mem]
  intro x hx
  have hxB := h1.pool x hx
  have hp : Ok env n.db (parent env x) := by
    rcases (hB.closed x hxB).2 with hp | hp
    · rw [hp]; exact genOk_genesis _
    · exact hok _ _ rfl hp
  have := w x hx hp
  cases this

end Verif.Orphans
