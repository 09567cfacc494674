import Verif.Bootstrap.Write
import Verif.Orphans.Order

/-!
# The lists of exported blocks, and importing them
-/

namespace Verif.Bootstrap
open Verif Codec BlockTree Chainstate Chainstate.Spec Orphans Bootstrap.Spec
variable {L B : Type} {env : Env L}

theorem chainTo_anc {s : Db L} (ht : TInv env s) {x : Nat} (hk : Known env s x) : ∃ l, ChainTo env x l ∧ l.length = height env s x ∧
    (∀ y, y ∈ l ↔ y ≠ env.tree.genesisId ∧ Anc env s x y) ∧ (∀ k (h : k < l.length), Anc env s x l[k] ∧ height env s l[k] = k + 1) := by
  refine ht.induct (P := fun x => ∃ l, ChainTo env x l ∧ l.length = height env s x ∧
    (∀ y, y ∈ l ↔ y ≠ env.tree.genesisId ∧ Anc env s x y) ∧ (∀ k (h : k < l.length), Anc env s x l[k] ∧ height env s l[k] = k + 1)) ?_ ?_ x hk
  · refine ⟨[], .genesis, (height_genesis s).symm, fun y => ⟨fun h => by (cases h), fun h => absurd (anc_of_genesis h.2) h.1⟩, fun k h => by cases h⟩
  · rintro id e he ⟨l, h1, h2, h3, h4⟩
    have hg := ht.ne_genesis he
    have hp := ht.parent he
    refine ⟨l ++ [id], .block hg (by rw [← ht.prev_eq he]; exact h1), by rw [List.length_append, h2, hp.2.1]; rfl, ?_, ?_⟩
    · intro y
      rw [List.mem_append, List.mem_singleton, h3, ht.anc_iff he]
      constructor
      · rintro (⟨a, b⟩ | rfl)
        · exact ⟨a, .inr b⟩
        · exact ⟨hg, .inl rfl⟩
      · rintro ⟨a, rfl | b⟩
        · exact .inr rfl
        · exact .inl ⟨a, b⟩
    · intro k hk'
      rw [List.length_append, List.length_singleton] at hk'
      by_cases hlt : k < l.length
      · rw [List.getElem_append_left hlt]
        exact ⟨(ht.anc_iff he).2 (.inr (h4 k hlt).1), (h4 k hlt).2⟩
      · have hkl : k = l.length := by omega
        subst hkl
        rw [List.getElem_append_right (Nat.le_refl _)]
        simp only [Nat.sub_self, List.getElem_singleton]
        exact ⟨anc_refl (known_of_get he), by rw [hp.2.1, h2]⟩

theorem mapM_ok {ε α β : Type} {f : α → Except ε β} : ∀ {l : List α} {r : List β} (hl : r.length = l.length),
    (∀ k (h : k < l.length), f l[k] = .ok (r[k]'(hl ▸ h))) → l.mapM f = .ok r
  | [], [], _, _ => rfl
  | [], _ :: _, hl, _ => by cases hl
  | _ :: _, [], hl, _ => by cases hl
  | a :: l, b :: r, hl, h => by
    have h0 := h 0 (Nat.zero_lt_succ _)
    simp only [List.getElem_cons_zero] at h0
    have ih := mapM_ok (f := f) (l := l) (r := r) (by simpa using hl) (fun k hk => by
      have := h (k + 1) (Nat.succ_lt_succ hk)
      simpa using this)
    rw [List.mapM_cons, h0, ih]
    rfl

/-- the list of the main chain -/
theorem mainList_spec {s : Db L} (hs : SInv env s) : ∃ l, mainList env s = .ok l ∧ ChainTo env s.best l ∧
    (∀ y, y ∈ l ↔ y ≠ env.tree.genesisId ∧ Main env s y) := by
  obtain ⟨l, h1, h2, h3, h4⟩ := chainTo_anc hs.i.tree hs.m.known
  refine ⟨l, ?_, h1, h3⟩
  obtain ⟨b, hb⟩ := known_gen.1 hs.m.known
  unfold mainList Db.bestIndex
  rw [hb]
  simp only [okOr]
  rw [gen_height hb]
  apply mapM_ok (by rw [List.length_range]; exact h2)
  intro k hk
  rw [List.length_range] at hk
  rw [List.getElem_range]
  obtain ⟨a1, a2⟩ := h4 k (by omega)
  have hg : s.byHeight.get (k + 1) = some (l[k]'(by omega)) := (hs.m.heights _ _).2 ⟨a1, a2⟩
  unfold idAt
  rw [hg]
  simp only
  rw [if_neg ((h3 _).1 (List.getElem_mem (by omega))).1]

theorem main_stored {s : Db L} (hs : SInv env s) {y : Nat} (hg : y ≠ env.tree.genesisId) (hm : Main env s y) : (s.blocks.get y).isSome = true := by
  obtain ⟨e, he⟩ := (known_cases hm.known_right).resolve_left hg
  exact (hs.i.pers y e he).1 (hs.i.okp y e he (hs.m.full y e hm he).1)

theorem stored_map {c : Codec B} {block : Nat → B} {s : Db L} {l : List Nat} (h : ∀ x ∈ l, (s.blocks.get x).isSome = true) :
    l.map (stored c block s) = (l.map (fun x => c.enc (block x))).map some := by
  rw [List.map_map]
  apply List.map_congr_left
  intro x hx
  obtain ⟨u, hu⟩ := Option.isSome_iff_exists.1 (h x hx)
  simp [stored, hu]

/-! ### the list of all blocks -/

theorem treeList_mem {s : Db L} (ht : TInv env s) {x : Nat} : x ∈ treeList s ↔ x ≠ env.tree.genesisId ∧ Known env s x := by
  unfold treeList
  rw [List.mem_map]
  constructor
  · rintro ⟨e, he, rfl⟩
    have := ((mem_higher ht).1 he).1
    exact ⟨ht.ne_genesis this, known_of_get this⟩
  · rintro ⟨hg, hk⟩
    obtain ⟨e, he⟩ := (known_cases hk).resolve_left hg
    exact ⟨e, (mem_higher ht).2 ⟨by rw [ht.id_eq' he]; exact he, Nat.zero_le _⟩, ht.id_eq' he⟩

theorem treeList_nodup {s : Db L} (ht : TInv env s) : (treeList s).Nodup := by
  unfold treeList Db.higher
  have hp := List.perm_insertionSort (fun a b : Entry => a.idx.height ≤ b.idx.height)
    ((s.index.entries.map Prod.snd).filter (fun e => decide (0 ≤ e.idx.height)))
  refine ((hp.map (fun e => e.idx.id)).nodup_iff).2 ?_
  have : (s.index.entries.map Prod.snd).filter (fun e => decide (0 ≤ e.idx.height)) = s.index.entries.map Prod.snd := by
    rw [List.filter_eq_self]; intros; simp
  rw [this, List.map_map]
  have hk : s.index.entries.map ((fun e => e.idx.id) ∘ Prod.snd) = s.index.entries.map Prod.fst := by
    apply List.map_congr_left
    rintro ⟨k, e⟩ hm
    exact ht.id_eq' (BMap.mem_entries.1 hm)
  rw [hk]
  have hsort := s.index.sorted
  rw [List.nodup_iff_pairwise_ne, List.pairwise_map]
  exact hsort.imp (fun h => Nat.ne_of_lt h)

theorem treeList_sorted {s : Db L} (ht : TInv env s) : (treeList s).Pairwise (fun a b => height env s a ≤ height env s b) := by
  unfold treeList
  rw [List.pairwise_map]
  refine (higher_sorted s 0).imp_of_mem ?_
  intro a b ha hb h
  have ha' := ((mem_higher ht).1 ha).1
  have hb' := ((mem_higher ht).1 hb).1
  rw [ht.height_eq ha', ht.height_eq hb']
  exact h

theorem treeList_parents {s : Db L} (ht : TInv env s) : ParentsFirst env (treeList s) := by
  have key : ∀ k (h : k < (treeList s).length), (env.tree.body (treeList s)[k]).prev = env.tree.genesisId ∨
      (env.tree.body (treeList s)[k]).prev ∈ (treeList s).take k := by
    intro k hk
    have hm : (treeList s)[k] ∈ treeList s := List.getElem_mem hk
    obtain ⟨hg, hkn⟩ := (treeList_mem ht).1 hm
    obtain ⟨e, he⟩ := (known_cases hkn).resolve_left hg
    have hp := ht.parent he
    rw [ht.prev_eq he] at hp
    by_cases hpg : (env.tree.body (treeList s)[k]).prev = env.tree.genesisId
    · exact .inl hpg
    · right
      have hpm := (treeList_mem ht).2 ⟨hpg, hp.1⟩
      obtain ⟨j, hj, hje⟩ := List.getElem_of_mem hpm
      have hjk : j < k := by
        rcases Nat.lt_trichotomy j k with h | h | h
        · exact h
        · subst h
          rw [← hje] at hp
          omega
        · have := List.pairwise_iff_getElem.1 (treeList_sorted ht) k j hk hj h
          rw [hje] at this
          omega
      rw [← hje]
      exact List.mem_take_iff_getElem.2 ⟨j, by omega, rfl⟩
  unfold ParentsFirst
  cases h : treeList s with
  | nil => trivial
  | cons a l =>
    simp only
    rw [h] at key
    exact key

/-! ### importing -/

theorem submit_accepted {n : Node L} (hrep : Rep (parent env) n.pool) (hpool : n.pool.ids = []) {id : Nat} {now : Nat → Now} {pick : Nat → Nat} {s' : Db L} {r}
    (hp : Known env n.db (parent env id)) (h : n.db.process env (now id) id = (s', .ok r)) :
    n.submit env now pick id = .ok (⟨s', n.pool⟩, .ok r) := by
  obtain ⟨g, hg⟩ := known_gen.1 hp
  have hb : blamed env (now id) n.db id = none := blamed_ok (t := r) (by rw [h])
  have ha : n.attempt env (now id) (pick id) id = .ok (⟨s', n.pool⟩, .ok r) := by
    unfold Node.attempt
    rw [hg]
    simp only [hb, Pool.forget, h]
    rfl
  have ht : n.pool.take (parent env) id = .ok (n.pool, []) := by
    unfold Pool.take
    rw [hrep.byPrev id, hpool]
    rfl
  unfold Node.submit
  rw [ha]
  simp only [bind, Except.bind]
  rw [Node.afterAttempt, Node.orphanLoop]
  simp only [bind, Except.bind]
  rw [ht]
  simp only [List.foldlM_nil, List.append_nil, pure, Except.pure]
  cases n.pool.len <;> rfl

/-- the node after the import of the first blocks of a chain -/
structure Upto (env : Env L) (n : Node L) (done : List Nat) : Prop where
  reach : Reach env n.db
  rep : Rep (parent env) n.pool
  pool : n.pool.ids = []
  chain : ChainTo env n.db.best done
  known : ∀ x, Known env n.db x ↔ x = env.tree.genesisId ∨ x ∈ done
  blocks : ∀ x, (n.db.blocks.get x).isSome = true ↔ x ∈ done

theorem upto_new (max : Nat) : Upto env (Node.new env max) [] := by
  refine ⟨.refl, rep_new max, rfl, .genesis, fun x => ⟨fun h => .inl ?_, fun h => ?_⟩, fun x => by simp [Node.new, Db.init]⟩
  · rcases known_cases h with h | ⟨e, he⟩
    · exact h
    · simp [Node.new, Db.init] at he
  · rcases h with h | h
    · rw [h]; exact known_genesis _
    · cases h

theorem upto_step (hu : Undoes env) {n : Node L} {done : List Nat} (h : Upto env n done) {id : Nat} (hg : id ≠ env.tree.genesisId)
    (hp : (env.tree.body id).prev = n.db.best) (hnew : id ∉ done) (hv : Valid env id) (hpr : 0 < (env.tree.body id).proof) {now : Nat → Now} {pick : Nat → Nat}
    (hc : (now id).check id = none) (hf : ∀ y, (now id).fault y = false) :
    ∃ n' r, n.submit env now pick id = .ok (n', .ok r) ∧ Upto env n' (done ++ [id]) := by
  have hs := reach_sinv hu h.reach
  have hprev : Known env n.db (parent env id) := by unfold parent; rw [hp]; exact hs.m.known
  have hnk : ¬ Known env n.db id := fun hk => ((h.known id).1 hk).elim hg hnew
  rcases process_spec (now := now id) hu hs.i hs.m hg with ⟨s', r, h1, h2⟩ | ⟨s', e, h1, h2, h3, h4⟩
  · have hr : Reach env s' := by
      have := Later.step (.process id (now id)) h.reach trivial hg
      simp only [step, h1] at this
      exact this
    obtain ⟨e', he'⟩ := (known_cases ((h2.known id).2 (.inr rfl))).resolve_left hg
    have htr : trust env n.db n.db.best < trust env s' id := by
      obtain ⟨p, hp1, -, hp2, -⟩ := (h2.iinv.tree.good he').parent
      have hp1' : s'.gen env e'.idx.prev = some p := hp1
      rw [h2.iinv.tree.trust_eq he', hp2, gen_trust hp1', h2.iinv.tree.prev_eq he', hp, h2.grows.trust hs.m.known]
      omega
    rcases h2.tip with ⟨e, -, -, hb, -⟩ | ⟨-, -, -, -, hle⟩
    · refine ⟨_, r, submit_accepted h.rep h.pool hprev h1, hr, h.rep, h.pool, ?_, ?_, ?_⟩
      · show ChainTo env s'.best (done ++ [id])
        rw [hb]
        exact .block hg (by rw [hp]; exact h.chain)
      · intro x
        show Known env s' x ↔ _
        rw [h2.known, h.known, List.mem_append, List.mem_singleton, or_assoc]
      · intro x
        show (s'.blocks.get x).isSome = true ↔ _
        rw [h2.blocks, BMap.get_insert, List.mem_append, List.mem_singleton]
        split
        · rename_i hx; simp [hx]
        · rename_i hx
          rw [h.blocks]
          exact ⟨.inl, fun h => h.resolve_right (fun e => hx (by simp [e]))⟩
    · omega
  · exfalso
    cases h3 with
    | again a _ => exact hnk a
    | bad a _ => exact hnk a
    | orphan a => exact a hprev
    | parent _ b => exact b (by rw [hp]; exact hs.m.main_ok (anc_refl hs.m.known))
    | deep a => rw [hp] at a; exact a hs.shares_self
    | check a => rw [hc] at a; cases a
    | fault a => rw [hf] at a; cases a
    | invalid a => exact a hv

theorem Spec.ChainTo.unique {x : Nat} {l l' : List Nat} (h : ChainTo env x l) (h' : ChainTo env x l') : l = l' := by
  induction h generalizing l' with
  | genesis =>
    cases h' with
    | genesis => rfl
    | block hg _ => exact absurd rfl hg
  | block hg _ ih =>
    cases h' with
    | genesis => exact absurd rfl hg
    | block _ h => rw [ih h]

theorem Spec.ChainTo.length_lt {x : Nat} {l : List Nat} (h : ChainTo env x l) {y : Nat} (hy : y ∈ l) : ∃ l', ChainTo env y l' ∧ l'.length ≤ l.length := by
  induction h with
  | genesis => cases hy
  | block hg h ih =>
    rcases List.mem_append.1 hy with hy | hy
    · obtain ⟨l', a, b⟩ := ih hy
      exact ⟨l', a, by rw [List.length_append]; omega⟩
    · rw [List.mem_singleton] at hy
      subst hy
      exact ⟨_, .block hg h, Nat.le_refl _⟩

/-- the blocks of a chain are different from each other -/
theorem Spec.ChainTo.fresh {x : Nat} {l : List Nat} (hg : x ≠ env.tree.genesisId) (h : ChainTo env (env.tree.body x).prev l) : x ∉ l := by
  intro hm
  obtain ⟨l', a, b⟩ := h.length_lt hm
  have := a.unique (.block hg h)
  rw [this, List.length_append, List.length_singleton] at b
  omega

/-- a chain is cut at any of its blocks -/
theorem Spec.ChainTo.cons_split {x : Nat} {l done rest : List Nat} {a : Nat} (h : ChainTo env x l) (e : l = done ++ a :: rest) :
    a ≠ env.tree.genesisId ∧ ChainTo env (env.tree.body a).prev done ∧ ChainTo env a (done ++ [a]) := by
  induction h generalizing rest with
  | genesis => simp at e
  | block hg h ih =>
    rename_i id l0
    rcases List.eq_nil_or_concat rest with rfl | ⟨r, z, rfl⟩
    · obtain ⟨e1, e2⟩ := List.append_inj' e rfl
      simp only [List.cons.injEq, and_true] at e2
      subst e1 e2
      exact ⟨hg, h, .block hg h⟩
    · have : l0 ++ [id] = (done ++ a :: r) ++ [z] := by rw [e]; simp
      obtain ⟨e1, -⟩ := List.append_inj' this rfl
      exact ih e1

/-- a chain ends at one block only -/
theorem Spec.ChainTo.last {x y : Nat} {l : List Nat} (h : ChainTo env x l) (h' : ChainTo env y l) : x = y := by
  cases h with
  | genesis =>
    generalize hd : ([] : List Nat) = d at h'
    cases h' with
    | genesis => rfl
    | block _ _ => simp at hd
  | @block _ l _ _ =>
    generalize hd : l ++ [x] = d at h'
    cases h' with
    | genesis => simp at hd
    | block _ _ =>
      have := List.append_inj' hd rfl
      simpa using this.2

/-- the first blocks of a chain are a chain -/
theorem Spec.ChainTo.take {x : Nat} {l : List Nat} (h : ChainTo env x l) (k : Nat) : ∃ y, ChainTo env y (l.take k) := by
  induction h with
  | genesis => exact ⟨_, by rw [List.take_nil]; exact .genesis⟩
  | @block id l hg h ih =>
    by_cases hk : k ≤ l.length
    · rw [List.take_append_of_le_length hk]; exact ih
    · rw [List.take_of_length_le (by rw [List.length_append, List.length_singleton]; omega)]
      exact ⟨id, .block hg h⟩

theorem feed_skip {idOf : B → Nat} {ctx : Ctx} {n : Node L} : ∀ (bl rest : List B), (∀ b ∈ bl, ctx.stop (idOf b) = false ∧ (n.db.blocks.get (idOf b)).isSome = true) →
    feed (importBlock env idOf ctx) (bl ++ rest) n = feed (importBlock env idOf ctx) rest n
  | [], _, _ => rfl
  | b :: bl, rest, h => by
    obtain ⟨h1, h2⟩ := h b (List.mem_cons_self ..)
    have hb : importBlock env idOf ctx n b = (n, .ok true) := by
      unfold importBlock
      rw [if_neg (by simp [h1]), if_pos h2]
    rw [List.cons_append, feed, hb]
    exact feed_skip bl rest (fun x hx => h x (List.mem_cons_of_mem _ hx))

theorem feed_chain (hu : Undoes env) {idOf : B → Nat} {block : Nat → B} {ctx : Ctx} {top : Nat} : ∀ (rest : List Nat) {n : Node L} {done : List Nat},
    Upto env n done → ChainTo env top (done ++ rest) → (∀ x ∈ rest, Valid env x ∧ 0 < (env.tree.body x).proof ∧ Clear ctx x ∧ idOf (block x) = x) →
    ∃ n', feed (importBlock env idOf ctx) (rest.map block) n = (n', .ok ()) ∧ Upto env n' (done ++ rest)
  | [], n, done, h, _, _ => ⟨n, rfl, by simpa using h⟩
  | x :: rest, n, done, h, hc, hx => by
    obtain ⟨hv, hpr, hcl, hid⟩ := hx x (List.mem_cons_self ..)
    obtain ⟨hg, h1, h2⟩ := hc.cons_split rfl
    have hbest : (env.tree.body x).prev = n.db.best := h1.last h.chain
    obtain ⟨n', r, e, hu'⟩ := upto_step hu h hg hbest (Spec.ChainTo.fresh hg h1) hv hpr (now := ctx.now x) (pick := ctx.pick x) hcl.check hcl.fault
    have hb : importBlock env idOf ctx n (block x) = (n', .ok true) := by
      unfold importBlock
      have hn : ¬ (n.db.blocks.get x).isSome = true := fun hs => Spec.ChainTo.fresh hg h1 ((h.blocks x).1 hs)
      rw [hid, if_neg (by simp [hcl.stop]), if_neg hn, e]
    obtain ⟨n2, e2, hu2⟩ := feed_chain hu rest (done := done ++ [x]) hu' (by simpa using hc) (fun y hy => hx y (List.mem_cons_of_mem _ hy))
    refine ⟨n2, ?_, by simpa using hu2⟩
    rw [List.map_cons, feed, hb]
    exact e2

theorem goesOn_import {idOf : B → Nat} {ctx : Ctx} : GoesOn (importBlock env idOf ctx) := by
  intro n b h
  unfold importBlock at h
  split at h
  · cases h
  · split at h
    · cases h
    · split at h <;> cases h

/-! ### importing a tree of blocks -/

theorem feed_tree (hu : Undoes env) {all : List Nat} (hB : Good env all) {idOf : B → Nat} {block : Nat → B} {ctx : Ctx} : ∀ (rest : List Nat) {n : Node L},
    HInv env all n → n.pool.ids = [] → (∀ x ∈ rest, x ∈ all ∧ Clear ctx x ∧ idOf (block x) = x ∧ ¬ Known env n.db x) → rest.Nodup →
    (∀ k (h : k < rest.length), Known env n.db (parent env rest[k]) ∨ parent env rest[k] ∈ rest.take k) →
    ∃ n', feed (importBlock env idOf ctx) (rest.map block) n = (n', .ok ()) ∧ HInv env all n' ∧ n'.pool.ids = [] ∧
      ∀ x, Known env n'.db x ↔ Known env n.db x ∨ x ∈ rest
  | [], n, h, hp, _, _, _ => ⟨n, rfl, h, hp, fun x => by simp⟩
  | x :: rest, n, h, hp, hx, hnd, hpar => by
    obtain ⟨hxa, hcl, hid, hnk⟩ := hx x (List.mem_cons_self ..)
    have hs := later_sinv hu sinv_init h.later
    have hprev : Known env n.db (parent env x) := by
      have := hpar 0 (Nat.zero_lt_succ _)
      simpa using this
    have hg := (hB.closed x hxa).1
    obtain ⟨g1, g2, g3, g4, g5⟩ := process_good hu hB h hxa hprev hcl.check hcl.fault
    rcases process_spec (now := ctx.now x x) hu hs.i hs.m hg with ⟨s', r, h1, h2⟩ | ⟨s', e, h1, h2, h3, h4⟩
    · rw [h1] at g1
      have e := submit_accepted (pick := ctx.pick x) h.rep hp hprev h1
      have hb : importBlock env idOf ctx n (block x) = (⟨s', n.pool⟩, .ok true) := by
        unfold importBlock
        have hn : ¬ (n.db.blocks.get x).isSome = true := by
          intro hb
          obtain ⟨e, he⟩ := hs.i.blk x hb
          exact hnk (known_of_get he)
        rw [hid, if_neg (by simp [hcl.stop]), if_neg hn, e]
      rw [List.nodup_cons] at hnd
      obtain ⟨n2, e2, i2, p2, k2⟩ := feed_tree hu hB rest (n := ⟨s', n.pool⟩) g1 hp
        (fun y hy => by
          obtain ⟨a1, a2, a3, a4⟩ := hx y (List.mem_cons_of_mem _ hy)
          refine ⟨a1, a2, a3, fun hk => ?_⟩
          rcases (h2.known y).1 hk with hk | rfl
          · exact a4 hk
          · exact hnd.1 hy) hnd.2
        (fun k hk => by
          have := hpar (k + 1) (Nat.succ_lt_succ hk)
          simp only [List.getElem_cons_succ, List.take_succ_cons, List.mem_cons] at this
          rcases this with h | h | h
          · exact .inl ((h2.known _).2 (.inl h))
          · exact .inl ((h2.known _).2 (.inr h))
          · exact .inr h)
      refine ⟨n2, ?_, i2, p2, ?_⟩
      · rw [List.map_cons, feed, hb]; exact e2
      · intro y
        rw [k2]
        show Known env s' y ∨ _ ↔ _
        rw [h2.known, List.mem_cons, or_assoc]
    · exfalso
      have := g5 e (by rw [h1])
      rw [this] at g3
      exact hnk (genOk_known g3)

end Verif.Bootstrap
