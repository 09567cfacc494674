import Verif.Chainstate.Consistent

/-!
# C36: block processing, reorganization and invalidation

Statements are about every state reached by any sequence of calls (`Reach`), in terms of `Spec`.  `Undoes` – disconnecting the block connected
last restores the chain state – is what C49 proves of the transaction verifier.
-/

set_option maxRecDepth 100000

namespace Verif.Chainstate
open Verif BlockTree Spec
open Verif.BlockStatus (Stage)
variable {L : Type} {env : Env L}

/-- the chain state is the one reached by connecting the blocks from genesis to the tip, whatever blocks were processed, disconnected,
invalidated or reset before -/
theorem C36_chain_state (hu : Undoes env) {s : Db L} (h : Reach env s) : Led env s.best s.ledger := (reach_sinv hu h).m.led

/-- the map of heights lists exactly the ancestors of the tip; all of them are valid -/
theorem C36_main_chain (hu : Undoes env) {s : Db L} (h : Reach env s) :
    (∀ k id, s.byHeight.get k = some id ↔ Main env s id ∧ height env s id = k) ∧ ∀ id, Main env s id → Ok env s id ∧ Valid env id := by
  have hs := reach_sinv hu h
  refine ⟨hs.m.heights, fun id hm => ⟨hs.m.main_ok hm, valid_anc hs.i.tree hm ⟨_, hs.m.led⟩⟩⟩

/-- the node's own consistency check succeeds -/
theorem C36_consistent (hu : Undoes env) {s : Db L} (h : Reach env s) : s.consistent env = true := (reach_sinv hu h).consistent

/-- a block is refused only for one of the listed reasons: known already, parent unknown, parent invalid, fork too deep, a failed check, a storage
fault, or a block of its chain that cannot be connected.  In particular processing never panics. -/
theorem C36_refusal (hu : Undoes env) {s : Db L} (h : Reach env s) {now : Now} {id e} (hid : id ≠ env.tree.genesisId)
    (he : (s.process env now id).2 = .error e) : Reason env now s id e := by
  have hs := reach_sinv hu h
  rcases process_spec (now := now) hu hs.i hs.m hid with ⟨s', r, h1, h2⟩ | ⟨s', e', h1, h2, h3, h4⟩
  · rw [h1] at he; cases he
  · rw [h1] at he; cases he; exact h3

/-- all or nothing: after a failure the tip, the chain state, the main chain, the stored blocks and the lowest height are what they were, and only
blocks that cannot be connected lost their validity.  A failure not classified as a bad block leaves the whole state as it was; after any other
failure the block is known as invalid (or was known before). -/
theorem C36_all_or_nothing (hu : Undoes env) {s : Db L} (h : Reach env s) {now : Now} {id e s'} (hid : id ≠ env.tree.genesisId)
    (he : s.process env now id = (s', .error e)) :
    (s'.best = s.best ∧ s'.ledger = s.ledger ∧ s'.byHeight = s.byHeight ∧ s'.blocks = s.blocks ∧ s'.minHeight = s.minHeight) ∧
    (∀ x, Ok env s' x → Ok env s x) ∧ (∀ x, Ok env s x → Ok env s' x ∨ ¬ Valid env x) ∧
    (s' = s ∨ e.classify = .bad ∧ Known env s' id ∧ ¬ Ok env s' id) := by
  have hs := reach_sinv hu h
  rcases process_spec (now := now) hu hs.i hs.m hid with ⟨s1, r, h1, h2⟩ | ⟨s1, e', h1, h2, h3, h4⟩
  · rw [h1] at he; cases he
  · rw [h1] at he; cases he
    refine ⟨⟨h2.best, h2.ledger, h2.byHeight, h2.blocks, h2.minHeight⟩, h2.okSub, h2.blamed, ?_⟩
    rcases h4 with h | ⟨a, b, c⟩
    · exact .inl h
    · exact .inr ⟨a, b, by unfold Ok; rw [c]; simp⟩

/-- an accepted block was new, had a valid parent within reach of the main chain and passed its checks; it is stored and valid afterwards.  The
result tells whether it is the new tip: that is the case exactly if its chain has more trust than the old tip. -/
theorem C36_accepted (hu : Undoes env) {s : Db L} (h : Reach env s) {now : Now} {id r s'} (hid : id ≠ env.tree.genesisId)
    (hr : s.process env now id = (s', .ok r)) :
    (¬ Known env s id ∧ Known env s (env.tree.body id).prev ∧ Ok env s (env.tree.body id).prev ∧
      Shares env s s.minHeight (env.tree.body id).prev s.best ∧ now.check id = none) ∧
    (∀ x, Ok env s' x ↔ Ok env s x ∨ x = id) ∧ s'.blocks = s.blocks.insert id () ∧
    (s'.minHeight = max s.minHeight (height env s' s'.best - env.maxDepth)) ∧
    ((∃ e, r = some e ∧ s'.index.get id = some e ∧ s'.best = id ∧ trust env s s.best < trust env s' id) ∨
     (r = none ∧ s'.best = s.best ∧ s'.byHeight = s.byHeight ∧ s'.ledger = s.ledger ∧ trust env s' id ≤ trust env s s.best)) := by
  have hs := reach_sinv hu h
  rcases process_spec (now := now) hu hs.i hs.m hid with ⟨s1, r, h1, h2⟩ | ⟨s1, e', h1, h2, h3, h4⟩
  · rw [h1] at hr; cases hr
    refine ⟨⟨?_, h2.prevKnown, h2.prevOk, h2.prevShares, h2.check⟩, h2.ok, h2.blocks, h2.minHeight, h2.tip⟩
    intro hk
    rcases known_cases hk with hg | ⟨e, he⟩
    · exact hid hg
    · rw [h2.fresh] at he; cases he
  · rw [h1] at hr; cases hr

/-- with the orphans that waited for a block: the result is the new tip, or nothing if the tip is the same -/
theorem C36_orphans (hu : Undoes env) : ∀ (l : List (Nat × Now)) {s s' : Db L} {r r'}, Reach env s → (∀ p ∈ l, p.1 ≠ env.tree.genesisId) →
    (∀ e, r = some e → s.best = e.idx.id) → Db.processOrphans env l s r = (s', r') →
    Reach env s' ∧ (∀ e, r' = some e → s'.best = e.idx.id) ∧ (r' = none → s'.best = s.best ∧ s'.ledger = s.ledger)
  | [], s, s', r, r', hr, _, hb, h => by
    simp only [Db.processOrphans, Prod.mk.injEq] at h
    obtain ⟨rfl, rfl⟩ := h
    exact ⟨hr, hb, fun _ => ⟨rfl, rfl⟩⟩
  | (id, now) :: l, s, s', r, r', hr, hg, hb, h => by
    have hid := hg (id, now) (List.mem_cons_self ..)
    have hg' : ∀ p ∈ l, p.1 ≠ env.tree.genesisId := fun p hp => hg p (List.mem_cons_of_mem _ hp)
    have hs := reach_sinv hu hr
    have hr1 : Reach env (s.process env now id).1 := Later.step (.process id now) hr trivial hid
    rw [Db.processOrphans] at h
    rcases process_spec (now := now) hu hs.i hs.m hid with ⟨s1, r1, h1, h2⟩ | ⟨s1, e1, h1, h2, -⟩
    · rw [h1] at h hr1
      cases r1 with
      | none =>
        rcases h2.tip with ⟨e, h3, -⟩ | ⟨-, h3, -, h4, -⟩
        · cases h3
        · obtain ⟨a1, a2, a3⟩ := C36_orphans hu l hr1 hg' (fun e he => by rw [h3]; exact hb e he) h
          exact ⟨a1, a2, fun hn => ⟨(a3 hn).1.trans h3, (a3 hn).2.trans h4⟩⟩
      | some e =>
        rcases h2.tip with ⟨e', h3, h4, h5, -⟩ | ⟨h3, -⟩
        · cases h3
          have hbe : s1.best = e.idx.id := by rw [h5, h2.iinv.tree.id_eq' h4]
          obtain ⟨a1, a2, a3⟩ := C36_orphans hu l hr1 hg' (fun e'' he => by cases he; exact hbe) h
          refine ⟨a1, a2, fun hn => ?_⟩
          exfalso
          exact orphans_some l h hn
        · cases h3
    · rw [h1] at h hr1
      obtain ⟨a1, a2, a3⟩ := C36_orphans hu l hr1 hg' (fun e he => by rw [h2.best]; exact hb e he) h
      exact ⟨a1, a2, fun hn => ⟨(a3 hn).1.trans h2.best, (a3 hn).2.trans h2.ledger⟩⟩
where
  orphans_some : ∀ (l : List (Nat × Now)) {s s' : Db L} {e r'}, Db.processOrphans env l s (some e) = (s', r') → r' = none → False
    | [], _, _, _, _, h, hn => by
      simp only [Db.processOrphans, Prod.mk.injEq] at h
      rw [← h.2] at hn; cases hn
    | (id, now) :: l, s, s', e, r', h, hn => by
      rw [Db.processOrphans] at h
      split at h
      · exact orphans_some l h hn
      · exact orphans_some l h hn

/-- the tip has the most chain trust among the valid blocks within reach of the main chain -/
theorem C36_max_trust (hu : Undoes env) {s : Db L} (h : Later env NoFault (Db.init env) s) : MaxTrust env s := by
  induction h with
  | refl => exact maxTrust_init
  | step op hl hn hp ih => exact step_maxTrust hu (later_sinv hu sinv_init hl) ih op hn hp

/-- finality: the main chain up to the lowest height where reorganizations are allowed stays the same forever, and that height never decreases -/
theorem C36_finality (hu : Undoes env) {s s' : Db L} (h : Reach env s) (h' : Later env AnyOp s s') :
    s.minHeight ≤ s'.minHeight ∧ ∀ x, Main env s x → height env s x ≤ s.minHeight → Main env s' x ∧ height env s' x = height env s x := by
  have hs := reach_sinv hu h
  induction h' with
  | refl => exact ⟨Nat.le_refl _, fun x hx _ => ⟨hx, rfl⟩⟩
  | step op hl _ hp ih =>
    obtain ⟨g1, g2⟩ := step_final hu (later_sinv hu hs hl) op hp
    refine ⟨Nat.le_trans ih.1 g1, ?_⟩
    intro x hx hh
    obtain ⟨q1, q2⟩ := ih.2 x hx hh
    obtain ⟨k1, k2⟩ := g2 x q1 (by have := ih.1; omega)
    exact ⟨k1, k2.trans q2⟩

/-- if blocks are only processed, a new tip shares with the old one all but the last `maxDepth` blocks of the old main chain -/
theorem C36_reorg_depth (hu : Undoes env) {s : Db L} (h : Later env IsProcess (Db.init env) s) {now : Now} {id} (hid : id ≠ env.tree.genesisId) :
    Shares env (s.process env now id).1 (height env s s.best - env.maxDepth) (s.process env now id).1.best s.best := by
  have hs := later_sinv hu sinv_init h
  have hmin := minHeight_process hu h
  rcases process_spec (now := now) hu hs.i hs.m hid with ⟨s1, r, h1, h2⟩ | ⟨s1, e', h1, h2, -⟩
  · rw [h1]; exact (h2.shares hs).mono hmin
  · rw [h1]
    have := (h2.grows.shares hs.i.tree hs.m.known hs.m.known).2 hs.shares_self
    rw [← h2.best] at this ⊢
    exact this.mono (by rw [h2.best]; exact hmin)

/-- invalidating a block: the block and its descendants are invalid and off the main chain, other blocks lost their validity only if they cannot be
connected, no block is removed from the store.  It fails, without any effect, exactly if the block is unknown (or genesis) or is part of the main
chain at or below the lowest height where reorganizations are allowed. -/
theorem C36_invalidate (hu : Undoes env) {s : Db L} (h : Reach env s) (now : Now) (id : Nat) :
    (∃ s', s.invalidate env now id true = (s', .ok ()) ∧
      (∀ x, Anc env s x id → ¬ Ok env s' x ∧ ¬ Main env s' x) ∧ (∀ x, Ok env s' x → Ok env s x) ∧
      (∀ x, Ok env s x → ¬ Anc env s x id → Ok env s' x ∨ ¬ Valid env x) ∧ s'.blocks = s.blocks ∧ s'.tree = s.tree ∧ s'.minHeight = s.minHeight ∧
      (¬ Main env s id → s'.best = s.best ∧ s'.ledger = s.ledger)) ∨
    (∃ e, s.invalidate env now id true = (s, .error e) ∧
      (e = .indexNotFound ∧ s.index.get id = none ∨ e = .tooDeep ∧ Main env s id ∧ height env s id ≤ s.minHeight)) := by
  have hs := reach_sinv hu h
  rcases invalidate_spec (now := now) hu hs id with ⟨s', h1, h2⟩ | h
  · left
    refine ⟨s', h1, ?_, fun x hx => (h2.okSub x hx).1, ?_, h2.blocks, h2.tree, h2.minHeight, ?_⟩
    · intro x hx
      have hno : ¬ Ok env s' x := fun ho => (h2.okSub x ho).2 hx
      exact ⟨hno, fun hm => hno (h2.sinv.m.main_ok hm)⟩
    · intro x ho hna
      rcases h2.blamed x ho with h | h | h
      · exact .inl h
      · exact absurd h hna
      · exact .inr h
    · intro hnm
      rcases h2.max with ⟨h, h', -⟩ | ⟨h, -⟩
      · exact ⟨h, h'⟩
      · exact absurd h hnm
  · exact .inr h

/-- resetting the failure flags of a block with valid parent: the stored blocks among it and its descendants are valid again unless the search for the best
chain finds that they cannot be connected, the indices of those without stored block are forgotten, the tip does not lose trust -/
theorem C36_reset (hu : Undoes env) {s : Db L} (h : Reach env s) (now : Now) (id : Nat) (hp : Known env s id → Ok env s (env.tree.body id).prev) :
    (∃ s', s.reset env now id = (s', .ok ()) ∧
      (∀ x, Anc env s x id → (s.blocks.get x).isSome = true → Ok env s' x ∨ ¬ Valid env x) ∧
      (∀ x, Anc env s x id → s.blocks.get x = none → ¬ Known env s' x) ∧
      (∀ x, Ok env s x → Ok env s' x ∨ ¬ Valid env x) ∧
      (∀ x, Ok env s' x → Ok env s x ∨ Anc env s x id) ∧ s'.blocks = s.blocks ∧ s'.minHeight = s.minHeight ∧
      trust env s s.best ≤ trust env s s'.best) ∨
    (s.reset env now id = (s, .error .indexNotFound) ∧ s.index.get id = none) := by
  have hs := reach_sinv hu h
  rcases reset_spec (now := now) hu hs hp with ⟨s', h1, h2⟩ | h
  · left
    refine ⟨s', h1, fun x hx hb => h2.blamed x (.inr ⟨hx, hb⟩), ?_, fun x hx => h2.blamed x (.inl hx), h2.okSub, h2.blocks, h2.minHeight, h2.trust⟩
    intro x hx hb hk
    rcases (h2.known x hx.known_left).1 hk with h | h
    · exact h hx
    · rw [hb] at h; cases h
  · exact .inr h

/-- agreement: two nodes that learned the same blocks, in whatever order, have tips of equal chain trust; if no other block has that trust, they have the
same tip and the same chain state.  (Checks that depend on time pass, no storage faults, no reorganization limit in effect.) -/
theorem C36_agreement (hu : Undoes env) {s1 s2 : Db L} (h1 : Later env Honest (Db.init env) s1) (h2 : Later env Honest (Db.init env) s2)
    (hz1 : s1.minHeight = 0) (hz2 : s2.minHeight = 0) (hsame : ∀ x, Known env s1 x ↔ Known env s2 x) :
    trust env s1 s1.best = trust env s2 s2.best ∧
    ((∀ x, Known env s1 x → trust env s1 x = trust env s1 s1.best → x = s1.best) → s2.best = s1.best ∧ s2.ledger = s1.ledger) := by
  have hs1 := later_sinv hu sinv_init h1
  have hs2 := later_sinv hu sinv_init h2
  have hnf : ∀ op, Honest op → NoFault op := by
    intro op ho
    cases op with
    | process id now => trivial
    | invalidate id now => exact ho.elim
    | reset id now => exact ho.elim
  have hm1 := C36_max_trust hu (later_mono hnf h1)
  have hm2 := C36_max_trust hu (later_mono hnf h2)
  have hb1 : Known env s2 s1.best := (hsame _).1 hs1.m.known
  have hb2 : Known env s1 s2.best := (hsame _).2 hs2.m.known
  have h12 : trust env s2 s1.best ≤ trust env s2 s2.best :=
    hm2 _ hb1 (honest_ok hu h2 hz2 _ hb1 ⟨_, hs1.m.led⟩) (by rw [hz2]; exact shares_zero hs2.i.tree hb1 hs2.m.known)
  have h21 : trust env s1 s2.best ≤ trust env s1 s1.best :=
    hm1 _ hb2 (honest_ok hu h1 hz1 _ hb2 ⟨_, hs2.m.led⟩) (by rw [hz1]; exact shares_zero hs1.i.tree hb2 hs1.m.known)
  have e1 := trust_env hs1.i.tree hs2.i.tree s1.best hs1.m.known hb1
  have e2 := trust_env hs1.i.tree hs2.i.tree s2.best hb2 hs2.m.known
  have heq : trust env s1 s1.best = trust env s2 s2.best := by omega
  refine ⟨heq, fun huniq => ?_⟩
  have hbb : s2.best = s1.best := huniq _ hb2 (by omega)
  refine ⟨hbb, ?_⟩
  have hl := hs2.m.led
  rw [hbb] at hl
  exact led_unique hl hs1.m.led

/-! ### a concrete tree of blocks

Genesis 0; the chain 1 – 2; the side chain 11 – 12 – 13 – 14 of little trust; 66 with parent 1 cannot be connected. -/

/-- the blocks of the example -/
def exBody : Nat → Body
  | 1 => ⟨0, 10, 1, 10⟩
  | 2 => ⟨1, 20, 1, 10⟩
  | 11 => ⟨0, 10, 1, 1⟩
  | 12 => ⟨11, 20, 1, 1⟩
  | 13 => ⟨12, 30, 1, 1⟩
  | 14 => ⟨13, 40, 1, 1⟩
  | 15 => ⟨14, 50, 1, 100⟩
  | 21 => ⟨0, 10, 1, 200⟩
  | 66 => ⟨1, 20, 1, 50⟩
  | 67 => ⟨66, 30, 1, 50⟩
  | _ => ⟨999, 0, 0, 0⟩

/-- the chain state is the list of connected blocks -/
def exEnv : Env (List Nat) where
  tree := ⟨0, 0, exBody⟩
  maxDepth := 2
  genesis := []
  connect := fun l id => if id = 66 then none else some (id :: l)
  disconnect := fun l id => match l with
    | [] => none
    | x :: r => if x = id then some r else none

theorem exEnv_undoes : Undoes exEnv := by
  intro id l l' _ _ h
  simp only [exEnv] at h ⊢
  split at h
  · cases h
  · cases h; simp

/-- a sequence of calls -/
def exRun (ops : List Op) : Db (List Nat) := ops.foldl (step exEnv) (Db.init exEnv)

/-- the parts of a state that can be compared -/
def exView (s : Db (List Nat)) : List (Nat × Nat) × Nat × Nat × List Nat := (s.byHeight.entries, s.best, s.minHeight, s.ledger)

/-- side chain first, then the chain of more trust: a reorganization -/
example : exView (exRun [.process 11 {}, .process 12 {}, .process 1 {}]) = ([(0, 0), (1, 1)], 1, 0, [1]) ∧
    exView (exRun [.process 11 {}, .process 12 {}]) = ([(0, 0), (1, 11), (2, 12)], 12, 0, [12, 11]) := by decide +kernel

/-- a block that cannot be connected is remembered as invalid, its child is refused, nothing else changes -/
example : exView (exRun [.process 1 {}, .process 66 {}, .process 67 {}]) = ([(0, 0), (1, 1)], 1, 0, [1]) ∧
    (((exRun [.process 1 {}]).process exEnv {} 66).2.toOption.isNone = true ∧
      ((exRun [.process 1 {}, .process 66 {}]).genOk exEnv 66) = false ∧ (exRun [.process 1 {}, .process 66 {}, .process 67 {}]).genOk exEnv 67 = false) := by
  decide +kernel

/-- invalidation of the main chain's first block switches to the side chain; resetting its flags switches back -/
example : (exRun [.process 1 {}, .process 11 {}, .process 12 {}, .invalidate 1 {}]).best = 12 ∧
    (exRun [.process 1 {}, .process 11 {}, .process 12 {}, .invalidate 1 {}, .reset 1 {}]).best = 1 := by decide +kernel

/-- the history of this example is one of those the theorems speak of -/
example : Reach exEnv (exRun [.process 1 {}, .process 11 {}, .process 12 {}, .invalidate 1 {}, .reset 1 {}]) ∧
    Later exEnv Honest (Db.init exEnv) (exRun [.process 11 {}, .process 12 {}, .process 1 {}]) := by
  refine ⟨?_, ?_⟩
  · refine Later.step (.reset 1 {}) ?_ trivial (fun _ => by show Db.genOk _ _ _ = true; decide +kernel)
    refine Later.step (.invalidate 1 {}) ?_ trivial trivial
    refine Later.step (.process 12 {}) ?_ trivial (by simp [Proper, exEnv])
    refine Later.step (.process 11 {}) ?_ trivial (by simp [Proper, exEnv])
    exact Later.step (.process 1 {}) .refl trivial (by simp [Proper, exEnv])
  · refine Later.step (.process 1 {}) ?_ ⟨rfl, fun _ => rfl⟩ (by simp [Proper, exEnv])
    refine Later.step (.process 12 {}) ?_ ⟨rfl, fun _ => rfl⟩ (by simp [Proper, exEnv])
    exact Later.step (.process 11 {}) .refl ⟨rfl, fun _ => rfl⟩ (by simp [Proper, exEnv])

/-! ### what does not hold -/

/-- Without the condition on resets the node's consistency check fails: after the invalidation of 11, resetting the flags of its child 12 leaves a
valid block with an invalid parent; a chain of more trust built on it is refused with an error that is not a verdict on any of its blocks. -/
theorem C36_reset_finding :
    ∃ s, Reach exEnv s ∧ ¬ Proper exEnv s (.reset 12 {}) ∧ (step exEnv s (.reset 12 {})).consistent exEnv = false ∧
      ((step exEnv s (.reset 12 {})).genOk exEnv 14 = true ∧
       ((step exEnv s (.reset 12 {})).process exEnv {} 15).2.toOption.isNone = true ∧
       ((step exEnv s (.reset 12 {})).process exEnv {} 15).1.genOk exEnv 14 = true ∧
       ((step exEnv s (.reset 12 {})).process exEnv {} 15).1.best = 1) := by
  refine ⟨exRun [.process 1 {}, .process 11 {}, .process 12 {}, .process 13 {}, .process 14 {}, .invalidate 11 {}], ?_, ?_, ?_⟩
  · refine Later.step (.invalidate 11 {}) ?_ trivial trivial
    refine Later.step (.process 14 {}) ?_ trivial (by simp [Proper, exEnv])
    refine Later.step (.process 13 {}) ?_ trivial (by simp [Proper, exEnv])
    refine Later.step (.process 12 {}) ?_ trivial (by simp [Proper, exEnv])
    refine Later.step (.process 11 {}) ?_ trivial (by simp [Proper, exEnv])
    exact Later.step (.process 1 {}) .refl trivial (by simp [Proper, exEnv])
  · intro hp
    have hk : Known exEnv (exRun [.process 1 {}, .process 11 {}, .process 12 {}, .process 13 {}, .process 14 {}, .invalidate 11 {}]) 12 := by
      apply genOk_or_known
      decide +kernel
    have := hp hk
    revert this
    show ¬ (Db.genOk _ _ _ = true)
    decide +kernel
  · decide +kernel
where
  genOk_or_known {s : Db (List Nat)} {id : Nat} (h : (s.index.get id).isSome = true) : Known exEnv s id := by
    obtain ⟨e, he⟩ := Option.isSome_iff_exists.1 h
    exact known_of_get he

/-- Invalidation does not raise the lowest height where reorganizations are allowed.  After the invalidation of 1 the tip is 14 at height 4, the limit is 2,
but the stored height is still 0: the node's own check of that height fails, and a block that disconnects all four blocks becomes the tip. -/
theorem C36_reorg_limit_finding :
    ∃ s, Reach exEnv s ∧ s.minHeightConsistent exEnv = false ∧ s.best = 14 ∧ s.ledger = [14, 13, 12, 11] ∧
      (step exEnv s (.process 21 {})).best = 21 ∧ (step exEnv s (.process 21 {})).ledger = [21] := by
  refine ⟨exRun [.process 1 {}, .process 11 {}, .process 12 {}, .process 13 {}, .process 14 {}, .invalidate 1 {}], ?_, ?_⟩
  · refine Later.step (.invalidate 1 {}) ?_ trivial trivial
    refine Later.step (.process 14 {}) ?_ trivial (by simp [Proper, exEnv])
    refine Later.step (.process 13 {}) ?_ trivial (by simp [Proper, exEnv])
    refine Later.step (.process 12 {}) ?_ trivial (by simp [Proper, exEnv])
    refine Later.step (.process 11 {}) ?_ trivial (by simp [Proper, exEnv])
    exact Later.step (.process 1 {}) .refl trivial (by simp [Proper, exEnv])
  · decide +kernel

/-- if blocks are only processed, the node's check of that height succeeds -/
theorem C36_min_height (hu : Undoes env) {s : Db L} (h : Later env IsProcess (Db.init env) s) : s.minHeightConsistent env = true := by
  have hs := later_sinv hu sinv_init h
  unfold Db.minHeightConsistent
  rw [hs.last]
  exact decide_eq_true (minHeight_process hu h)

end Verif.Chainstate
