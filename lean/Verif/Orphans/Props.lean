import Verif.Orphans.Order

/-!
# C69: blocks may arrive in any order
-/

set_option maxRecDepth 100000

namespace Verif.Orphans
open Verif BlockTree Chainstate Chainstate.Spec Orphans.Spec
variable {L : Type} {env : Env L}

/-- Blocks that are handed over in whatever order, some of them repeatedly, are all accepted in the end, none is left waiting, nothing else became known, and the tip has the most chain trust among
them.  (The blocks come with all their ancestors, can be connected and pass the other checks; the pool is larger than their number; no reorganization limit is in effect.) -/
theorem C69_any_order (hu : Undoes env) {blocks : List Nat} {calls : List Call} {max : Nat} (hn : blocks.Nodup) (hc : Closed env blocks) (hv : ∀ x ∈ blocks, Valid env x)
    (hdepth : ∀ x ∈ blocks, ∃ k ≤ env.maxDepth, Depth env x k) (hd : Delivers calls blocks) (hcalm : Calm calls) (hm : blocks.length < max) :
    ∃ n, Node.submitAll env calls (Node.new env max) = .ok n ∧ n.pool.ids = [] ∧ (∀ x, Known env n.db x ↔ x = env.tree.genesisId ∨ x ∈ blocks) ∧
      (∀ x ∈ blocks, Ok env n.db x ∧ trust env n.db x ≤ trust env n.db n.db.best) ∧ Led env n.db.best n.db.ledger := by
  obtain ⟨n, e, h1, h2, h3⟩ := any_order hu ⟨hn, hc, hv, hdepth⟩ hd hcalm hm
  have hs := later_sinv hu sinv_init h3.later
  have hmt := C36_max_trust hu (later_mono (Q := NoFault) (fun op ho => by
    cases op with
    | process id now => trivial
    | invalidate id now => exact ho.elim
    | reset id now => exact ho.elim) h3.later)
  refine ⟨n, e, h2, fun x => ⟨h3.known x, ?_⟩, fun x hx => ⟨h1 x hx, ?_⟩, hs.m.led⟩
  · rintro (hx | hx)
    · rw [hx]; exact known_genesis _
    · exact genOk_known (h1 x hx)
  · have hk := genOk_known (h1 x hx)
    exact hmt x hk (h1 x hx) (by rw [h3.zero]; exact shares_zero hs.i.tree hk hs.m.known)

/-- Two nodes that were handed the same blocks in different orders have tips of the same chain trust; if no other of the blocks has that trust, they have the same tip and the same chain state. -/
theorem C69_same_tip (hu : Undoes env) {blocks : List Nat} {calls calls' : List Call} {max max' : Nat} (hn : blocks.Nodup) (hc : Closed env blocks) (hv : ∀ x ∈ blocks, Valid env x)
    (hdepth : ∀ x ∈ blocks, ∃ k ≤ env.maxDepth, Depth env x k) (hd : Delivers calls blocks) (hd' : Delivers calls' blocks) (hcalm : Calm calls) (hcalm' : Calm calls')
    (hm : blocks.length < max) (hm' : blocks.length < max') :
    ∃ n n', Node.submitAll env calls (Node.new env max) = .ok n ∧ Node.submitAll env calls' (Node.new env max') = .ok n' ∧
      trust env n.db n.db.best = trust env n'.db n'.db.best ∧
      ((∀ x ∈ blocks, trust env n.db x = trust env n.db n.db.best → x = n.db.best) → n.db.best ≠ env.tree.genesisId → n'.db.best = n.db.best ∧ n'.db.ledger = n.db.ledger) := by
  obtain ⟨n, e, h1, h2, h3⟩ := any_order hu ⟨hn, hc, hv, hdepth⟩ hd hcalm hm
  obtain ⟨n', e', h1', h2', h3'⟩ := any_order hu ⟨hn, hc, hv, hdepth⟩ hd' hcalm' hm'
  have hk : ∀ x, Known env n.db x ↔ x = env.tree.genesisId ∨ x ∈ blocks := fun x => ⟨h3.known x, fun hx => by
    rcases hx with hx | hx
    · rw [hx]; exact known_genesis _
    · exact genOk_known (h1 x hx)⟩
  have hk' : ∀ x, Known env n'.db x ↔ x = env.tree.genesisId ∨ x ∈ blocks := fun x => ⟨h3'.known x, fun hx => by
    rcases hx with hx | hx
    · rw [hx]; exact known_genesis _
    · exact genOk_known (h1' x hx)⟩
  have hag := C36_agreement hu h3.later h3'.later h3.zero h3'.zero (fun x => (hk x).trans (hk' x).symm)
  refine ⟨n, n', e, e', hag.1, ?_⟩
  intro hq hg
  have hs := later_sinv hu sinv_init h3.later
  have hs' := later_sinv hu sinv_init h3'.later
  have hb' : n'.db.best = n.db.best := by
    have htr : trust env n.db n'.db.best = trust env n.db n.db.best := by
      rw [hag.1]
      exact trust_env hs.i.tree hs'.i.tree _ ((hk _).2 ((hk' _).1 hs'.m.known)) hs'.m.known
    rcases (hk' _).1 hs'.m.known with hx | hx
    · exfalso
      -- the tip of the other node is genesis: then the trust of the tip is zero, which the parent of the tip also has
      rw [hx, trust_genesis] at htr
      exact genesis_tip hu h3 hs htr.symm hg
    · exact hq _ hx htr
  refine ⟨hb', ?_⟩
  have hl := hs'.m.led
  rw [hb'] at hl
  exact led_unique hl hs.m.led
where
  genesis_tip {blocks : List Nat} {n : Node L} (hu : Undoes env) (h : HInv env blocks n) (hs : SInv env n.db) (h0 : trust env n.db n.db.best = 0)
      (hg : n.db.best ≠ env.tree.genesisId) : False := by
    -- a block becomes the tip only if its trust is larger than that of the tip before
    have : ∀ {s : Db L}, Later env Honest (Db.init env) s → s.best = env.tree.genesisId ∨ 0 < trust env s s.best := by
      intro s hl
      induction hl with
      | refl => exact .inl rfl
      | step op hl ho hp ih =>
        rename_i s
        cases op with
        | invalidate id now => exact ho.elim
        | reset id now => exact ho.elim
        | process id now =>
          have hs := later_sinv hu sinv_init hl
          rcases process_spec (now := now) hu hs.i hs.m hp with ⟨s', t, h1, h2⟩ | ⟨s', e, h1, h2, -⟩
          · show (s.process env now id).1.best = _ ∨ 0 < trust env (s.process env now id).1 (s.process env now id).1.best
            rw [h1]
            rcases h2.tip with ⟨e, -, -, c, d⟩ | ⟨-, c, -⟩
            · right; show 0 < trust env s' s'.best; rw [c]; omega
            · rcases ih with ih | ih
              · left; exact c.trans ih
              · right
                show 0 < trust env s' s'.best
                rw [c]
                unfold trust at ih ⊢
                rw [h2.grows.gen hs.m.known]; exact ih
          · show (s.process env now id).1.best = _ ∨ 0 < trust env (s.process env now id).1 (s.process env now id).1.best
            rw [h1]
            rcases ih with ih | ih
            · left; exact h2.best.trans ih
            · right
              show 0 < trust env s' s'.best
              rw [h2.best]
              unfold trust at ih ⊢
              rw [h2.grows.gen hs.m.known]; exact ih
    rcases this h.later with h1 | h1
    · exact hg h1
    · omega

/-- Whatever blocks are handed over, good or bad, in whatever order: the node never panics and the work on waiting blocks ends; the pool never exceeds its size; no block waits for a block that was
accepted. -/
theorem C69_no_panic (hu : Undoes env) {calls : List Call} {max : Nat} (ha : Acyclic env (calls.map Call.id)) (hg : ∀ c ∈ calls, c.id ≠ env.tree.genesisId) (hm : 0 < max) :
    ∃ n, Node.submitAll env calls (Node.new env max) = .ok n ∧ Reach env n.db ∧ n.pool.ids.Nodup ∧ n.pool.len ≤ max ∧
      ∀ x ∈ n.pool.ids, ¬ Ok env n.db (parent env x) := by
  obtain ⟨r, hr⟩ := ha
  obtain ⟨n, e, i, m, w⟩ := submitAll_spec hu (r := r) calls (ninv_new (env := env) hm) (fun x hx => by cases hx)
    (fun c hc => ⟨hg c hc, hr _ (List.mem_map.2 ⟨c, hc, rfl⟩)⟩)
  refine ⟨n, e, i.reach, i.rep.nodup, ?_, ?_⟩
  · have := i.len
    rw [m] at this
    exact this
  · intro x hx ho
    have := w x hx ho
    cases this

/-- The block handed over last and the blocks that waited for it: the answer is the new tip, or nothing if the tip stays; after an error the tip is what it was. -/
theorem C69_answer (hu : Undoes env) {calls : List Call} {max : Nat} (c : Call) (ha : Acyclic env ((calls ++ [c]).map Call.id)) (hg : ∀ d ∈ calls ++ [c], d.id ≠ env.tree.genesisId) (hm : 0 < max) :
    ∃ n n' res, Node.submitAll env calls (Node.new env max) = .ok n ∧ n.submit env c.now c.pick c.id = .ok (n', res) ∧
      (∀ e, res = .ok (some e) → n'.db.best = e.idx.id) ∧ ((∃ e, res = .error e) ∨ res = .ok none → n'.db.best = n.db.best) := by
  obtain ⟨r, hr⟩ := ha
  have hr' : ∀ d ∈ calls ++ [c], r (parent env d.id) < r d.id := fun d hd => hr _ (List.mem_map.2 ⟨d, hd, rfl⟩)
  obtain ⟨n, e, i, m, w⟩ := submitAll_spec hu (r := r) calls (ninv_new (env := env) hm) (fun x hx => by cases hx)
    (fun d hd => ⟨hg d (List.mem_append.2 (.inl hd)), hr' d (List.mem_append.2 (.inl hd))⟩)
  have hc : c ∈ calls ++ [c] := List.mem_append.2 (.inr (List.mem_singleton.2 rfl))
  obtain ⟨n', res, e', -, -, -, h1, h2⟩ := submit_spec hu i w (hg c hc) (hr' c hc) c.now c.pick
  refine ⟨n, n', res, e, e', fun x hx => (h2 _ hx).1 x rfl, ?_⟩
  rintro (⟨x, hx⟩ | hx)
  · exact h1 x hx
  · exact (h2 _ hx).2 rfl

/-- The pool, which keeps the blocks in a list and in two maps, behaves like the list alone under every sequence of calls: no panic, taking the children of a block returns exactly those in the order
of their arrival, a block that does not fit in displaces one on which no other waiting block depends, forgetting removes exactly the descendants. -/
theorem C69_pool {prev : Nat → Nat} {max : Nat} {ops : List PoolOp} (ha : ∃ rank : Nat → Nat, ∀ x ∈ added ops, rank (prev x) < rank x) (hm : 0 < max) :
    ∃ p os, Pool.run prev ops (Pool.new max) = .ok (p, os) ∧ p.len ≤ max ∧ DoesAll prev max [] ops p.ids os := by
  obtain ⟨r, hr⟩ := ha
  exact run_spec ops (p := Pool.new max) (rep_new max) (fun x hx => by cases hx) hr hm (Nat.zero_le _)

/-! ### an example

The blocks of `exEnv`: 1 – 2 with trust 10 each; 11 – 12 – 13 with trust 1 each. -/

/-- the order from the last block to the first, with a repetition -/
def exCalls : List Call := [⟨13, fun _ => {}, fun _ => 5⟩, ⟨2, fun _ => {}, fun _ => 1⟩, ⟨12, fun _ => {}, fun _ => 1⟩, ⟨13, fun _ => {}, fun _ => 1⟩, ⟨11, fun _ => {}, fun _ => 0⟩,
  ⟨1, fun _ => {}, fun _ => 0⟩]

/-- what can be compared of a node: tip, chain state, waiting blocks -/
def exNode (r : Except Panic (Node (List Nat))) : Option (Nat × List Nat × List Nat) := r.toOption.map (fun n => (n.db.best, n.db.ledger, n.pool.ids))

/-- the same blocks, with room for as many reorganizations as needed -/
def exEnv' : Env (List Nat) := { exEnv with maxDepth := 5 }

example : exNode (Node.submitAll exEnv' exCalls (Node.new exEnv' 10)) = some (2, [2, 1], []) ∧
    exNode (Node.submitAll exEnv' exCalls.reverse (Node.new exEnv' 10)) = some (2, [2, 1], []) ∧
    exNode (Node.submitAll exEnv' (exCalls.take 4) (Node.new exEnv' 10)) = some (0, [], [13, 2, 12]) ∧
    exNode (Node.submitAll exEnv' (exCalls.take 5) (Node.new exEnv' 10)) = some (13, [13, 12, 11], [2]) := by decide +kernel

/-- the example meets the hypotheses of `C69_any_order` -/
example : ∃ n, Node.submitAll exEnv' exCalls (Node.new exEnv' 10) = .ok n ∧ n.pool.ids = [] ∧ ∀ x ∈ [1, 2, 11, 12, 13], Ok exEnv' n.db x := by
  have hval : ∀ x ∈ [1, 2, 11, 12, 13], Valid exEnv' x := by
    have h1 : Led exEnv' 1 [1] := .block (l := []) (by decide) .genesis rfl
    have h2 : Led exEnv' 2 [2, 1] := .block (l := [1]) (by decide) h1 rfl
    have h11 : Led exEnv' 11 [11] := .block (l := []) (by decide) .genesis rfl
    have h12 : Led exEnv' 12 [12, 11] := .block (l := [11]) (by decide) h11 rfl
    have h13 : Led exEnv' 13 [13, 12, 11] := .block (l := [12, 11]) (by decide) h12 rfl
    intro x hx
    simp only [List.mem_cons, List.not_mem_nil, or_false] at hx
    rcases hx with rfl | rfl | rfl | rfl | rfl
    exacts [⟨_, h1⟩, ⟨_, h2⟩, ⟨_, h11⟩, ⟨_, h12⟩, ⟨_, h13⟩]
  have hdep : ∀ x ∈ [1, 2, 11, 12, 13], ∃ k ≤ exEnv'.maxDepth, Depth exEnv' x k := by
    have h1 : Depth exEnv' 1 1 := .block (by decide) .genesis
    have h2 : Depth exEnv' 2 2 := .block (by decide) h1
    have h11 : Depth exEnv' 11 1 := .block (by decide) .genesis
    have h12 : Depth exEnv' 12 2 := .block (by decide) h11
    have h13 : Depth exEnv' 13 3 := .block (by decide) h12
    intro x hx
    simp only [List.mem_cons, List.not_mem_nil, or_false] at hx
    rcases hx with rfl | rfl | rfl | rfl | rfl
    exacts [⟨1, by decide, h1⟩, ⟨2, by decide, h2⟩, ⟨1, by decide, h11⟩, ⟨2, by decide, h12⟩, ⟨3, by decide, h13⟩]
  have hu : Undoes exEnv' := by
    intro id l l' _ _ h
    simp only [exEnv', exEnv] at h ⊢
    split at h
    · cases h
    · cases h; simp
  obtain ⟨n, h1, h2, -, h4, -⟩ := C69_any_order (env := exEnv') hu (blocks := [1, 2, 11, 12, 13]) (calls := exCalls) (max := 10) (by decide)
    (by
      have : ∀ x ∈ [1, 2, 11, 12, 13], x ≠ 0 ∧ (parent exEnv' x = 0 ∨ parent exEnv' x ∈ [1, 2, 11, 12, 13]) := by decide
      exact this)
    hval hdep
    (by
      intro x
      simp only [exCalls, List.mem_cons, List.not_mem_nil, or_false, exists_eq_or_imp, exists_eq_left]
      omega)
    (by
      intro c hc x
      simp only [exCalls, List.mem_cons, List.not_mem_nil, or_false] at hc
      rcases hc with rfl | rfl | rfl | rfl | rfl | rfl <;> exact ⟨rfl, fun _ => rfl⟩)
    (by decide)
  exact ⟨n, h1, h2, fun x hx => (h4 x hx).1⟩

/-- bad blocks among them: 66 cannot be connected, so that 67, which waited for it, is forgotten; the history is one of those `C69_no_panic` speaks of -/
example : exNode (Node.submitAll exEnv' [⟨67, fun _ => {}, fun _ => 0⟩, ⟨66, fun _ => {}, fun _ => 0⟩, ⟨1, fun _ => {}, fun _ => 0⟩] (Node.new exEnv' 10)) = some (1, [1], []) ∧
    Acyclic exEnv' [67, 66, 1] := by
  refine ⟨by decide +kernel, fun x => x, ?_⟩
  decide

/-- a sequence of calls of the pool: 3 is the child of 2, 2 of 1, 1 of 0; 2 does not displace 1 but 3 -/
example : (Pool.run (fun x => x - 1) [.add 0 1, .add 0 2, .add 0 3, .add 0 7, .take 1, .take 6] (Pool.new 3)).toOption.map (fun r => (r.1.ids, r.2)) =
    some ([1], [[], [], [], [], [2], [7]]) := by decide +kernel

/-! ### what does not hold -/

/-- With a pool too small for the blocks that wait a block is lost: 13 arrives first and is displaced by 12, so that it is missing in the end. -/
theorem C69_witness_small : exNode (Node.submitAll exEnv' [⟨13, fun _ => {}, fun _ => 0⟩, ⟨12, fun _ => {}, fun _ => 0⟩, ⟨11, fun _ => {}, fun _ => 0⟩] (Node.new exEnv' 1)) = some (12, [12, 11], []) ∧
    exNode (Node.submitAll exEnv' [⟨13, fun _ => {}, fun _ => 0⟩, ⟨12, fun _ => {}, fun _ => 0⟩, ⟨11, fun _ => {}, fun _ => 0⟩] (Node.new exEnv' 2)) = some (13, [13, 12, 11], []) := by
  decide +kernel

/-- Room is made before the check whether the block is in the pool already: when the pool is full, a block that is in it displaces another one, although nothing is added. -/
theorem C69_witness_again : ((Pool.run (fun x => x - 1) [.add 0 5, .add 0 8, .add 0 8] (Pool.new 2)).toOption.map (fun r => r.1.ids)) = some [8] := by decide +kernel

/-- A pool of size zero (the size is an option of the node) panics at the first block without known parent. -/
theorem C69_witness_zero : (match Pool.add (fun x => x - 1) (Pool.new 0) 0 5 with
    | .error e => some e
    | .ok _ => none) = some Panic.emptyPool := by decide +kernel

/-- The blocks that wait for a block that fails its checks stay in the pool: their parent is known as bad and will never be accepted. -/
theorem C69_witness_stale : exNode (Node.submitAll exEnv' [⟨2, fun _ => {}, fun _ => 0⟩, ⟨1, fun _ => { check := fun _ => some .bad }, fun _ => 0⟩] (Node.new exEnv' 10)) = some (0, [], [2]) := by
  decide +kernel

end Verif.Orphans
