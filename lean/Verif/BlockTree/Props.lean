import Verif.BlockTree.Median
set_option maxRecDepth 100000

/-!
# C28: ancestors, totals and common ancestors in the block tree; C40: the median time
-/

namespace Verif.BlockTree
open Verif Spec

/-! ## C28 -/

/-- **C28.** In every store of block indices the node can reach, for every known block and every height not above it, the search along skip
links ends without panic in an index of that height, and that is the index of the block found by that many single parent steps. Whatever
block can be reached by that many parent steps is this one. -/
theorem C28_ancestor {c s ck} (hr : Reachable c s ck) {id x h} (hx : getGen c s id = some x) (hh : h ≤ x.height) :
    ∃ y a, getAncestor c s x h = .ok y ∧ getGen c s a = some y ∧ y.height = h ∧ Up c s id (x.height - h) a ∧
      ∀ k a' y', Up c s id k a' → getGen c s a' = some y' → y'.height = h → a' = a := by
  have hi := reachable_inv hr
  obtain ⟨y, a, h1, h2, h3, h4⟩ := getAncestor_ok hi hx hh
  refine ⟨y, a, h1, h3, h4, h2, ?_⟩
  intro k a' y' hu hy' hh'
  obtain ⟨y'', e1, e2⟩ := hi.up_height hu hx
  rw [hy'] at e1; cases e1
  have : k = x.height - h := by omega
  subst this
  exact hu.unique h2

/-- **C28.** The same search starting from a block id: it succeeds for every known id and height not above it. -/
theorem C28_ancestor_by_id {c s ck} (hr : Reachable c s ck) {id x h} (hx : getGen c s id = some x) (hh : h ≤ x.height) :
    ∃ y a, getAncestorById c s id h = .ok y ∧ getGen c s a = some y ∧ y.height = h ∧ Up c s id (x.height - h) a := by
  obtain ⟨y, a, h1, h2, h3, h4⟩ := getAncestor_ok (reachable_inv hr) hx hh
  refine ⟨y, a, ?_, h3, h4, h2⟩
  simp only [getAncestorById, hx, okOr, bind, Except.bind, h1]

/-- **C28.** A height above the block is reported as an error, whatever the store. -/
theorem C28_too_high (c : Cfg) (s : Store) (x : Gen) (h : Nat) (hh : x.height < h) :
    getAncestor c s x h = .error .invalidAncestorHeight := by
  rw [getAncestor, if_pos (by omega)]

/-- **C28.** The only errors when a new block is added are an unknown parent and a timestamp below the median of the parent's past: the
look-ups of the skip ancestor and of the past timestamps never panic. -/
theorem C28_add_errors {c s ck} (hr : Reachable c s ck) {id e} (h : addBlock c s id = .error e) :
    (e = .prevNotFound ∧ ¬ Known c s (c.body id).prev) ∨
    (e = .timeOrderInvalid ∧ ∃ m, medianTimePast c s (c.body id).prev = .ok m ∧ (c.body id).timestamp < m) := by
  have hi := reachable_inv hr
  cases hp : getGen c s (c.body id).prev with
  | none =>
    left
    simp only [addBlock, createIndex, hp, okOr, bind, Except.bind, Except.error.injEq] at h
    refine ⟨h.symm, fun hk => ?_⟩
    obtain ⟨g, hg⟩ := known_iff.1 hk
    rw [hp] at hg; cases hg
  | some p =>
    right
    obtain ⟨y, a, -, -, he⟩ := createIndex_ok hi hp
    obtain ⟨m, hm⟩ := median_exists (known_iff.2 ⟨p, hp⟩)
    have hm' : medianTimePast c s (newIdx c id p a).prev = .ok m := hm
    simp only [addBlock, he, bind, Except.bind, hm', ensure] at h
    by_cases hh : m ≤ (newIdx c id p a).timestamp
    · simp [hh, pure, Except.pure] at h
    · simp only [hh, if_false, Except.error.injEq] at h
      refine ⟨h.symm, m, hm, ?_⟩
      simp only [newIdx] at hh
      omega

/-- **C28.** In every reachable store each known block has exactly one path to the genesis block, and the numbers kept in its index are the
totals over this path: the height is its length, the chain trust is the sum of the proofs, the number of transactions is the sum of theirs
and the maximal time is the maximum of all timestamps and genesis'. -/
theorem C28_totals {c s ck} (hr : Reachable c s ck) {id x} (hx : getGen c s id = some x) :
    ∃ l, Path c id l ∧ (∀ l', Path c id l' → l' = l) ∧ x.height = l.length ∧ x.trust = (l.map Body.proof).sum ∧
      x.txCount = (l.map Body.txs).sum ∧ x.timeMax c = (l.map Body.timestamp).foldr max c.genesisTime := by
  have hi := reachable_inv hr
  have huniq : ∀ {id l l'}, Path c id l → Path c id l' → l' = l := by
    intro id l l' h
    induction h generalizing l' with
    | genesis => intro h'; cases h' with
      | genesis => rfl
      | block hne _ => exact (hne rfl).elim
    | block hne _ ih => intro h'; cases h' with
      | genesis => exact (hne rfl).elim
      | block _ h2 => rw [ih h2]
  suffices ∀ n id x, getGen c s id = some x → x.height = n →
      ∃ l, Path c id l ∧ x.height = l.length ∧ x.trust = (l.map Body.proof).sum ∧
      x.txCount = (l.map Body.txs).sum ∧ x.timeMax c = (l.map Body.timestamp).foldr max c.genesisTime by
    obtain ⟨l, h1, h2⟩ := this x.height id x hx rfl
    exact ⟨l, h1, fun l' h' => huniq h1 h', h2⟩
  intro n
  induction n with
  | zero =>
    intro id x hx hn
    by_cases hg : id = c.genesisId
    · subst hg
      rw [getGen_genesis] at hx; cases hx
      exact ⟨[], .genesis, rfl, rfl, rfl, rfl⟩
    · simp only [getGen, hg, if_false, Option.map_eq_some_iff] at hx
      obtain ⟨b, hb, rfl⟩ := hx
      obtain ⟨p, -, hh, -⟩ := (hi id b hb).parent
      simp only [Gen.height] at hn
      omega
  | succ n ih =>
    intro id x hx hn
    by_cases hg : id = c.genesisId
    · subst hg
      rw [getGen_genesis] at hx; cases hx
      simp [Gen.height] at hn
    · simp only [getGen, hg, if_false, Option.map_eq_some_iff] at hx
      obtain ⟨b, hb, rfl⟩ := hx
      have hgood := hi id b hb
      obtain ⟨p, hp, hh, ht, hm, hc⟩ := hgood.parent
      simp only [Gen.height] at hn
      obtain ⟨l, h1, h2, h3, h4, h5⟩ := ih _ p hp (by omega)
      rw [hgood.prev_eq] at h1
      refine ⟨c.body id :: l, .block hg h1, ?_, ?_, ?_, ?_⟩
      · simp only [Gen.height, List.length_cons]; omega
      · simp only [Gen.trust, List.map_cons, List.sum_cons]; omega
      · simp only [Gen.txCount, List.map_cons, List.sum_cons]; omega
      · simp only [Gen.timeMax, List.map_cons, List.foldr_cons]; rw [← h5, hm]; exact Nat.max_comm _ _

/-- **C28.** For any two known blocks the search for the last common ancestor succeeds without panic; its result is an ancestor of both and
every common ancestor is an ancestor of the result. -/
theorem C28_last_common_ancestor {c s ck} (hr : Reachable c s ck) {i j x y} (hx : getGen c s i = some x) (hy : getGen c s j = some y) :
    ∃ z a, lastCommonAncestor c s x y = .ok z ∧ getGen c s a = some z ∧ Anc c s i a ∧ Anc c s j a ∧
      ∀ b, Anc c s i b → Anc c s j b → Anc c s a b :=
  lca_ok (reachable_inv hr) hx hy

/-! ## C40 -/

/-- **C40.** In every reachable store the median time of every known block can be computed without panic, is the timestamp of one of the last
(at most eleven) blocks, at least half of these are not later and at least half not earlier. -/
theorem C40_median {c s ck} (_hr : Reachable c s ck) {id} (hk : Known c s id) :
    ∃ m, medianTimePast c s id = .ok m ∧
      let l := (history c s 11 id).map (Gen.timestamp c)
      m ∈ l ∧ l.length ≤ 11 ∧ l.length ≤ 2 * l.countP (fun t => decide (t ≤ m)) ∧ l.length ≤ 2 * l.countP (fun t => decide (m ≤ t)) := by
  obtain ⟨m, hm⟩ := median_exists hk
  refine ⟨m, hm, ?_⟩
  have hm2 : medianOf ((history c s 11 id).map (Gen.timestamp c)) = .ok m := hm
  obtain ⟨h1, h2, h3, -⟩ := medianOf_facts hm2
  simp only [geCount, leCount] at h2 h3
  refine ⟨h1, ?_, by omega, by omega⟩
  rw [List.length_map]; exact history_length 11 id

/-- **C40.** Along every chain of blocks that passed their checks the median time never goes down: that of an ancestor is at most that of the block. -/
theorem C40_monotone {c s ck} (hr : Reachable c s ck) {a b m m'} (ha : a ∈ ck) (h : Anc c s a b) (hm : medianTimePast c s a = .ok m)
    (hm' : medianTimePast c s b = .ok m') : m' ≤ m := by
  obtain ⟨k, hk⟩ := h
  exact median_up (reachable_inv hr) (reachable_checked hr) hk (.inr ha) hm hm'

/-- **C40.** So no block that passed its checks is dated before the median time of any of its ancestors (other than itself). -/
theorem C40_no_earlier {c s ck} (hr : Reachable c s ck) {id b m} (hid : id ∈ ck) (h : Anc c s (c.body id).prev b)
    (hm : medianTimePast c s b = .ok m) : m ≤ (c.body id).timestamp := by
  have hi := reachable_inv hr
  obtain ⟨i, hb, q, m0, h1, h2⟩ := reachable_checked hr id hid
  have hg := hi id i hb
  rw [hg.time_eq] at h2
  rw [hg.prev_eq] at h1
  obtain ⟨k, hk⟩ := h
  exact le_trans (median_up hi (reachable_checked hr) hk q h1 hm) h2

/-- **C40.** Blocks that passed their checks are stored and all their ancestors passed them. -/
theorem C40_checked_ancestors {c s ck} (hr : Reachable c s ck) {a b} (ha : a ∈ ck) (h : Anc c s a b) : b = c.genesisId ∨ b ∈ ck := by
  obtain ⟨k, hk⟩ := h
  have hck := reachable_checked hr
  suffices ∀ {a k b}, Up c s a k b → (a = c.genesisId ∨ a ∈ ck) → b = c.genesisId ∨ b ∈ ck from this hk (.inr ha)
  intro a k b h
  induction h with
  | here _ => exact id
  | step h1 _ _ ih => intro ha; obtain ⟨_, _, q, _⟩ := hck _ (ha.resolve_left h1); exact ih q

/-! ## concrete cases -/

/-- ids: 0 is genesis; the main chain is 1..20; the fork 100..103 leaves it after block 7; times go back and forth -/
def exCfg : Cfg where
  genesisId := 0
  genesisTime := 1000
  body n := { prev := if n = 100 then 7 else n - 1, timestamp := 1000 + 10 * n + (if n % 3 = 0 then 25 else 0), txs := n % 4, proof := n + 1 }

def exBuild : List Nat → List Nat → Store → Option Store
  | [], _, s => some s
  | id :: l, ck, s => if id ≠ exCfg.genesisId ∧ s.get id = none ∧ ((exCfg.body id).prev = exCfg.genesisId ∨ (exCfg.body id).prev ∈ ck) then
      match addBlock exCfg s id with
      | .ok s' => exBuild l (id :: ck) s'
      | .error _ => none
    else none

theorem exBuild_reachable : ∀ {l ck s s'}, Reachable exCfg s ck → exBuild l ck s = some s' → Reachable exCfg s' (l.reverse ++ ck)
  | [], ck, s, s', hr, h => by simp only [exBuild, Option.some.injEq] at h; exact h ▸ hr
  | id :: l, ck, s, s', hr, h => by
    simp only [exBuild] at h
    split at h
    · rename_i hc
      split at h
      · rename_i s1 h1
        have := exBuild_reachable (.add hr hc.1 hc.2.1 hc.2.2 h1) h
        simpa [List.reverse_cons, List.append_assoc] using this
      · cases h
    · cases h

def exIds : List Nat := [1,2,3,4,5,6,7,8,9,10,11,12,13,14,15,16,17,18,19,20,100,101,102,103]

/-- a reachable store with twenty blocks and a fork of four; the ancestor of block 19 at height 5, of block 103 at height 5, the common
ancestor of 20 and 103 (block 7), and two median times -/
example : ∃ s, Reachable exCfg s exIds.reverse ∧ ∃ x19 x103 x20, getGen exCfg s 19 = some x19 ∧ getGen exCfg s 103 = some x103 ∧ getGen exCfg s 20 = some x20 ∧
    ((getAncestor exCfg s x19 5).toOption.map (Gen.id exCfg)) = some 5 ∧
    ((getAncestor exCfg s x103 5).toOption.map (Gen.id exCfg)) = some 5 ∧
    ((getAncestor exCfg s x103 9).toOption.map (Gen.id exCfg)) = some 101 ∧
    ((lastCommonAncestor exCfg s x20 x103).toOption.map (Gen.id exCfg)) = some 7 ∧
    (medianTimePast exCfg s 20).toOption = some 1160 ∧ (medianTimePast exCfg s 9).toOption = some 1055 :=
  ⟨_, by simpa using exBuild_reachable .init (Option.some_get (x := exBuild exIds [] BMap.empty) (by decide +kernel)).symm, _, _, _,
    (Option.some_get (x := getGen exCfg _ 19) (by decide +kernel)).symm, (Option.some_get (x := getGen exCfg _ 103) (by decide +kernel)).symm,
    (Option.some_get (x := getGen exCfg _ 20) (by decide +kernel)).symm, by decide +kernel⟩

/-- a block dated before the median is refused -/
example : (do let s ← exBuild exIds [] BMap.empty; pure (addBlock { exCfg with body := fun _ => ⟨20, 1159, 0, 1⟩ } s 21)) = some (.error .timeOrderInvalid) := by
  decide +kernel

/-- the same block keeps an index if it failed its checks; it does not count as checked -/
example : ∃ s, Reachable { exCfg with body := fun n => if n = 1 then ⟨0, 5, 0, 1⟩ else exCfg.body n } s [] ∧ s.get 1 ≠ none := by
  refine ⟨_, .failed (id := 1) .init (by decide) (by decide) rfl, by decide +kernel⟩

end Verif.BlockTree
