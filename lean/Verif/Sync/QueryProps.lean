import Verif.Sync.QueryLemmas

/-!
# C62: locators and header lists
-/

set_option maxRecDepth 100000

namespace Verif.Sync
open Verif Verif.Chainstate Verif.Chainstate.Spec

variable {L : Type} {env : Env L}

/-- the locator of any known block can be made; it lists the ancestors of the block at the distances 0, 1, 2, 4, ..., whatever the main chain of the node is -/
theorem C62_locator (hu : Undoes env) {s : Db L} (h : Reach env s) {x : Nat} (hx : Known env s x) : ∃ l, locatorFromBlock env s x = .ok l ∧ IsLocator env s x l := by
  have hs := reach_sinv hu h
  obtain ⟨l, h1, h2⟩ := locatorFromBlock_ok hs hx
  exact ⟨l, h1, h2.isLocator hs.i.tree⟩

/-- the locator of the tip, made from the heights, is the locator of the best block -/
theorem C62_locator_best (hu : Undoes env) {s : Db L} (h : Reach env s) :
    ∃ l, locatorFromBest env s = .ok l ∧ locatorFromBlock env s s.best = .ok l ∧ IsLocator env s s.best l := by
  have hs := reach_sinv hu h
  obtain ⟨l, h1, h2⟩ := locatorFromBest_ok hs
  obtain ⟨l', h3, h4⟩ := locatorFromBlock_ok hs hs.m.known
  have := (h2.isLocator hs.i.tree).unique (h4.isLocator hs.i.tree)
  exact ⟨l, h1, by rw [this]; exact h3, h2.isLocator hs.i.tree⟩

/-- two nodes that know a block make the same locator from it -/
theorem C62_locator_agree (hu : Undoes env) {s s' : Db L} (h : Reach env s) (h' : Reach env s') {x : Nat} (hx : Known env s x) (hx' : Known env s' x) :
    locatorFromBlock env s x = locatorFromBlock env s' x := by
  have hs := reach_sinv hu h
  have hs' := reach_sinv hu h'
  obtain ⟨l, h1, h2⟩ := C62_locator hu h hx
  obtain ⟨l', h3, h4⟩ := C62_locator hu h' hx'
  have he : ∀ y, Anc env s x y → height env s y = height env s' y := fun y hy =>
    height_env hs.i.tree hs'.i.tree y hy.known_right ((anc_env hs.i.tree hs'.i.tree hx hx').1 hy).known_right
  have hl : IsLocator env s x l' := by
    refine ⟨?_, ?_⟩
    · intro y
      rw [h4.mem, ← anc_env hs.i.tree hs'.i.tree hx hx']
      constructor
      · rintro ⟨a1, a2⟩
        refine ⟨a1, ?_⟩
        rw [he y a1, he x (anc_refl hx)]; exact a2
      · rintro ⟨a1, a2⟩
        refine ⟨a1, ?_⟩
        rw [← he y a1, ← he x (anc_refl hx)]; exact a2
    · refine List.Pairwise.imp_of_mem ?_ h4.sorted
      intro a b ha hb hab
      rw [he a ((anc_env hs.i.tree hs'.i.tree hx hx').2 ((h4.mem a).1 ha).1), he b ((anc_env hs.i.tree hs'.i.tree hx hx').2 ((h4.mem b).1 hb).1)]
      exact hab
  rw [h1, h3, h2.unique hl]

/-- a locator is short: below the height 2^n it has no more than n + 1 entries -/
theorem C62_locator_length (hu : Undoes env) {s : Db L} (h : Reach env s) {x : Nat} {l : List Nat} (hl : locatorFromBlock env s x = .ok l) {n : Nat}
    (hn : height env s x < 2 ^ n) : l.length ≤ n + 1 := by
  have hs := reach_sinv hu h
  by_cases hx : Known env s x
  · obtain ⟨l', h1, h2⟩ := locatorFromBlock_ok hs hx
    rw [hl] at h1; cases h1
    rw [← h2.length_eq]
    exact locatorHeights_length hn
  · have : s.gen env x = none := by
      cases hg : s.gen env x with
      | none => rfl
      | some g => exact absurd (known_gen.2 ⟨g, hg⟩) hx
    simp [locatorFromBlock, this, okOr, bind, Except.bind] at hl

/-- the answer to a locator: the blocks of the main chain that follow the first block of the locator on the main chain (genesis if there is none), one after the other, as
many as there are but not more than asked for.  The locator may come from anyone and hold anything -/
theorem C62_headers (hu : Undoes env) {s : Db L} (h : Reach env s) (loc : List Nat) (limit : Nat) :
    ∃ g l, headersByLocator env s loc limit = .ok l ∧ FirstMain env s loc g ∧ Run env s g l ∧ l.length = min limit (height env s s.best - height env s g) := by
  have hs := reach_sinv hu h
  obtain ⟨g, h1, h2, h3⟩ := forkHeight_ok hs loc
  obtain ⟨l, h4, h5, h6⟩ := headersAbove_ok hs h1 limit
  refine ⟨g, l, ?_, h2, h5, h6⟩
  unfold headersByLocator
  rw [h3]; exact h4

/-- the answer is empty only if the first block of the locator on the main chain is the tip -/
theorem C62_headers_empty (hu : Undoes env) {s : Db L} (h : Reach env s) (loc : List Nat) {limit : Nat} (hlim : 0 < limit) :
    headersByLocator env s loc limit = .ok [] ↔ FirstMain env s loc s.best := by
  have hs := reach_sinv hu h
  obtain ⟨g, h1, h2, h3⟩ := forkHeight_ok hs loc
  obtain ⟨l, h4, h5, h6⟩ := headersAbove_ok hs h1 limit
  have hh : headersByLocator env s loc limit = .ok l := by
    unfold headersByLocator
    rw [h3]; exact h4
  have hb := hs.i.tree.anc_height h1
  have huniq : ∀ g', FirstMain env s loc g' → g' = g := by
    intro g' hg'
    rcases hg' with ⟨a, b, e, m, n⟩ | ⟨e, n⟩
    · rcases h2 with ⟨a', b', e', m', n'⟩ | ⟨e', n'⟩
      · rw [e] at e'
        rcases List.append_eq_append_iff.1 e' with ⟨c, c1, c2⟩ | ⟨c, c1, c2⟩
        · cases c with
          | nil => simp at c2; exact c2.1
          | cons z c =>
            simp only [List.cons_append, List.cons.injEq] at c2
            obtain ⟨rfl, -⟩ := c2
            exact absurd m (n' g' (by rw [c1]; simp))
        · cases c with
          | nil => simp at c2; exact c2.1.symm
          | cons z c =>
            simp only [List.cons_append, List.cons.injEq] at c2
            obtain ⟨rfl, -⟩ := c2
            exact absurd m' (n g (by rw [c1]; simp))
      · exact absurd m (n' g' (by rw [e]; simp))
    · rcases h2 with ⟨a', b', e', m', n'⟩ | ⟨e', n'⟩
      · exact absurd m' (n g (by rw [e']; simp))
      · rw [e, e']
  rw [hh]
  constructor
  · intro he
    cases he
    have : min limit (height env s s.best - height env s g) = 0 := h6.symm
    rw [← hb.2 (by omega)]
    exact h2
  · intro hf
    have := huniq _ hf
    rw [← this, Nat.sub_self, Nat.min_zero] at h6
    rw [List.length_eq_zero_iff.1 h6]

/-- a node asks with the locator of any block it knows; the answer of another node starts after a common block, and between that block and the latest common block there
are fewer blocks than the asking node has above the latest common block (none if both are the same) -/
theorem C62_fork (hu : Undoes env) {s s' : Db L} (h : Reach env s) (h' : Reach env s') {x f : Nat} (hf : ForkOf env s s' x f) (limit : Nat) :
    ∃ loc g l, locatorFromBlock env s x = .ok loc ∧ headersByLocator env s' loc limit = .ok l ∧ Run env s' g l ∧
      l.length = min limit (height env s' s'.best - height env s' g) ∧ Anc env s f g ∧
      (g = f ∨ height env s f - height env s g < height env s x - height env s f) := by
  have hs := reach_sinv hu h
  have hs' := reach_sinv hu h'
  obtain ⟨loc, h1, h2⟩ := C62_locator hu h hf.1.known_left
  obtain ⟨g, l, h3, h4, h5, h6⟩ := C62_headers hu h' loc limit
  obtain ⟨h7, h8⟩ := fork_gap hs hs' h2 hf h4
  exact ⟨loc, g, l, h1, h3, h5, h6, h7, h8⟩

/-- every known block has a latest common block with the main chain of another node -/
theorem C62_fork_exists (hu : Undoes env) {s s' : Db L} (h : Reach env s) (h' : Reach env s') {x : Nat} (hx : Known env s x) : ∃ f, ForkOf env s s' x f := by
  have hs := reach_sinv hu h
  have hs' := reach_sinv hu h'
  suffices hh : ∀ n, n ≤ height env s x → (∃ y, Anc env s x y ∧ Main env s' y ∧ height env s x - n ≤ height env s y) → ∃ f, ForkOf env s s' x f from
    hh (height env s x) (Nat.le_refl _) ⟨_, hs.i.tree.anc_genesis hx, hs'.i.tree.anc_genesis hs'.m.known, by omega⟩
  intro n
  induction n with
  | zero =>
    rintro - ⟨y, h1, h2, h3⟩
    refine ⟨y, h1, h2, ?_⟩
    intro z hz _
    have := (hs.i.tree.anc_height hz).1
    omega
  | succ n ih =>
    rintro hn ⟨y, h1, h2, h3⟩
    by_cases hc : ∃ z, Anc env s x z ∧ Main env s' z ∧ height env s x - n ≤ height env s z
    · exact ih (by omega) hc
    · refine ⟨y, h1, h2, ?_⟩
      intro z hz hzm
      have : ¬ height env s x - n ≤ height env s z := fun h => hc ⟨z, hz, hzm, h⟩
      omega

/-- if the other node has blocks above the latest common block and sends at least as many headers as the asking node has blocks above it (and at least one), the next block
after the latest common block is among them -/
theorem C62_progress (hu : Undoes env) {s s' : Db L} (h : Reach env s) (h' : Reach env s') {x f : Nat} (hf : ForkOf env s s' x f) (hne : f ≠ s'.best) {limit : Nat}
    (hl : 0 < limit) (hlim : height env s x - height env s f ≤ limit) :
    ∃ loc l b, locatorFromBlock env s x = .ok loc ∧ headersByLocator env s' loc limit = .ok l ∧ b ∈ l ∧ b ≠ env.tree.genesisId ∧ (env.tree.body b).prev = f := by
  have hs := reach_sinv hu h
  have hs' := reach_sinv hu h'
  obtain ⟨loc, g, l, h1, h2, h3, h4, h5, h6⟩ := C62_fork hu h h' hf limit
  have hfh := height_env hs.i.tree hs'.i.tree f hf.1.known_right hf.2.1.known_right
  have hgh := height_env hs.i.tree hs'.i.tree g h5.known_right h3.main.known_right
  have hb := hs'.i.tree.anc_height hf.2.1
  have hgf := (hs.i.tree.anc_height h5).1
  have hlt : height env s' f < height env s' s'.best := Nat.lt_of_le_of_ne hb.1 (fun he => hne (hb.2 he))
  obtain ⟨b, -, b2, b3⟩ := main_at hs' (h := height env s' f + 1) (by omega)
  obtain ⟨b4, b5⟩ := main_next hs' hf.2.1 b2 b3
  refine ⟨loc, l, b, h1, h2, ?_, b4, b5⟩
  refine h3.reach hs' b2 (by omega) ?_
  rw [h4]
  rcases h6 with rfl | h6
  · omega
  · omega

/-- headers for a peer whose blocks are known: the main chain after the latest block it shares with any of them -/
theorem C62_announce (hu : Undoes env) {s : Db L} (h : Reach env s) {ids : List Nat} (hids : ids ≠ []) (hk : ∀ x ∈ ids, Known env s x) (limit : Nat) :
    ∃ g l, headersSinceFork env s ids limit = .ok l ∧ Run env s g l ∧ l.length = min limit (height env s s.best - height env s g) ∧ (∃ x ∈ ids, Anc env s x g) ∧
      ∀ x ∈ ids, ∀ y, Anc env s x y → Main env s y → Anc env s g y := by
  have hs := reach_sinv hu h
  obtain ⟨m, h1, -, h2, h3⟩ := latestFork_ok hs ids 0 hk
  obtain ⟨x0, hx0⟩ := List.exists_mem_of_ne_nil ids hids
  have hg : ∃ x ∈ ids, ∃ y, Anc env s x y ∧ Main env s y ∧ height env s y = m := by
    rcases h3 with rfl | h3
    · exact ⟨x0, hx0, env.tree.genesisId, hs.i.tree.anc_genesis (hk x0 hx0), hs.i.tree.anc_genesis hs.m.known, height_genesis s⟩
    · exact h3
  obtain ⟨x, hx, g, g1, g2, g3⟩ := hg
  obtain ⟨l, h4, h5, h6⟩ := headersAbove_ok hs g2 limit
  refine ⟨g, l, ?_, h5, h6, ⟨x, hx, g1⟩, ?_⟩
  · unfold headersSinceFork
    have : ids.isEmpty = false := by cases ids with
      | nil => exact absurd rfl hids
      | cons => rfl
    rw [this, h1, ← g3]
    exact h4
  · intro x' hx' y hy hm
    have := h2 x' hx' y hy hm
    exact anc_of_le hs.i.tree g2 hm (by omega)

/-! ### example -/

/-- the chain 1, 2, 3, ... and a branch 104, 105, ... from block 3 -/
def qEnv : Env (List Nat) where
  tree := ⟨0, 0, fun k => if k = 104 then ⟨3, 4, 1, 1⟩ else if k < 100 then ⟨k - 1, k, 1, 1⟩ else ⟨k - 1, k - 100, 1, 1⟩⟩
  maxDepth := 100
  genesis := []
  connect := fun l id => some (id :: l)
  disconnect := fun l id => match l with
    | [] => none
    | x :: r => if x = id then some r else none

theorem qEnv_undoes : Undoes qEnv := by
  intro id l l' _ _ h
  simp only [qEnv] at h ⊢
  cases h; simp

/-- a node that was given some blocks -/
def qRun (ids : List Nat) : Db (List Nat) := ids.foldl (fun s id => step qEnv s (.process id {})) (Db.init qEnv)

theorem qRun_reach : ∀ ids : List Nat, (∀ x ∈ ids, x ≠ 0) → Reach qEnv (qRun ids) := by
  suffices h : ∀ (ids : List Nat) (s : Db (List Nat)), Reach qEnv s → (∀ x ∈ ids, x ≠ 0) → Reach qEnv (ids.foldl (fun s id => step qEnv s (.process id {})) s) from
    fun ids hi => h ids _ .refl hi
  intro ids
  induction ids with
  | nil => intro s hs _; exact hs
  | cons a ids ih =>
    intro s hs h
    exact ih _ (Later.step _ hs trivial (h a (by simp))) (fun x hx => h x (by simp [hx]))

/-- a node on the branch and one on the chain; a third one knows both, with the chain as main chain: its locator of the branch is the same -/
example : Reach qEnv (qRun [1, 2, 3, 104, 105, 106, 107, 108, 109]) ∧ Reach qEnv (qRun [1, 2, 3, 4, 5, 6, 7, 8]) ∧
    Reach qEnv (qRun [1, 2, 3, 4, 5, 6, 7, 8, 9, 10, 104, 105, 106, 107, 108, 109]) :=
  ⟨qRun_reach _ (by decide), qRun_reach _ (by decide), qRun_reach _ (by decide)⟩

example : (locatorFromBest qEnv (qRun [1, 2, 3, 104, 105, 106, 107, 108, 109])).toOption = some [109, 108, 107, 105, 1] ∧
    (locatorFromBlock qEnv (qRun [1, 2, 3, 4, 5, 6, 7, 8, 9, 10, 104, 105, 106, 107, 108, 109]) 109).toOption = some [109, 108, 107, 105, 1] ∧
    (locatorFromBlock qEnv (qRun [1, 2, 3, 4, 5, 6, 7, 8, 9, 10, 104, 105, 106, 107, 108, 109]) 106).toOption = some [106, 105, 104, 2] ∧
    (locatorFromBlock qEnv (qRun [1, 2, 3]) 104).toOption = none := by decide +kernel

/-- the latest common block is 3, the answer starts after block 1 -/
example : (headersByLocator qEnv (qRun [1, 2, 3, 4, 5, 6, 7, 8]) [109, 108, 107, 105, 1] 4).toOption = some [2, 3, 4, 5] ∧
    (headersByLocator qEnv (qRun [1, 2, 3, 4, 5, 6, 7, 8]) [109, 108, 107, 105, 1] 100).toOption = some [2, 3, 4, 5, 6, 7, 8] ∧
    (headersByLocator qEnv (qRun [1, 2, 3, 4, 5, 6, 7, 8]) [999, 77] 2).toOption = some [1, 2] ∧
    (headersByLocator qEnv (qRun [1, 2, 3, 4, 5, 6, 7, 8]) [109, 8, 1] 100).toOption = some [] := by decide +kernel

example : (headersSinceFork qEnv (qRun [1, 2, 3, 4, 5, 6, 7, 8, 104, 105]) [105, 2] 100).toOption = some [4, 5, 6, 7, 8] ∧
    (headersSinceFork qEnv (qRun [1, 2, 3, 4, 5, 6, 7, 8, 104, 105]) [105, 6] 100).toOption = some [7, 8] ∧
    (headersSinceFork qEnv (qRun [1, 2, 3, 4, 5, 6, 7, 8, 104, 105]) [105, 106] 100).toOption = none := by decide +kernel

end Verif.Sync
