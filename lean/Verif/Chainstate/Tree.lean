import Verif.Chainstate.Spec
import Verif.BlockTree.Lemmas

/-! # Ancestors in the database -/

namespace Verif.Chainstate
open Verif BlockTree Spec
variable {L : Type} {env : Env L}

theorem tree_get (s : Db L) (id : Nat) : s.tree.get id = (s.index.get id).map Entry.idx := by
  rw [Db.tree, BMap.get_mapV]

theorem tree_eq {s s' : Db L} (h : ∀ id, (s'.index.get id).map Entry.idx = (s.index.get id).map Entry.idx) : s'.tree = s.tree := by
  apply BMap.ext_get; intro id; rw [tree_get, tree_get, h]

theorem gen_genesis (s : Db L) : s.gen env env.tree.genesisId = some .genesis := getGen_genesis _ _

theorem gen_block {s : Db L} {id e} (h : id ≠ env.tree.genesisId) (he : s.index.get id = some e) : s.gen env id = some (.block e.idx) := by
  apply getGen_block h; rw [tree_get, he]; rfl

theorem gen_some {s : Db L} {id g} (h : s.gen env id = some g) : id = env.tree.genesisId ∧ g = .genesis ∨
    id ≠ env.tree.genesisId ∧ ∃ e, s.index.get id = some e ∧ g = .block e.idx := by
  by_cases hg : id = env.tree.genesisId
  · subst hg; rw [gen_genesis] at h; cases h; exact .inl ⟨rfl, rfl⟩
  · right
    refine ⟨hg, ?_⟩
    simp only [Db.gen, getGen, hg, if_false, tree_get] at h
    cases he : s.index.get id with
    | none => rw [he] at h; cases h
    | some e => rw [he] at h; cases h; exact ⟨e, rfl, rfl⟩

theorem known_gen {s : Db L} {id} : Known env s id ↔ ∃ g, s.gen env id = some g := known_iff

theorem known_of_get {s : Db L} {id e} (he : s.index.get id = some e) : Known env s id := .inr ⟨e.idx, by rw [tree_get, he]; rfl⟩

theorem known_genesis (s : Db L) : Known env s env.tree.genesisId := .inl rfl

theorem known_cases {s : Db L} {id} (h : Known env s id) : id = env.tree.genesisId ∨ ∃ e, s.index.get id = some e := by
  rcases h with h | ⟨b, hb⟩
  · exact .inl h
  · rw [tree_get] at hb
    cases he : s.index.get id with
    | none => rw [he] at hb; cases hb
    | some e => exact .inr ⟨e, rfl⟩

theorem height_genesis (s : Db L) : height env s env.tree.genesisId = 0 := by simp [height, gen_genesis, Gen.height]
theorem trust_genesis (s : Db L) : trust env s env.tree.genesisId = 0 := by simp [trust, gen_genesis, Gen.trust]

/-- the tree of indices is sound -/
abbrev TInv (env : Env L) (s : Db L) : Prop := BlockTree.Inv env.tree s.tree

theorem TInv.good {s : Db L} (hi : TInv env s) {id e} (he : s.index.get id = some e) : BlockTree.Good env.tree s.tree id e.idx :=
  hi id e.idx (by rw [tree_get, he]; rfl)

theorem TInv.ne_genesis {s : Db L} (hi : TInv env s) {id e} (he : s.index.get id = some e) : id ≠ env.tree.genesisId := (hi.good he).not_genesis
theorem TInv.id_eq' {s : Db L} (hi : TInv env s) {id e} (he : s.index.get id = some e) : e.idx.id = id := (hi.good he).id_eq
theorem TInv.prev_eq {s : Db L} (hi : TInv env s) {id e} (he : s.index.get id = some e) : e.idx.prev = (env.tree.body id).prev := (hi.good he).prev_eq

theorem TInv.height_eq {s : Db L} (hi : TInv env s) {id e} (he : s.index.get id = some e) : height env s id = e.idx.height := by
  simp [height, gen_block (hi.ne_genesis he) he, Gen.height]
theorem TInv.trust_eq {s : Db L} (hi : TInv env s) {id e} (he : s.index.get id = some e) : trust env s id = e.idx.trust := by
  simp [trust, gen_block (hi.ne_genesis he) he, Gen.trust]

theorem gen_height {s : Db L} {id g} (h : s.gen env id = some g) : g.height = height env s id := by simp [height, h]
theorem gen_trust {s : Db L} {id g} (h : s.gen env id = some g) : g.trust = trust env s id := by simp [trust, h]

theorem TInv.parent {s : Db L} (hi : TInv env s) {id e} (he : s.index.get id = some e) :
    Known env s e.idx.prev ∧ height env s id = height env s e.idx.prev + 1 ∧ trust env s e.idx.prev ≤ trust env s id := by
  obtain ⟨p, hp, h1, h2, -⟩ := (hi.good he).parent
  have hp' : s.gen env e.idx.prev = some p := hp
  refine ⟨known_iff.2 ⟨p, hp⟩, ?_, ?_⟩
  · rw [hi.height_eq he, ← gen_height hp', h1]
  · rw [hi.trust_eq he, ← gen_trust hp', h2]; omega

theorem TInv.parent_cases {s : Db L} (hi : TInv env s) {id e} (he : s.index.get id = some e) :
    e.idx.prev = env.tree.genesisId ∨ ∃ p, s.index.get e.idx.prev = some p := known_cases (hi.parent he).1

theorem anc_refl {s : Db L} {a} (h : Known env s a) : Anc env s a a := ⟨0, .here h⟩
theorem Spec.Anc.trans {s : Db L} {a b d} (h : Anc env s a b) (h' : Anc env s b d) : Anc env s a d := by
  obtain ⟨k, h⟩ := h; obtain ⟨m, h'⟩ := h'; exact ⟨k + m, BlockTree.Spec.Up.trans h h'⟩
theorem Spec.Anc.known_left {s : Db L} {a b} (h : Anc env s a b) : Known env s a := by obtain ⟨k, h⟩ := h; exact (BlockTree.Spec.Up.known h).1
theorem Spec.Anc.known_right {s : Db L} {a b} (h : Anc env s a b) : Known env s b := by obtain ⟨k, h⟩ := h; exact (BlockTree.Spec.Up.known h).2

theorem Spec.Anc.total {s : Db L} {a b d} (h : Anc env s a b) (h' : Anc env s a d) : Anc env s b d ∨ Anc env s d b := by
  obtain ⟨k, h⟩ := h; obtain ⟨m, h'⟩ := h'
  rcases Nat.le_total k m with hk | hk
  · exact .inl ⟨_, BlockTree.Spec.Up.split h h' hk⟩
  · exact .inr ⟨_, BlockTree.Spec.Up.split h' h hk⟩

/-- an ancestor is the block itself or an ancestor of its parent -/
theorem TInv.anc_iff {s : Db L} (hi : TInv env s) {a b e} (he : s.index.get a = some e) : Anc env s a b ↔ b = a ∨ Anc env s e.idx.prev b := by
  constructor
  · rintro ⟨k, h⟩
    cases h with
    | here _ => exact .inl rfl
    | step h1 h2 h3 => right; rw [hi.prev_eq he]; exact ⟨_, h3⟩
  · rintro (rfl | ⟨k, h⟩)
    · exact anc_refl (known_of_get he)
    · rw [hi.prev_eq he] at h
      exact ⟨k + 1, .step (hi.ne_genesis he) (by rw [tree_get, he]; rfl) h⟩

theorem TInv.anc_parent {s : Db L} (hi : TInv env s) {a e} (he : s.index.get a = some e) : Anc env s a e.idx.prev :=
  (hi.anc_iff he).2 (.inr (anc_refl (hi.parent he).1))

theorem anc_of_genesis {s : Db L} {b} (h : Anc env s env.tree.genesisId b) : b = env.tree.genesisId := by
  obtain ⟨k, h⟩ := h
  cases h with
  | here _ => rfl
  | step h1 _ _ => exact absurd rfl h1

/-- induction along parents -/
theorem TInv.induct {s : Db L} (hi : TInv env s) {P : Nat → Prop} (h0 : P env.tree.genesisId)
    (hs : ∀ id e, s.index.get id = some e → P e.idx.prev → P id) : ∀ id, Known env s id → P id := by
  suffices ∀ n id, Known env s id → height env s id = n → P id from fun id h => this _ id h rfl
  intro n
  induction n with
  | zero =>
    intro id hk hn
    rcases known_cases hk with rfl | ⟨e, he⟩
    · exact h0
    · have := (hi.parent he).2.1; omega
  | succ n ih =>
    intro id hk hn
    rcases known_cases hk with rfl | ⟨e, he⟩
    · exact h0
    · have := hi.parent he
      exact hs id e he (ih _ this.1 (by omega))

theorem TInv.anc_genesis {s : Db L} (hi : TInv env s) {a} (h : Known env s a) : Anc env s a env.tree.genesisId := by
  refine hi.induct (P := fun a => Anc env s a env.tree.genesisId) (anc_refl (known_genesis s)) ?_ a h
  intro id e he hp
  exact (hi.anc_iff he).2 (.inr hp)

theorem TInv.anc_height {s : Db L} (hi : TInv env s) {a b} (h : Anc env s a b) :
    height env s b ≤ height env s a ∧ (height env s b = height env s a → b = a) := by
  have hk := h.known_left
  revert h
  refine hi.induct (P := fun a => Anc env s a b → height env s b ≤ height env s a ∧ (height env s b = height env s a → b = a)) ?_ ?_ a hk
  · intro h; cases anc_of_genesis h; exact ⟨le_refl _, fun _ => rfl⟩
  · intro id e he ih h
    rcases (hi.anc_iff he).1 h with rfl | h
    · exact ⟨le_refl _, fun _ => rfl⟩
    · have := (hi.parent he).2.1
      have := (ih h).1
      exact ⟨by omega, fun h => by omega⟩
theorem TInv.anc_trust {s : Db L} (hi : TInv env s) {a b} (h : Anc env s a b) : trust env s b ≤ trust env s a := by
  have hk := h.known_left
  revert h
  refine hi.induct (P := fun a => Anc env s a b → trust env s b ≤ trust env s a) ?_ ?_ a hk
  · intro h; cases anc_of_genesis h; exact le_refl _
  · intro id e he ih h
    rcases (hi.anc_iff he).1 h with rfl | h
    · exact le_refl _
    · exact le_trans (ih h) (hi.parent he).2.2

theorem TInv.anc_antisymm {s : Db L} (hi : TInv env s) {a b} (h : Anc env s a b) (h' : Anc env s b a) : a = b := by
  have h1 := (hi.anc_height h).1
  have h2 := (hi.anc_height h').1
  exact ((hi.anc_height h).2 (by omega)).symm

/-- two ancestors of the same height are the same -/
theorem TInv.anc_unique {s : Db L} (hi : TInv env s) {a b d} (h : Anc env s a b) (h' : Anc env s a d) (hh : height env s b = height env s d) : b = d := by
  rcases h.total h' with h | h
  · exact ((hi.anc_height h).2 hh.symm).symm
  · exact (hi.anc_height h).2 hh

/-- there is an ancestor at every height not above -/
theorem TInv.anc_at {s : Db L} (hi : TInv env s) {a} (ha : Known env s a) : ∀ h ≤ height env s a, ∃ b, Anc env s a b ∧ height env s b = h := by
  refine hi.induct (P := fun a => ∀ h ≤ height env s a, ∃ b, Anc env s a b ∧ height env s b = h) ?_ ?_ a ha
  · intro h hh; rw [height_genesis] at hh
    exact ⟨_, anc_refl (known_genesis s), by rw [height_genesis]; omega⟩
  · intro id e he ih h hh
    have := (hi.parent he).2.1
    by_cases hc : h = height env s id
    · exact ⟨id, anc_refl (known_of_get he), hc.symm⟩
    · obtain ⟨b, h1, h2⟩ := ih h (by omega)
      exact ⟨b, (hi.anc_iff he).2 (.inr h1), h2⟩

/-- the last common ancestor -/
theorem TInv.forkPoint_ok {s : Db L} (hi : TInv env s) (hb : Known env s s.best) {id x} (hx : s.gen env id = some x) :
    ∃ z a, s.forkPoint env x = .ok z ∧ z.height = height env s a ∧ Anc env s id a ∧ Anc env s s.best a ∧
      ∀ b, Anc env s id b → Anc env s s.best b → Anc env s a b := by
  obtain ⟨y, hy⟩ := known_gen.1 hb
  obtain ⟨z, a, h1, h2, h3, h4, h5⟩ := lca_ok hi hx hy
  refine ⟨z, a, ?_, gen_height h2, h3, h4, h5⟩
  simp only [Db.forkPoint, Db.bestIndex, hy, okOr, bind, Except.bind, h1, liftTree]

/-! ### the tree grows -/

/-- every index of the first is in the second -/
def Grows (s s' : Db L) : Prop := ∀ id e, s.index.get id = some e → ∃ e', s'.index.get id = some e' ∧ e'.idx = e.idx

theorem Grows.sub {s s' : Db L} (h : Grows s s') : BlockTree.Sub s.tree s'.tree := by
  intro id i hi
  rw [tree_get] at hi ⊢
  cases he : s.index.get id with
  | none => rw [he] at hi; cases hi
  | some e =>
    rw [he] at hi; cases hi
    obtain ⟨e', h1, h2⟩ := h id e he
    rw [h1]; exact congrArg some h2

theorem grows_of_eq {s s' : Db L} (h : s'.tree = s.tree) : Grows s s' := by
  intro id e he
  have h1 : s'.tree.get id = s.tree.get id := by rw [h]
  rw [tree_get, tree_get, he] at h1
  cases he' : s'.index.get id with
  | none => rw [he'] at h1; cases h1
  | some e' => rw [he'] at h1; simp only [Option.map_some, Option.some.injEq] at h1; exact ⟨e', rfl, h1⟩

theorem Grows.known {s s' : Db L} (h : Grows s s') {id} (hk : Known env s id) : Known env s' id := known_sub h.sub hk

theorem Grows.gen {s s' : Db L} (h : Grows s s') {id} (hk : Known env s id) : s'.gen env id = s.gen env id := by
  obtain ⟨g, hg⟩ := known_gen.1 hk
  rw [hg]; exact getGen_sub h.sub hg

theorem Grows.height {s s' : Db L} (h : Grows s s') {id} (hk : Known env s id) : height env s' id = height env s id := by
  simp only [Spec.height, h.gen hk]
theorem Grows.trust {s s' : Db L} (h : Grows s s') {id} (hk : Known env s id) : trust env s' id = trust env s id := by
  simp only [Spec.trust, h.gen hk]

theorem Grows.anc_iff {s s' : Db L} (h : Grows s s') (hi : TInv env s) {a b} (ha : Known env s a) : Anc env s' a b ↔ Anc env s a b := by
  constructor
  · rintro ⟨k, hk⟩; exact ⟨k, up_back h.sub hi.closed hk ha⟩
  · rintro ⟨k, hk⟩; exact ⟨k, up_sub h.sub hk⟩

end Verif.Chainstate
