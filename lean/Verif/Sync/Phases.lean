import Verif.Sync.Base

/-!
# The phases of the download
-/

namespace Verif.Sync
open Verif Verif.Chainstate Verif.Chainstate.Spec
open Verif.BlockTree hiding Err

variable {L : Type} {env : Env L}

/-! ### runs -/

theorem Run.height_cons {s : Db L} (hs : SInv env s) {g b : Nat} {l : List Nat} (h : Run env s g (b :: l)) :
    Main env s g ∧ Main env s b ∧ height env s b = height env s g + 1 ∧ b ≠ env.tree.genesisId ∧ (env.tree.body b).prev = g ∧ Run env s b l := by
  cases h with
  | cons h1 h2 h3 h4 =>
    refine ⟨h1, h4.main, ?_, h2, h3, h4⟩
    obtain ⟨e, he⟩ := (known_cases h4.main.known_right).resolve_left h2
    have := (hs.i.tree.parent he).2.1
    rw [hs.i.tree.prev_eq he, h3] at this
    omega

theorem Run.append {s : Db L} (hs : SInv env s) : ∀ {a b : List Nat} {g : Nat}, Run env s g (a ++ b) → Run env s g a ∧ ∃ g', Run env s g' b ∧ height env s g' = height env s g + a.length
  | [], b, g, h => ⟨.nil h.main, g, h, rfl⟩
  | x :: a, b, g, h => by
    obtain ⟨h1, h2, h3, h4, h5, h6⟩ := Run.height_cons hs h
    obtain ⟨h7, g', h8, h9⟩ := Run.append hs h6
    refine ⟨.cons h1 h4 h5 h7, g', h8, ?_⟩
    rw [h9, h3, List.length_cons]; omega

theorem Run.linked {s : Db L} {g : Nat} {l : List Nat} (h : Run env s g l) : linked env l = true := by
  induction h with
  | nil => rfl
  | @cons g b l h1 h2 h3 h4 ih =>
    cases l with
    | nil => rfl
    | cons c l =>
      cases h4 with
      | cons _ _ h5 _ =>
        simp only [Sync.linked, Bool.and_eq_true, decide_eq_true_eq]
        exact ⟨h5, ih⟩

theorem Run.last {s : Db L} (hs : SInv env s) : ∀ {l : List Nat} {g b : Nat}, Run env s g l → l.getLast? = some b → Main env s b ∧ height env s b = height env s g + l.length
  | [], _, _, _, h => by cases h
  | [x], g, b, h, hl => by
    obtain ⟨h1, h2, h3, -⟩ := Run.height_cons hs h
    simp only [List.getLast?_singleton, Option.some.injEq] at hl
    subst hl
    exact ⟨h2, h3⟩
  | x :: y :: l, g, b, h, hl => by
    obtain ⟨h1, h2, h3, -, -, h4⟩ := Run.height_cons hs h
    have := Run.last hs h4 (by simpa using hl)
    refine ⟨this.1, ?_⟩
    rw [this.2, h3, List.length_cons, List.length_cons, List.length_cons]; omega

variable {lim : Limits} {n : Nat} {c s : Db L} {k : Nat}

theorem Base.split_run (h : Base env lim n c s k) : ∀ {l : List Nat} {g : Nat}, Run env s g l → Spec.height env s g ≤ k →
    splitKnown c l = (l.take (k - Spec.height env s g), l.drop (k - Spec.height env s g))
  | [], _, _, _ => by simp [splitKnown]
  | b :: l, g, hr, hg => by
    obtain ⟨h1, h2, h3, h4, h5, h6⟩ := Run.height_cons h.si hr
    unfold splitKnown
    by_cases hb : Spec.height env s b ≤ k
    · have hst : stored c b = true := by rw [h.split h2 h4]; exact decide_eq_true hb
      have ih := h.split_run h6 hb
      unfold splitKnown at ih
      rw [List.takeWhile_cons_of_pos hst, List.dropWhile_cons_of_pos hst]
      have hk : k - Spec.height env s g = (k - Spec.height env s b) + 1 := by omega
      rw [hk, List.take_succ_cons, List.drop_succ_cons]
      rw [Prod.mk.injEq] at ih ⊢
      exact ⟨by rw [ih.1], ih.2⟩
    · have hst : stored c b = false := by rw [h.split h2 h4]; exact decide_eq_false hb
      have hk : k - Spec.height env s g = 0 := by omega
      rw [hk, List.takeWhile_cons_of_neg (by simp [hst]), List.dropWhile_cons_of_neg (by simp [hst])]
      rfl

/-! ### the peer's best block -/

theorem chooseIdx_some {s1 s2 : Db L} (t1 : TInv env s1) (t2 : TInv env s2) {old : Option Nat} (ho : ∀ x, old = some x → Stored env s1 x) {y : Nat} {g : Gen}
    (hy : s2.gen env y = some g) :
    (chooseIdx env (old.bind (storedGen env s1)) (some g) = some y ∧ ∀ x, old = some x → trust env s1 x ≤ trust env s2 y) ∨
    (∃ x, old = some x ∧ chooseIdx env (old.bind (storedGen env s1)) (some g) = some x ∧ trust env s2 y < trust env s1 x) := by
  have hyi : g.id env.tree = y := t2.id_eq hy
  cases old with
  | none => left; simp [chooseIdx, hyi]
  | some x =>
    obtain ⟨gx, h1, h2, h3⟩ := storedGen_some t1 (ho x rfl)
    have e1 := gen_trust h2
    have e2 := gen_trust hy
    simp only [Option.bind_some, h1, chooseIdx]
    by_cases hc : gx.trust ≤ g.trust
    · left
      rw [if_pos hc, hyi]
      exact ⟨rfl, fun x' hx' => by cases hx'; omega⟩
    · right
      rw [if_neg hc, h3]
      exact ⟨x, rfl, rfl, by omega⟩

theorem chooseBest_some {s : Db L} (t : TInv env s) {old : Option Nat} (ho : ∀ x, old = some x → Stored env s x) {y : Nat} (hy : Stored env s y) :
    (chooseBest env s old (some y) = some y ∧ ∀ x, old = some x → trust env s x ≤ trust env s y) ∨
    (∃ x, old = some x ∧ chooseBest env s old (some y) = some x ∧ trust env s y < trust env s x) := by
  obtain ⟨g, h1, h2, -⟩ := storedGen_some t hy
  have := chooseIdx_some t t ho h2
  unfold chooseBest
  rw [Option.bind_some, h1]
  exact this

theorem chooseBest_none {s : Db L} (t : TInv env s) {old : Option Nat} (ho : ∀ x, old = some x → Stored env s x) : chooseBest env s old none = old := by
  cases old with
  | none => rfl
  | some x =>
    obtain ⟨gx, h1, h2, h3⟩ := storedGen_some t (ho x rfl)
    simp [chooseBest, chooseIdx, h1, h3]

/-- the answer to the locator of a block has fewer headers than allowed, or reaches a block of at least its trust -/
def Short (env : Env L) (lim : Limits) (c s : Db L) (x : Nat) : Prop :=
  ∀ loc g, locatorFromBlock env c x = .ok loc → FirstMain env s loc g →
    height env s s.best < height env s g + lim.headers ∨ ∃ b, Main env s b ∧ height env s b ≤ height env s g + lim.headers ∧ trust env c x ≤ trust env s b

/-- what is known about the client's idea of the server's best block -/
def PbOk (env : Env L) (lim : Limits) (c s : Db L) (pb : Option Nat) : Prop := ∀ x, pb = some x → Stored env c x ∧ (Main env s x ∨ Short env lim c s x)

theorem atHeights_unique {s1 s2 : Db L} (t1 : TInv env s1) (t2 : TInv env s2) {x : Nat} (k1 : Known env s1 x) (k2 : Known env s2 x) {hs l1 l2 : List Nat}
    (h1 : AtHeights env s1 x hs l1) (h2 : AtHeights env s2 x hs l2) : l1 = l2 := by
  unfold AtHeights at h1 h2
  induction h1 generalizing l2 with
  | nil => cases h2; rfl
  | @cons a y as ys e1 _ ih =>
    cases h2 with
    | cons e2 h2 =>
      rw [ih h2]
      congr 1
      have e3 := (anc_env t1 t2 k1 k2).2 e2.1
      exact t1.anc_unique e1.1 e3 (by rw [e1.2, height_env t1 t2 _ e3.known_right e2.1.known_right, e2.2])

theorem locator_agree {s1 s2 : Db L} (t1 : SInv env s1) (t2 : SInv env s2) {x : Nat} (k1 : Known env s1 x) (k2 : Known env s2 x) :
    locatorFromBlock env s1 x = locatorFromBlock env s2 x := by
  obtain ⟨l1, e1, a1⟩ := locatorFromBlock_ok t1 k1
  obtain ⟨l2, e2, a2⟩ := locatorFromBlock_ok t2 k2
  rw [← height_env t1.i.tree t2.i.tree x k1 k2] at a2
  rw [e1, e2, atHeights_unique t1.i.tree t2.i.tree k1 k2 a1 a2]

theorem Stored.grows {now : Now} {c c' : Db L} {b : Nat} {r : Option Entry} (hi : IBase env c) (ha : Accepted env now c c' b r) {x : Nat} (h : Stored env c x) : Stored env c' x := by
  rcases h with h | h
  · exact .inl h
  · right
    rw [stored_iff ha.iinv.toIBase, ha.blocks]
    rw [stored_iff hi] at h
    by_cases hx : x = b
    · subst hx; rw [BMap.get_insert_self]; rfl
    · rw [BMap.get_insert_ne _ _ hx]; exact h

theorem PbOk.grows {now : Now} {c c' : Db L} {b : Nat} {r : Option Entry} {pb : Option Nat} (hc : SInv env c) (ha : Accepted env now c c' b r) (h : PbOk env lim c s pb) :
    PbOk env lim c' s pb := by
  intro x hx
  obtain ⟨h1, h2⟩ := h x hx
  refine ⟨h1.grows hc.i.toIBase ha, ?_⟩
  rcases h2 with h2 | h2
  · exact .inl h2
  · right
    intro loc g hl hf
    rw [← locator_agree hc (ha.sinv hc) h1.known (ha.grows.known h1.known)] at hl
    rw [ha.grows.trust h1.known]
    exact h2 loc g hl hf

theorem PbOk.stored {pb : Option Nat} (h : PbOk env lim c s pb) : ∀ x, pb = some x → Stored env c x := fun x hx => (h x hx).1

/-! ### the invariant -/

/-- the distance of the client's idea of the server's best block from the tip -/
def Val (env : Env L) (s : Db L) (pb : Option Nat) (v : Nat) : Prop :=
  (∃ x, pb = some x ∧ Main env s x ∧ x ≠ env.tree.genesisId ∧ v = height env s s.best - height env s x) ∨
  ((∀ x, pb = some x → x = env.tree.genesisId ∨ ¬ Main env s x) ∧ v = height env s s.best + 1)

theorem val_exists (env : Env L) (s : Db L) (pb : Option Nat) : ∃ v, Val env s pb v ∧ v ≤ height env s s.best + 1 := by
  by_cases h : ∃ x, pb = some x ∧ Main env s x ∧ x ≠ env.tree.genesisId
  · obtain ⟨x, h1, h2, h3⟩ := h
    exact ⟨_, .inl ⟨x, h1, h2, h3, rfl⟩, by omega⟩
  · refine ⟨_, .inr ⟨?_, rfl⟩, Nat.le_refl _⟩
    intro x hx
    by_cases hg : x = env.tree.genesisId
    · exact .inl hg
    · exact .inr (fun hm => h ⟨x, hx, hm, hg⟩)

/-- headers that were asked for -/
structure Asked (env : Env L) (lim : Limits) (c s : Db L) (pb : Option Nat) (g : Nat) (l : List Nat) (v : Nat) : Prop where
  val : Val env s pb v
  here : ∀ x, pb = some x → Main env s x → x ≠ env.tree.genesisId → g = x
  short : ∀ x, pb = some x → ¬ Main env s x → l.length < lim.headers ∨ ∀ b, l.getLast? = some b → trust env c x ≤ trust env s b

/-- what holds in all phases -/
structure Common (env : Env L) (lim : Limits) (n : Nat) (s : Db L) (j : Link L) (k : Nat) : Prop where
  base : Base env lim n j.client s k
  server : j.server = s
  failed : j.failed = false
  pb : PbOk env lim j.client s j.cpeer.best

/-- what the server keeps about the client; `wire` are the blocks under way -/
structure Srv (env : Env L) (c s : Db L) (p : Peer) (wire : List Nat) : Prop where
  best : ∀ x, p.best = some x → Stored env s x ∧ Known env c x
  sent : ∀ e, p.bestSent = some e → Stored env s e.id ∧ e.height = height env s e.id ∧ (Known env c e.id ∨ e.id ∈ wire)

/-- the server has sent all headers and knows about a block of the client -/
def Told (p : Peer) : Prop := p.sentAll = true ∧ ∃ x, p.best = some x

/-- the phases: a request for headers is under way, headers are, a request for blocks is, blocks are, the end; the numbers decrease lexicographically -/
inductive Good (env : Env L) (lim : Limits) (n : Nat) (s : Db L) (j : Link L) : Nat → Nat → Nat → Prop
  | ask {k v : Nat} {loc : List Nat} : Common env lim n s j k → Srv env j.client s j.speer [] → j.cpeer.requested = [] → j.cpeer.pending = [] → j.speer.queue = [] →
      j.toServer = [.headerReq loc] → j.toClient = [] → requestLocator env j.client j.cpeer = .ok loc → Val env s j.cpeer.best v →
      Good env lim n s j (height env s s.best - k) v (2 * lim.blocks + 3)
  | answer {k v g : Nat} {l : List Nat} : Common env lim n s j k → Srv env j.client s j.speer [] → j.cpeer.requested = [] → j.cpeer.pending = [] → j.speer.queue = [] →
      j.toServer = [] → j.toClient = [.headers l] → Run env s g l → Known env j.client g → l.length = min lim.headers (height env s s.best - height env s g) →
      (Asked env lim j.client s j.cpeer.best g l v ∨ v = height env s s.best + 2) → (l.length < lim.headers → Told j.speer) → Good env lim n s j (height env s s.best - k) v (2 * lim.blocks + 2)
  | request {k g : Nat} : Common env lim n s j k → Srv env j.client s j.speer [] → j.cpeer.requested ≠ [] → j.cpeer.requested.length ≤ lim.blocks → j.speer.queue = [] →
      j.toServer = [.blockReq j.cpeer.requested] → j.toClient = [] → Run env s g (j.cpeer.requested ++ j.cpeer.pending) → height env s g = k →
      Good env lim n s j (height env s s.best - k) 0 (2 * lim.blocks + 1)
  | blocks {k g : Nat} {wire : List Nat} : Common env lim n s j k → Srv env j.client s j.speer wire → j.cpeer.requested = wire ++ j.speer.queue → j.cpeer.requested ≠ [] →
      j.cpeer.requested.length ≤ lim.blocks → j.toServer = [] → j.toClient = wire.map .block → Run env s g (j.cpeer.requested ++ j.cpeer.pending) → height env s g = k →
      Good env lim n s j (height env s s.best - k) 0 (2 * j.speer.queue.length + wire.length)
  | done {k : Nat} : Common env lim n s j k → Srv env j.client s j.speer [] → j.cpeer.requested = [] → j.cpeer.pending = [] → j.speer.queue = [] → j.toServer = [] → j.toClient = [] →
      k = height env s s.best → Told j.speer → Good env lim n s j 0 0 0

/-- the lexicographic order -/
def Less (a b : Nat × Nat × Nat) : Prop := Prod.Lex (· < ·) (Prod.Lex (· < ·) (· < ·)) a b

theorem less_wf : WellFounded Less := (Prod.lex ⟨_, Nat.lt_wfRel.wf⟩ (Prod.lex ⟨_, Nat.lt_wfRel.wf⟩ ⟨_, Nat.lt_wfRel.wf⟩)).wf

theorem less_iff {a b c a' b' c' : Nat} : Less (a, b, c) (a', b', c') ↔ a < a' ∨ a = a' ∧ (b < b' ∨ b = b' ∧ c < c') := by
  unfold Less
  rw [Prod.lex_iff, Prod.lex_iff]

end Verif.Sync
