import Verif.Sync.Spec
import Verif.Sync.QueryLemmas

/-!
# The client while it downloads the chain of the server
-/

namespace Verif.Sync
open Verif Verif.Chainstate Verif.Chainstate.Spec
open Verif.BlockTree hiding Err

variable {L : Type} {env : Env L}

/-- the client knows the blocks of the server's main chain up to the height `k` -/
structure Base (env : Env L) (lim : Limits) (n : Nat) (c s : Db L) (k : Nat) : Prop where
  ci : SInv env c
  si : SInv env s
  known : ∀ b, Main env s b → (Known env c b ↔ height env s b ≤ k)
  top : k ≤ height env s s.best
  ok : ∀ b, Main env s b → Known env c b → Ok env c b
  fork : ∃ f, Main env c f ∧ Main env s f ∧ max c.minHeight (height env c c.best - env.maxDepth) ≤ height env c f
  lim : Suffices lim n
  low : ∀ x, Known env c x → height env c x < 2 ^ n
  slow : height env s s.best < 2 ^ n

/-- genesis or a stored block -/
def Stored (env : Env L) (s : Db L) (x : Nat) : Prop := x = env.tree.genesisId ∨ stored s x = true

theorem stored_iff {s : Db L} (hi : IBase env s) {x : Nat} : stored s x = true ↔ (s.blocks.get x).isSome = true := by
  unfold stored
  constructor
  · intro h
    split at h
    · rename_i e he
      exact (hi.pers x e he).1 h
    · cases h
  · intro h
    obtain ⟨e, he⟩ := hi.blk x h
    rw [he]
    exact (hi.pers x e he).2 h

theorem ok_stored {s : Db L} (hi : IInv env s) {x : Nat} (h : Ok env s x) : Stored env s x := by
  by_cases hg : x = env.tree.genesisId
  · exact .inl hg
  · unfold Ok Db.genOk at h
    rw [if_neg hg] at h
    split at h
    · rename_i e he
      refine .inr ?_
      unfold stored
      rw [he]
      exact hi.okp x e he h
    · cases h

theorem Stored.known {s : Db L} {x : Nat} (h : Stored env s x) : Known env s x := by
  rcases h with rfl | h
  · exact known_genesis s
  · unfold stored at h
    split at h
    · rename_i e he; exact known_of_get he
    · cases h

theorem storedGen_some {s : Db L} (ht : TInv env s) {x : Nat} (h : Stored env s x) : ∃ g, storedGen env s x = some g ∧ s.gen env x = some g ∧ g.id env.tree = x := by
  obtain ⟨g, hg⟩ := known_gen.1 h.known
  refine ⟨g, ?_, hg, ht.id_eq hg⟩
  unfold storedGen
  by_cases hx : x = env.tree.genesisId
  · subst hx
    rw [gen_genesis] at hg
    cases hg
    rw [if_pos rfl]
  · rw [if_neg hx]
    rcases h with h | h
    · exact absurd h hx
    · unfold stored at h
      split at h
      · rename_i e he
        rw [if_pos h]
        rw [gen_block hx he] at hg
        exact hg
      · cases h

variable {lim : Limits} {n : Nat} {c s : Db L} {k : Nat}

theorem Base.stored_of (h : Base env lim n c s k) {b : Nat} (hb : Main env s b) (hk : height env s b ≤ k) : Stored env c b :=
  ok_stored h.ci.i (h.ok b hb ((h.known b hb).2 hk))

theorem Base.split (h : Base env lim n c s k) {b : Nat} (hb : Main env s b) (hg : b ≠ env.tree.genesisId) : stored c b = decide (height env s b ≤ k) := by
  by_cases hk : height env s b ≤ k
  · rw [decide_eq_true hk]
    exact (h.stored_of hb hk).resolve_left hg
  · rw [decide_eq_false hk]
    cases hs : stored c b with
    | false => rfl
    | true => exact absurd ((h.known b hb).1 (Stored.known (env := env) (.inr hs))) hk

theorem Base.height (h : Base env lim n c s k) {b : Nat} (hb : Main env s b) (hk : Known env c b) : height env c b = height env s b :=
  height_env h.ci.i.tree h.si.i.tree b hk hb.known_right

theorem Base.trust (h : Base env lim n c s k) {b : Nat} (hb : Main env s b) (hk : Known env c b) : trust env c b = trust env s b :=
  trust_env h.ci.i.tree h.si.i.tree b hk hb.known_right

/-- the block of the server's main chain at a height -/
theorem Base.at (h : Base env lim n c s k) {i : Nat} (hi : i ≤ Spec.height env s s.best) : ∃ b, Main env s b ∧ Spec.height env s b = i := by
  obtain ⟨b, -, h1, h2⟩ := main_at h.si hi
  exact ⟨b, h1, h2⟩

theorem main_unique {s : Db L} (hs : SInv env s) {a b : Nat} (ha : Main env s a) (hb : Main env s b) (hh : height env s a = height env s b) : a = b :=
  hs.i.tree.anc_unique ha hb hh

theorem main_trust {s : Db L} (hs : SInv env s) {a b : Nat} (ha : Main env s a) (hb : Main env s b) (hh : height env s a ≤ height env s b) : trust env s a ≤ trust env s b :=
  hs.i.tree.anc_trust (anc_of_le hs.i.tree hb ha hh)

/-- the next block of the server's main chain has no flaw -/
theorem Base.no_reason (h : Base env lim n c s k) {b : Nat} (hb : Main env s b) (hh : Spec.height env s b = k + 1) {now : Now} (h1 : now.check b = none)
    (h2 : ∀ x, now.fault x = false) {e : Chainstate.Err} : ¬ Reason env now c b e := by
  have hnk : ¬ Known env c b := by rw [h.known b hb]; omega
  have hbk := (h.si.i.tree.anc_height hb).1
  obtain ⟨p, p1, p2⟩ := h.at (i := k) h.top
  obtain ⟨p3, p4⟩ := main_next h.si p1 hb (by omega)
  have pk : Known env c p := (h.known p p1).2 (by omega)
  intro hr
  cases hr with
  | again h3 _ => exact hnk h3
  | bad h3 _ => exact hnk h3
  | orphan h3 => rw [p4] at h3; exact h3 pk
  | parent h3 h4 => rw [p4] at h4; exact h4 (h.ok p p1 pk)
  | deep h3 =>
    rw [p4] at h3
    obtain ⟨f, f1, f2, f3⟩ := h.fork
    refine h3 ⟨f, ?_, f1, by omega⟩
    rw [anc_env h.ci.i.tree h.si.i.tree pk p1.known_right]
    refine anc_of_le h.si.i.tree p1 f2 ?_
    rw [p2]
    exact (h.known f f2).1 f1.known_right
  | check h3 => rw [h1] at h3; cases h3
  | fault h3 => rw [h2] at h3; cases h3
  | invalid h3 => exact h3 (valid_anc h.si.i.tree hb ⟨_, h.si.m.led⟩)

theorem Base.check (h : Base env lim n c s k) {b : Nat} (hb : Main env s b) (hh : Spec.height env s b = k + 1) {now : Now} (h1 : now.check b = none)
    (h2 : ∀ x, now.fault x = false) : c.checkBlock env now b = .ok () := by
  have hnk : ¬ Known env c b := by rw [h.known b hb]; omega
  obtain ⟨p, p1, p2⟩ := h.at (i := k) h.top
  obtain ⟨p3, p4⟩ := main_next h.si p1 hb (by omega)
  cases hc : c.checkBlock env now b with
  | ok u => rfl
  | error e =>
    have hn : c.index.get b = none := by
      cases hi : c.index.get b with
      | none => rfl
      | some e => exact absurd (known_of_get hi) hnk
    exact absurd (checkBlock_err h.ci.i.tree h.ci.m.known hn (by rw [p4]; exact (h.known p p1).2 (by omega)) hc) (h.no_reason hb hh h1 h2)

/-- the client accepts the next block -/
theorem Base.process (hu : Undoes env) (h : Base env lim n c s k) {b : Nat} (hb : Main env s b) (hh : Spec.height env s b = k + 1) {now : Now} (h1 : now.check b = none)
    (h2 : ∀ x, now.fault x = false) : ∃ c' r, c.process env now b = (c', .ok r) ∧ Accepted env now c c' b r ∧ Base env lim n c' s (k + 1) := by
  obtain ⟨p, p1, p2⟩ := h.at (i := k) h.top
  obtain ⟨p3, p4⟩ := main_next h.si p1 hb (by omega)
  have hbt := (h.si.i.tree.anc_height hb).1
  rcases process_spec (now := now) hu h.ci.i h.ci.m p3 with ⟨c', r, e1, e2⟩ | ⟨c', e, e1, e2, e3, -⟩
  · refine ⟨c', r, e1, e2, ?_⟩
    have hci' := e2.sinv h.ci
    have hkn : ∀ x, Main env s x → (Known env c' x ↔ Spec.height env s x ≤ k + 1) := by
      intro x hx
      rw [e2.known, h.known x hx]
      constructor
      · rintro (h3 | rfl)
        · omega
        · omega
      · intro h3
        by_cases h4 : Spec.height env s x ≤ k
        · exact .inl h4
        · exact .inr (main_unique h.si hx hb (by omega))
    have hbk : Known env c' b := (e2.known b).2 (.inr rfl)
    have hbh : Spec.height env c' b = Spec.height env s b := height_env hci'.i.tree h.si.i.tree b hbk hb.known_right
    refine ⟨hci', h.si, hkn, by omega, ?_, ?_, h.lim, ?_, h.slow⟩
    · intro x hx hk
      show c'.genOk env x = true
      rw [e2.ok]
      rcases (e2.known x).1 hk with h3 | h3
      · exact .inl (h.ok x hx h3)
      · exact .inr h3
    · rcases e2.tip with ⟨e, -, -, t1, -⟩ | ⟨-, t1, -⟩
      · refine ⟨b, ?_, hb, ?_⟩
        · show Anc env c' c'.best b
          rw [t1]; exact anc_refl hbk
        · have := hci'.low
          rw [t1] at this ⊢
          omega
      · obtain ⟨f, f1, f2, f3⟩ := h.fork
        refine ⟨f, ?_, f2, ?_⟩
        · show Anc env c' c'.best f
          rw [t1]; exact (e2.grows.anc_iff h.ci.i.tree h.ci.m.known).2 f1
        · have hb' : Spec.height env c' c.best = Spec.height env c c.best := e2.grows.height h.ci.m.known
          rw [e2.minHeight, t1, hb', e2.grows.height f1.known_right]
          omega
    · intro x hx
      rcases (e2.known x).1 hx with h3 | rfl
      · rw [e2.grows.height h3]; exact h.low x h3
      · rw [hbh]; exact Nat.lt_of_le_of_lt hbt h.slow
  · exact absurd e3 (h.no_reason hb hh h1 h2)

theorem Base.of_compatible {c s : Db L} (hc : SInv env c) (hs : SInv env s) (h : Compatible env c s) (hl : Suffices lim n) (h1 : ∀ x, Known env c x → Spec.height env c x < 2 ^ n)
    (h2 : Spec.height env s s.best < 2 ^ n) : ∃ k, Base env lim n c s k := by
  -- the highest known block
  have hex : ∃ k, k ≤ Spec.height env s s.best ∧ (∃ b, Main env s b ∧ Spec.height env s b = k ∧ Known env c b) ∧
      ∀ b, Main env s b → Known env c b → Spec.height env s b ≤ k := by
    suffices hh : ∀ m, ∀ k, k ≤ Spec.height env s s.best → Spec.height env s s.best - k ≤ m → (∃ b, Main env s b ∧ Spec.height env s b = k ∧ Known env c b) →
        ∃ k, k ≤ Spec.height env s s.best ∧ (∃ b, Main env s b ∧ Spec.height env s b = k ∧ Known env c b) ∧
          ∀ b, Main env s b → Known env c b → Spec.height env s b ≤ k from
      hh _ 0 (Nat.zero_le _) (Nat.le_refl _) ⟨_, hs.i.tree.anc_genesis hs.m.known, height_genesis s, known_genesis c⟩
    intro m
    induction m with
    | zero =>
      intro k hk hm hb
      refine ⟨k, hk, hb, ?_⟩
      intro b hb _
      have := (hs.i.tree.anc_height hb).1
      omega
    | succ m ih =>
      intro k hk hm hb
      by_cases hx : ∃ b, Main env s b ∧ Known env c b ∧ k < Spec.height env s b
      · obtain ⟨b, b1, b2, b3⟩ := hx
        have := (hs.i.tree.anc_height b1).1
        exact ih (Spec.height env s b) this (by omega) ⟨b, b1, rfl, b2⟩
      · refine ⟨k, hk, hb, ?_⟩
        intro b b1 b2
        by_contra h3
        exact hx ⟨b, b1, b2, by omega⟩
  obtain ⟨k, k1, ⟨t, t1, t2, t3⟩, k3⟩ := hex
  refine ⟨k, hc, hs, ?_, k1, h.ok, h.fork, hl, h1, h2⟩
  intro b hb
  refine ⟨k3 b hb, ?_⟩
  intro hbk
  have h3 : Anc env s t b := anc_of_le hs.i.tree t1 hb (by omega)
  exact ((anc_env hc.i.tree hs.i.tree t3 t1.known_right).2 h3).known_right

end Verif.Sync
