import Verif.Sync.Session
import Verif.Sync.QueryProps
import Verif.Chainstate.Props

/-!
# C63: two connected nodes exchange blocks until the client knows the server's chain
-/

set_option maxRecDepth 100000

namespace Verif.Sync
open Verif Verif.Chainstate Verif.Chainstate.Spec

variable {L : Type} {env : Env L} {lim : Limits} {n : Nat} {P : Op → Prop}

/-- no message of either node is taken for an error by the other, and no node fails -/
theorem C63_no_error (hu : Undoes env) (hl : Suffices lim n) {j : Link L} (h : Session env lim n P j) : j.failed = false := by
  obtain ⟨_, _, _, hg⟩ := good_session hu hl h
  obtain ⟨k, hk⟩ := hg.common
  exact hk.failed

/-- the exchange ends: there is no infinite sequence of steps -/
theorem C63_terminates (hu : Undoes env) (hl : Suffices lim n) {j : Link L} (h : Session env lim n P j) : Terminates env lim (Fine env j.server) j := by
  obtain ⟨a, b, d, hg⟩ := good_session hu hl h
  exact Good.terminates hu (a, b, d) j hg

/-- when nothing is under way any more, the client has all blocks of the server's main chain, and none is invalid for it -/
theorem C63_synced (hu : Undoes env) (hl : Suffices lim n) {j : Link L} (h : Session env lim n P j) (hi : Idle env lim (Fine env j.server) j) :
    (∀ b, Main env j.server b → Known env j.client b ∧ Ok env j.client b ∧ (b = env.tree.genesisId ∨ (j.client.blocks.get b).isSome = true)) ∧
    j.toServer = [] ∧ j.toClient = [] ∧ j.cpeer.requested = [] ∧ j.cpeer.pending = [] ∧ j.speer.queue = [] := by
  obtain ⟨a, b, d, hg⟩ := good_session hu hl h
  obtain ⟨k, h0, -, h1, h2, h3, h4, h5, h6, -⟩ := hg.idle hi
  refine ⟨?_, h4, h5, h1, h2, h3⟩
  intro b hb
  have hbt := (h0.base.si.i.tree.anc_height hb).1
  have hk : Known env j.client b := (h0.base.known b hb).2 (by omega)
  refine ⟨hk, h0.base.ok b hb hk, ?_⟩
  rcases h0.base.stored_of hb (by omega) with h | h
  · exact .inl h
  · exact .inr ((stored_iff h0.base.ci.i.toIBase).1 h)

theorem noFault_of_process : ∀ op, IsProcess op → NoFault op := by
  intro op ho
  cases op with
  | process => trivial
  | invalidate => cases ho
  | reset => cases ho

/-- then the tip of the client has at least the trust of the server's tip -/
theorem C63_best (hu : Undoes env) (hl : Suffices lim n) {j : Link L} (h : Session env lim n NoFault j) (hi : Idle env lim (Fine env j.server) j) :
    trust env j.server j.server.best ≤ trust env j.client j.client.best := by
  obtain ⟨a, b, d, hg⟩ := good_session hu hl h
  obtain ⟨k, h0, -, -, -, -, -, -, h6, -⟩ := hg.idle hi
  have hb := h0.base
  obtain ⟨h1, -⟩ := session_later hu hl (P := NoFault) noFault_of_process h
  have hm := C36_max_trust hu h1
  have hk : Known env j.client j.server.best := (hb.known _ hb.si.main_best).2 (by omega)
  rw [← hb.trust hb.si.main_best hk]
  refine hm _ hk (hb.ok _ hb.si.main_best hk) ?_
  obtain ⟨f, f1, f2, f3⟩ := hb.fork
  exact ⟨f, (anc_env hb.si.i.tree hb.ci.i.tree hb.si.m.known hk).1 f2, f1, by omega⟩

/-- a new connection to a server whose chain has more trust: when the exchange has ended, both nodes have the same tip, main chain and ledger -/
theorem C63_switch (hu : Undoes env) (hl : Suffices lim n) {c s : Db L} (hc : Later env NoFault (Db.init env) c) (hs : Reach env s) (hcs : Compatible env c s)
    (h1 : ∀ x, Known env c x → height env c x < 2 ^ n) (h2 : height env s s.best < 2 ^ n) (ht : trust env c c.best < trust env s s.best)
    (hp : 0 < (env.tree.body s.best).proof) {j : Link L}
    (hst : Steps env lim (Fine env s) (connectLink env c s) j) (hi : Idle env lim (Fine env s) j) :
    j.server = s ∧ j.client.best = s.best ∧ j.client.ledger = s.ledger ∧ ∀ i, j.client.byHeight.get i = s.byHeight.get i := by
  obtain ⟨i1, i2, i3⟩ := steps_tip hu hl (.connect hc hs hcs h1 h2) hst
  have i2 : j.server = s := i2
  have i3 : j.client.best = c.best ∧ trust env j.client j.client.best = trust env c c.best ∨ Main env s j.client.best := i3
  subst i2
  have hb := C63_best hu hl i1 hi
  obtain ⟨a, b, d, hg⟩ := good_session hu hl i1
  obtain ⟨k, h0, -, -, -, -, -, -, h6, -⟩ := hg.idle hi
  have hci := h0.base.ci
  have hsi := h0.base.si
  have hbest : j.client.best = j.server.best := by
    rcases i3 with ⟨-, e⟩ | hm
    · omega
    · rw [h0.base.trust hm hci.m.known] at hb
      have hle := (hsi.i.tree.anc_height hm).1
      rcases Nat.lt_or_ge (height env j.server j.client.best) (height env j.server j.server.best) with hlt | hge
      · have hne : j.server.best ≠ env.tree.genesisId := by
          intro he; rw [he, height_genesis] at hlt; omega
        obtain ⟨e, he⟩ := (known_cases hsi.m.known).resolve_left hne
        obtain ⟨q, q1, q2, q3, -⟩ := (hsi.i.tree.good he).parent
        have q4 : j.server.gen env e.idx.prev = some q := q1
        have qk : Known env j.server e.idx.prev := known_gen.2 ⟨q, q4⟩
        have qm : Main env j.server e.idx.prev := by
          obtain ⟨y, y1, y2⟩ := hsi.i.tree.anc_at hsi.m.known (height env j.server j.server.best - 1) (by omega)
          have := (main_next hsi y1 hsi.main_best (by omega)).2
          rw [hsi.i.tree.prev_eq he, this]; exact y1
        have hpar := (hsi.i.tree.parent he).2.1
        have := main_trust hsi hm qm (by omega)
        rw [hsi.i.tree.trust_eq he, q3, gen_trust q4] at hb
        omega
      · exact (hsi.i.tree.anc_height hm).2 (by omega)
  refine ⟨rfl, hbest, ?_, ?_⟩
  · refine led_unique hci.m.led ?_
    rw [hbest]; exact hsi.m.led
  · intro i
    have hiff : ∀ x, j.client.byHeight.get i = some x ↔ j.server.byHeight.get i = some x := by
      intro x
      rw [hci.m.heights, hsi.m.heights]
      have hk : Known env j.client j.server.best := hbest ▸ hci.m.known
      unfold Main
      rw [hbest, anc_env hci.i.tree hsi.i.tree hk hsi.m.known]
      constructor
      · rintro ⟨m1, m2⟩
        exact ⟨m1, by rw [← m2, height_env hci.i.tree hsi.i.tree x ((anc_env hci.i.tree hsi.i.tree hk hsi.m.known).2 m1).known_right m1.known_right]⟩
      · rintro ⟨m1, m2⟩
        exact ⟨m1, by rw [← m2, height_env hci.i.tree hsi.i.tree x ((anc_env hci.i.tree hsi.i.tree hk hsi.m.known).2 m1).known_right m1.known_right]⟩
    exact Option.ext hiff

/-! ### example -/

/-- a node that handles the first message under way or sends a block -/
def tick (env : Env L) (lim : Limits) (j : Link L) : Link L :=
  match j.toServer with
  | m :: ms => { j with
      server := (handle env lim {} j.server j.speer m).db
      speer := (handle env lim {} j.server j.speer m).peer
      toServer := ms
      toClient := j.toClient ++ (handle env lim {} j.server j.speer m).sent
      failed := j.failed || (handle env lim {} j.server j.speer m).err.isSome }
  | [] =>
    match j.toClient with
    | m :: ms => { j with
        client := (handle env lim {} j.client j.cpeer m).db
        cpeer := (handle env lim {} j.client j.cpeer m).peer
        toClient := ms
        toServer := (handle env lim {} j.client j.cpeer m).sent
        failed := j.failed || (handle env lim {} j.client j.cpeer m).err.isSome }
    | [] => if j.speer.queue.isEmpty then j else { j with
        server := (sendBlock env j.server j.speer).db
        speer := (sendBlock env j.server j.speer).peer
        toClient := (sendBlock env j.server j.speer).sent
        failed := j.failed || (sendBlock env j.server j.speer).err.isSome }

/-- some steps -/
def ticks (env : Env L) (lim : Limits) : Nat → Link L → Link L
  | 0, j => j
  | k + 1, j => ticks env lim k (tick env lim j)

/-- nothing is under way -/
def quiet (j : Link L) : Bool := j.toServer.isEmpty && j.toClient.isEmpty && j.speer.queue.isEmpty

theorem tick_step {Q : Ctx → Prop} (hQ : Q {}) (j : Link L) : tick env lim j = j ∨ Step env lim Q j (tick env lim j) := by
  unfold tick
  split
  · next h => exact .inr (Step.server {} h rfl)
  · next h =>
    split
    · next h1 =>
      right
      have := Step.client (env := env) (lim := lim) {} h1 hQ
      rwa [h, List.nil_append] at this
    · next h1 =>
      split
      · exact .inl rfl
      · next h2 =>
        right
        have := Step.send (env := env) (lim := lim) (P := Q) (j := j) (by intro he; rw [he] at h2; exact h2 rfl)
        rwa [h1, List.nil_append] at this

theorem quiet_idle {Q : Ctx → Prop} {j : Link L} (h : quiet j = true) : Idle env lim Q j := by
  simp only [quiet, Bool.and_eq_true, List.isEmpty_iff] at h
  obtain ⟨⟨h1, h2⟩, h3⟩ := h
  intro j' hst
  cases hst with
  | server _ hm => rw [h1] at hm; cases hm
  | send hq => exact hq h3
  | client _ hm => rw [h2] at hm; cases hm

theorem session_ticks : ∀ (k : Nat) {j : Link L}, Session env lim n P j → Session env lim n P (ticks env lim k j)
  | 0, _, h => h
  | k + 1, j, h => by
    refine session_ticks k ?_
    rcases tick_step (env := env) (lim := lim) (fine_default env j.server) j with e | e
    · rw [e]; exact h
    · exact .step h e

theorem steps_ticks {Q : Ctx → Prop} (hQ : Q {}) : ∀ (k : Nat) (j : Link L), Steps env lim Q j (ticks env lim k j)
  | 0, _ => .refl
  | k + 1, j => by
    have h := steps_ticks hQ k (tick env lim j)
    rcases tick_step (env := env) (lim := lim) hQ j with e | e
    · rw [e] at h; simpa [ticks, e] using h
    · exact .head e h

theorem compatible_of {c s : Db L} (hc : SInv env c) (hs : SInv env s) (f : Nat) (h1 : c.index.entries.all (fun p => p.2.status.ok) = true) (h2 : c.inMain env f = true)
    (h3 : s.inMain env f = true) (h4 : max c.minHeight (height env c c.best - env.maxDepth) ≤ height env c f) : Compatible env c s := by
  refine ⟨?_, f, (inMain_iff hc f).1 h2, (inMain_iff hs f).1 h3, h4⟩
  intro b _ hk
  rcases known_cases hk with rfl | ⟨e, he⟩
  · exact hc.m.main_ok (hc.i.tree.anc_genesis hc.m.known)
  · have := List.all_eq_true.1 h1 _ (BMap.mem_entries.2 he)
    unfold Ok
    rw [genOk_block (hc.i.tree.ne_genesis he) he]
    exact this

theorem low_of {c : Db L} (hc : SInv env c) (h : c.index.entries.all (fun p => decide (p.2.idx.height < 2 ^ n)) = true) : ∀ x, Known env c x → height env c x < 2 ^ n := by
  intro x hk
  rcases known_cases hk with rfl | ⟨e, he⟩
  · rw [height_genesis]; exact Nat.two_pow_pos n
  · have := List.all_eq_true.1 h _ (BMap.mem_entries.2 he)
    rw [hc.i.tree.height_eq he]
    exact of_decide_eq_true this

/-- limits of the example -/
def qLim : Limits := ⟨3, 2, 10⟩

theorem qLim_suffices : Suffices qLim 8 := ⟨by decide, by decide, by decide⟩

theorem qRun_noFault : ∀ ids : List Nat, (∀ x ∈ ids, x ≠ 0) → Later qEnv NoFault (Db.init qEnv) (qRun ids) := by
  suffices h : ∀ (ids : List Nat) (s : Db (List Nat)), Later qEnv NoFault (Db.init qEnv) s → (∀ x ∈ ids, x ≠ 0) →
      Later qEnv NoFault (Db.init qEnv) (ids.foldl (fun s id => step qEnv s (.process id {})) s) from fun ids hi => h ids _ .refl hi
  intro ids
  induction ids with
  | nil => intro s hs _; exact hs
  | cons a ids ih =>
    intro s hs h
    exact ih _ (Later.step _ hs trivial (h a (by simp))) (fun x hx => h x (by simp [hx]))

/-- a client on the branch connects to a server on the longer chain -/
def qLink : Link (List Nat) := connectLink qEnv (qRun [1, 2, 3, 104, 105, 106]) (qRun [1, 2, 3, 4, 5, 6, 7, 8, 9])

theorem qLink_session : Session qEnv qLim 8 NoFault qLink := by
  have h1 : Reach qEnv (qRun [1, 2, 3, 104, 105, 106]) := qRun_reach _ (by decide)
  have h2 : Reach qEnv (qRun [1, 2, 3, 4, 5, 6, 7, 8, 9]) := qRun_reach _ (by decide)
  exact .connect (qRun_noFault _ (by decide)) h2
    (compatible_of (reach_sinv qEnv_undoes h1) (reach_sinv qEnv_undoes h2) 3 (by decide +kernel) (by decide +kernel) (by decide +kernel) (by decide +kernel))
    (low_of (reach_sinv qEnv_undoes h1) (by decide +kernel)) (by decide +kernel)

/-- the exchange: after 24 steps nothing is under way and both nodes have the same tip -/
example : quiet (ticks qEnv qLim 24 qLink) = true ∧ quiet (ticks qEnv qLim 23 qLink) = false ∧ (ticks qEnv qLim 24 qLink).client.best = 9 ∧ qLink.client.best = 106 ∧
    (ticks qEnv qLim 24 qLink).client.ledger = [9, 8, 7, 6, 5, 4, 3, 2, 1] ∧ (ticks qEnv qLim 24 qLink).failed = false := by decide +kernel

/-- more blocks for a node -/
def qMore (s : Db (List Nat)) (ids : List Nat) : Db (List Nat) := ids.foldl (fun s id => step qEnv s (.process id {})) s

theorem qMore_later : ∀ (ids : List Nat) (s : Db (List Nat)), (∀ x ∈ ids, x ≠ 0) → Later qEnv IsProcess s (qMore s ids) := by
  suffices h : ∀ (ids : List Nat) (s0 s : Db (List Nat)), Later qEnv IsProcess s0 s → (∀ x ∈ ids, x ≠ 0) → Later qEnv IsProcess s0 (qMore s ids) from fun ids s hi => h ids s s .refl hi
  intro ids
  induction ids with
  | nil => intro s0 s hs _; exact hs
  | cons a ids ih =>
    intro s0 s hs h
    exact ih s0 _ (Later.step _ hs trivial (h a (by simp))) (fun x hx => h x (by simp [hx]))

/-- then the server gets two more blocks and announces them -/
def qNext : Link (List Nat) := change qEnv qLim (ticks qEnv qLim 24 qLink) (ticks qEnv qLim 24 qLink).client (qMore (ticks qEnv qLim 24 qLink).server [10, 11])

theorem qNext_session : Session qEnv qLim 8 NoFault qNext := by
  have h0 := session_ticks 24 qLink_session
  obtain ⟨h1, h2⟩ := session_later qEnv_undoes qLim_suffices noFault_of_process h0
  have h3 := reach_sinv qEnv_undoes (later_mono (fun _ _ => trivial) h1)
  have h4 := qMore_later [10, 11] (ticks qEnv qLim 24 qLink).server (by decide)
  have h5 := later_sinv qEnv_undoes (reach_sinv qEnv_undoes h2) h4
  refine .change h0 (quiet_idle (by decide +kernel)) .refl (later_mono (fun _ _ => trivial) h4)
    (compatible_of h3 h5 3 (by decide +kernel) (by decide +kernel) (by decide +kernel) (by decide +kernel)) (low_of h3 (by decide +kernel)) (by decide +kernel) ?_
  intro x hx
  have : (ticks qEnv qLim 24 qLink).cpeer.best = some 9 := by decide +kernel
  rw [this] at hx
  cases hx
  exact .inl ((inMain_iff h5 9).1 (by decide +kernel))

example : qNext.toClient = [.headers [10, 11]] ∧ quiet (ticks qEnv qLim 10 qNext) = true ∧ (ticks qEnv qLim 10 qNext).client.best = 11 := by decide +kernel

/-! ### finding -/

/-- two headers and blocks in a message -/
def sLim : Limits := ⟨2, 2, 10⟩

/-- a client downloads the branch from a server -/
def sLink : Link (List Nat) := ticks qEnv sLim 30 (connectLink qEnv (qRun [1]) (qRun [1, 2, 3, 104, 105, 106, 107]))

theorem sLink_session : Session qEnv sLim 8 NoFault sLink := by
  have h1 : Reach qEnv (qRun [1]) := qRun_reach _ (by decide)
  have h2 : Reach qEnv (qRun [1, 2, 3, 104, 105, 106, 107]) := qRun_reach _ (by decide)
  refine session_ticks 30 (.connect (qRun_noFault _ (by decide)) h2
    (compatible_of (reach_sinv qEnv_undoes h1) (reach_sinv qEnv_undoes h2) 1 (by decide +kernel) (by decide +kernel) (by decide +kernel) (by decide +kernel))
    (low_of (reach_sinv qEnv_undoes h1) (by decide +kernel)) (by decide +kernel))

/-- then the server switches to the longer chain -/
def sChain : Db (List Nat) := qMore sLink.server [4, 5, 6, 7, 8, 9]

deriving instance DecidableEq for Peer
deriving instance DecidableEq for Db
deriving instance DecidableEq for Link

/-- the nodes after some steps -/
def sLoop : Link (List Nat) := ticks qEnv sLim 7 (change qEnv sLim sLink sLink.client sChain)

/-- the same nodes without the condition on the lengths of branches: the client does not get all blocks of the server's new chain, but the same request and answer go back
and forth for ever (the last header of the answer has less trust than the block the client asks with) -/
theorem C63_endless_finding : Suffices sLim 8 ∧ Session qEnv sLim 8 NoFault sLink ∧ Idle qEnv sLim (Fine qEnv sLink.server) sLink ∧ Later qEnv AnyOp sLink.server sChain ∧
    Compatible qEnv sLink.client sChain ∧ Steps qEnv sLim (Fine qEnv sChain) (change qEnv sLim sLink sLink.client sChain) sLoop ∧ ¬ Known qEnv sLoop.client sChain.best ∧
    ∃ j, Step qEnv sLim (Fine qEnv sChain) sLoop j ∧ Step qEnv sLim (Fine qEnv sChain) j sLoop := by
  obtain ⟨h1, h2⟩ := session_later qEnv_undoes ⟨by decide, by decide, by decide⟩ noFault_of_process sLink_session
  have h3 := reach_sinv qEnv_undoes (later_mono (fun _ _ => trivial) h1)
  have h4 : Later qEnv IsProcess sLink.server sChain := qMore_later [4, 5, 6, 7, 8, 9] sLink.server (by decide)
  have h5 := later_sinv qEnv_undoes (reach_sinv qEnv_undoes h2) h4
  refine ⟨⟨by decide, by decide, by decide⟩, sLink_session, quiet_idle (by decide +kernel), later_mono (fun _ _ => trivial) h4, ?_, steps_ticks (fine_default _ _) 7 _, ?_,
    tick qEnv sLim sLoop, ?_, ?_⟩
  · exact compatible_of h3 h5 3 (by decide +kernel) (by decide +kernel) (by decide +kernel) (by decide +kernel)
  · rw [known_gen]
    rintro ⟨g, hg⟩
    have : (sLoop.client.gen qEnv sChain.best).isNone = true := by decide +kernel
    rw [hg] at this
    cases this
  · exact (tick_step (fine_default _ _) sLoop).resolve_left (fun e => by
      have : (tick qEnv sLim sLoop).toServer = sLoop.toServer := by rw [e]
      revert this
      decide +kernel)
  · have h6 := (tick_step (env := qEnv) (lim := sLim) (fine_default qEnv sChain) (tick qEnv sLim sLoop)).resolve_left (fun e => by
      have : (tick qEnv sLim (tick qEnv sLim sLoop)).toServer = (tick qEnv sLim sLoop).toServer := by rw [e]
      revert this
      decide +kernel)
    have h7 : tick qEnv sLim (tick qEnv sLim sLoop) = sLoop := by decide +kernel
    rwa [h7] at h6

end Verif.Sync
