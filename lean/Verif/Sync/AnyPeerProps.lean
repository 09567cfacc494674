import Verif.Sync.AnyPeer
import Verif.Sync.Props

/-!
# C64: whatever a peer sends, the node keeps working and keeps its limits
-/

set_option maxRecDepth 100000

namespace Verif.Sync
open Verif Verif.Chainstate Verif.Chainstate.Spec

variable {L : Type} {env : Env L} {lim : Limits}

/-- the invariant of a node -/
structure NInv (env : Env L) (lim : Limits) (x : Node L) : Prop where
  peer : PInv env lim x.db x.peer
  reach : Reach env x.db
  heard : ∀ b ∈ x.peer.requested ++ x.peer.pending, b ∈ x.heard
  fifo : x.asked = x.served ++ x.peer.queue

theorem blocksOf_ok {s : Db L} {l : List Msg} (h : ∀ m ∈ l, MsgOk env lim s m) : blocksOf l = [] := by
  unfold blocksOf
  rw [List.filterMap_eq_nil_iff]
  intro m hm
  have := h m hm
  cases m with
  | block => cases this
  | _ => rfl

theorem handle_queue (ctx : Ctx) (s : Db L) (p : Peer) (m : Msg) :
    (handle env lim ctx s p m).peer.queue = if (handle env lim ctx s p m).err.isSome || ctx.ibd then p.queue else p.queue ++ m.asks := by
  have hrh : ∀ q : Peer, (requestHeaders env s q).peer = q := by intro q; unfold requestHeaders; split <;> rfl
  have hrh' : ∀ (s : Db L) (q : Peer), (requestHeaders env s q).peer = q := by intro s q; unfold requestHeaders; split <;> rfl
  have hcs : ∀ (s : Db L) (q : Peer), (continueSync env lim s q).peer.queue = q.queue := by
    intro s q
    unfold continueSync
    split
    · dsimp only
      split
      · rw [hrh']
      · rfl
    · rfl
  cases m with
  | headerReq loc =>
    have : (handle env lim ctx s p (.headerReq loc)).peer.queue = p.queue := by
      simp only [handle, handleHeaderReq]
      repeat' split
      all_goals rfl
    rw [this]
    simp [Msg.asks]
  | headers l =>
    have : (handle env lim ctx s p (.headers l)).peer.queue = p.queue := by
      simp only [handle, handleHeaders]
      repeat' split
      all_goals first | rfl | (rw [hrh])
    rw [this]
    simp [Msg.asks]
  | blockReq ids =>
    simp only [handle, handleBlockReq, Msg.asks]
    split
    · simp
    · split
      · next h => simp [h]
      · next h =>
        split
        · simp
        · split
          · simp
          · split
            · simp
            · simp [h]
  | block id =>
    have : (handle env lim ctx s p (.block id)).peer.queue = p.queue := by
      simp only [handle, handleBlock]
      split
      · rfl
      · split
        · rfl
        · split
          · rfl
          · rw [hcs]
    rw [this]
    simp [Msg.asks]

theorem ninv_step (hu : Undoes env) (hlim : 0 < lim.blocks) {x y : Node L} {out : List Msg} (h : NInv env lim x) (hst : NStep env lim x out y) : NInv env lim y := by
  cases hst with
  | msg ctx m hm =>
    have ho := handle_out hu hlim h.peer ctx m hm
    refine ⟨ho.inv, ?_, ?_, ?_⟩
    · rcases handle_db (env := env) (lim := lim) ctx x.db x.peer m with e | ⟨id, rfl, -, -, -, e⟩
      · show Reach env (handle env lim ctx x.db x.peer m).db
        rw [e]; exact h.reach
      · show Reach env (handle env lim ctx x.db x.peer (.block id)).db
        rw [e]; exact .step _ h.reach trivial hm
    · intro b hb
      show b ∈ x.heard ++ m.heard
      rcases ho.asks b hb with h1 | h1
      · exact List.mem_append_left _ (h.heard b h1)
      · exact List.mem_append_right _ h1
    · show (if (handle env lim ctx x.db x.peer m).err.isSome || ctx.ibd then x.asked else x.asked ++ m.asks) =
        (x.served ++ blocksOf (handle env lim ctx x.db x.peer m).sent) ++ (handle env lim ctx x.db x.peer m).peer.queue
      rw [blocksOf_ok ho.sent, handle_queue, h.fifo]
      split <;> simp
  | send hq =>
    cases hqq : x.peer.queue with
    | nil => exact absurd hqq hq
    | cons id q =>
      obtain ⟨e, e1, e2⟩ := sendBlock_ok h.peer hqq
      rw [e1]
      have hql := h.peer.queue
      rw [hqq, List.length_cons] at hql
      refine ⟨⟨h.peer.sinv, h.peer.pending, h.peer.requested, by dsimp only; omega, ?_, h.peer.best, e2⟩, h.reach, h.heard, ?_⟩
      · intro b hb
        exact h.peer.stored b (by rw [hqq]; exact List.mem_cons_of_mem _ hb)
      · dsimp only
        rw [h.fifo, hqq]
        simp [blocksOf]
  | tip t =>
    rcases handleNewTip_ok h.peer t with e | ⟨g, l, e, -, -, -⟩
    · rw [e]; exact ⟨h.peer, h.reach, h.heard, h.fifo⟩
    · rw [e]
      exact ⟨⟨h.peer.sinv, h.peer.pending, h.peer.requested, h.peer.queue, h.peer.stored, h.peer.best, h.peer.sent⟩, h.reach, h.heard, h.fifo⟩
  | chain hs => exact ⟨h.peer.chain hu hs, later_trans h.reach hs, h.heard, h.fifo⟩

theorem ninv_reach (hu : Undoes env) (hlim : 0 < lim.blocks) {x : Node L} (h : NReach env lim x) : NInv env lim x := by
  induction h with
  | @connect c hc =>
    have hp : PInv env lim c {} := ⟨reach_sinv hu hc, by simp, by simp, by simp, by simp, by simp, by simp⟩
    obtain ⟨loc, y, h1, -, -⟩ := requestHeaders_ok hp
    rw [h1]
    exact ⟨hp, hc, by simp, rfl⟩
  | step _ hst ih => exact ninv_step hu hlim ih hst

/-- the node keeps no more headers, requested blocks and queued blocks than the limits allow -/
theorem C64_bounds (hu : Undoes env) (hlim : 0 < lim.blocks) {x : Node L} (h : NReach env lim x) :
    x.peer.pending.length ≤ lim.headers ∧ x.peer.requested.length ≤ lim.blocks ∧ x.peer.queue.length ≤ lim.blocks :=
  have hi := (ninv_reach hu hlim h).peer
  ⟨hi.pending, hi.requested, hi.queue⟩

/-- asking for headers, sending a queued block and announcing a tip never fail: these are the actions whose failure would stop the node -/
theorem C64_no_failure (hu : Undoes env) (hlim : 0 < lim.blocks) {x : Node L} (h : NReach env lim x) :
    (requestHeaders env x.db x.peer).err = none ∧ (sendBlock env x.db x.peer).err = none ∧ ∀ t, (handleNewTip env lim x.db x.peer t).err = none := by
  have hi := (ninv_reach hu hlim h).peer
  refine ⟨?_, ?_, ?_⟩
  · obtain ⟨loc, y, h1, -⟩ := requestHeaders_ok hi
    rw [h1]
  · cases hq : x.peer.queue with
    | nil => simp [sendBlock, hq]
    | cons id q =>
      obtain ⟨e, h1, -⟩ := sendBlock_ok hi hq
      rw [h1]
  · intro t
    rcases handleNewTip_ok hi t with e | ⟨g, l, e, -⟩
    · rw [e]
    · rw [e]; rfl

/-- every action leads to at most one message; it is the locator of a known block, a run of main-chain headers within the limit, a request for some blocks within the limit, or
a stored block that the peer asked for -/
theorem C64_messages (hu : Undoes env) (hlim : 0 < lim.blocks) {x y : Node L} {out : List Msg} (h : NReach env lim x) (hst : NStep env lim x out y) :
    out.length ≤ 1 ∧ ∀ m ∈ out, match m with
      | .headerReq loc => ∃ b, Known env y.db b ∧ IsLocator env y.db b loc
      | .headers l => l.length ≤ lim.headers ∧ ∃ g, Run env y.db g l
      | .blockReq ids => ids ≠ [] ∧ ids.length ≤ lim.blocks ∧ ∀ b ∈ ids, b ∈ y.heard
      | .block b => b ∈ x.asked ∧ (y.db.blocks.get b).isSome = true := by
  have hi := ninv_reach hu hlim h
  have hy := ninv_reach hu hlim (.step h hst)
  cases hst with
  | msg ctx m hm =>
    have ho := handle_out hu hlim hi.peer ctx m hm
    refine ⟨ho.few, ?_⟩
    intro k hk
    have hok := ho.sent k hk
    cases k with
    | headerReq loc => exact hok
    | headers l => obtain ⟨g, g1, g2⟩ := hok; exact ⟨g2, g, g1⟩
    | blockReq ids =>
      refine ⟨hok.1, hok.2, ?_⟩
      intro b hb
      have hreq : ids = (handle env lim ctx x.db x.peer m).peer.requested := by
        have hrh : ∀ (s : Db L) (q : Peer), Msg.blockReq ids ∉ (requestHeaders env s q).sent := by
          intro s q; unfold requestHeaders; split <;> simp
        have hcs : ∀ (s : Db L) (q : Peer), Msg.blockReq ids ∈ (continueSync env lim s q).sent → ids = (continueSync env lim s q).peer.requested := by
          intro s q
          unfold continueSync
          split
          · dsimp only
            split
            · intro hk; exact absurd hk (hrh _ _)
            · intro hk
              simp only [requestBlocks, List.mem_singleton, Msg.blockReq.injEq] at hk ⊢
              exact hk
          · intro hk; cases hk
        revert hk
        cases m with
        | headerReq loc =>
          simp only [handle, handleHeaderReq]
          repeat' split
          all_goals simp [sendHeaders]
        | headers l =>
          simp only [handle, handleHeaders]
          repeat' split
          all_goals first
            | (intro hk; exact absurd hk (hrh _ _))
            | (intro hk; simp only [requestBlocks, List.mem_singleton, Msg.blockReq.injEq] at hk ⊢; exact hk)
            | (intro hk; cases hk)
        | blockReq ids =>
          simp only [handle, handleBlockReq]
          repeat' split
          all_goals simp
        | block id =>
          simp only [handle, handleBlock]
          split
          · intro hk; cases hk
          · split
            · intro hk; cases hk
            · split
              · intro hk; cases hk
              · exact hcs _ _
      refine hy.heard b (List.mem_append_left _ ?_)
      rw [hreq] at hb
      exact hb
    | block id => cases hok
  | send hq =>
    cases hqq : x.peer.queue with
    | nil => exact absurd hqq hq
    | cons id q =>
      obtain ⟨e, e1, e2⟩ := sendBlock_ok hi.peer hqq
      rw [e1]
      refine ⟨by simp, ?_⟩
      intro k hk
      rw [List.mem_singleton] at hk
      subst hk
      refine ⟨by rw [hi.fifo, hqq]; simp, ?_⟩
      exact (stored_iff hi.peer.sinv.i.toIBase).1 (hi.peer.stored id (by rw [hqq]; simp))
  | tip t =>
    rcases handleNewTip_ok hi.peer t with e | ⟨g, l, e, e2, e3, e4⟩
    · rw [e]; exact ⟨by simp, by simp⟩
    · rw [e]
      refine ⟨by simp [sendHeaders], ?_⟩
      intro k hk
      simp only [sendHeaders, List.mem_singleton] at hk
      subst hk
      exact ⟨e3, g, e2⟩
  | chain hs => exact ⟨by simp, by simp⟩

/-- a message changes the chain only if it is the block that was requested next; the block was announced by the peer, was not stored and passed the preliminary check, and is
then processed like any other block.  A block out of order or not requested is an error and changes nothing -/
theorem C64_solicited (hu : Undoes env) (hlim : 0 < lim.blocks) {x : Node L} (h : NReach env lim x) (ctx : Ctx) (m : Msg) :
    (handle env lim ctx x.db x.peer m).db = x.db ∨ ∃ id, m = .block id ∧ x.peer.requested.head? = some id ∧ id ∈ x.heard ∧ stored x.db id = false ∧
      x.db.checkBlock env ctx.now id = .ok () ∧ (handle env lim ctx x.db x.peer m).db = (x.db.process env ctx.now id).1 := by
  have hi := ninv_reach hu hlim h
  rcases handle_db (env := env) (lim := lim) ctx x.db x.peer m with e | ⟨id, h1, h2, h3, h4, h5⟩
  · exact .inl e
  · exact .inr ⟨id, h1, h2, hi.heard id (List.mem_append_left _ (List.mem_of_mem_head? (by rw [h2]; rfl))), h3, h4, h5⟩

/-- the chain state of the node stays one that is reached by processing, invalidating and resetting blocks: all that C36 says about it holds -/
theorem C64_chain (hu : Undoes env) (hlim : 0 < lim.blocks) {x : Node L} (h : NReach env lim x) : Reach env x.db := (ninv_reach hu hlim h).reach

/-- the blocks sent are those asked for in accepted requests, in the same order, each as often as it was asked for; the others are queued -/
theorem C64_served (hu : Undoes env) (hlim : 0 < lim.blocks) {x : Node L} (h : NReach env lim x) : x.asked = x.served ++ x.peer.queue := (ninv_reach hu hlim h).fifo

/-! ### example -/

/-- a node handles messages -/
def nMsgs (x : Node (List Nat)) (l : List Msg) : Node (List Nat) := l.foldl (fun x m => x.after {} m (handle qEnv qLim {} x.db x.peer m)) x

theorem nMsgs_reach : ∀ (l : List Msg) {x : Node (List Nat)}, NReach qEnv qLim x → (∀ m ∈ l, m.Sane qEnv) → NReach qEnv qLim (nMsgs x l)
  | [], _, h, _ => h
  | m :: l, _, h, hs => nMsgs_reach l (.step h (.msg {} m (hs m (by simp)))) (fun k hk => hs k (by simp [hk]))

/-- a new connection of a node with six blocks -/
def nStart : Node (List Nat) := ⟨(requestHeaders qEnv (qRun [1, 2, 3, 4, 5, 6]) {}).db, (requestHeaders qEnv (qRun [1, 2, 3, 4, 5, 6]) {}).peer, [], [], []⟩

theorem nStart_reach : NReach qEnv qLim nStart := .connect (qRun_reach _ (by decide))

/-- the peer announces a branch, sends a block that was not requested, one out of order, and one that was; asks for too many blocks and for some; sends unconnected headers -/
def nNode : Node (List Nat) :=
  nMsgs nStart [.headers [104, 105, 106], .block 7, .block 105, .block 104, .blockReq [1, 2, 3], .blockReq [5, 104], .blockReq [0], .headers [9, 10], .headers [105, 106, 107]]

theorem nNode_reach : NReach qEnv qLim nNode := nMsgs_reach _ nStart_reach (by simp [Msg.Sane, qEnv]; try decide)

example : nNode.peer.requested = [105] ∧ nNode.peer.pending = [105, 106, 107] ∧ nNode.peer.queue = [5, 104] ∧ nNode.asked = [5, 104] ∧ nNode.db.best = 6 ∧
    stored nNode.db 104 = true ∧ stored nNode.db 105 = false ∧ stored nNode.db 7 = false := by decide +kernel

end Verif.Sync
