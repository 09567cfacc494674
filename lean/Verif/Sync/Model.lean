import Verif.Sync.Query

/-!
# Exchange of blocks with a peer

Model of `PeerBlockSyncManager` (p2p/src/sync/peer/block_manager.rs): what a node keeps about the exchange of blocks with one peer and how it reacts to messages.

Headers and blocks are represented by ids.  Left out: the services of the peer (both sides offer blocks), timeouts and waiting for clocks, events for the peer manager, logging.
Errors do not undo what was already changed; `handle_message_processing_result` (peer_common/mod.rs 44-117) only adjusts the score of the peer.
-/

namespace Verif.Sync
open Verif Verif.Chainstate
open Verif.BlockTree hiding Err

variable {L : Type}

/-- `ProtocolConfig` – p2p/src/protocol.rs: the limits used here -/
structure Limits where
  headers : Nat
  blocks : Nat
  locator : Nat

/-- what may differ from one call to the next: see `Now`; the checks of a single header that do not concern the tree (consensus, time, checkpoints); the checkpoints of a chain
of headers; whether the node is in its initial block download -/
structure Ctx where
  now : Now := {}
  header : Nat → Option Cls := fun _ => none
  chain : List Nat → Option Cls := fun _ => none
  ibd : Bool := false

/-- messages – p2p/src/message.rs: `HeaderListRequest`, `HeaderList`, `BlockListRequest`, `BlockResponse` -/
inductive Msg
  | headerReq (loc : List Nat)
  | headers (l : List Nat)
  | blockReq (ids : List Nat)
  | block (id : Nat)
  deriving DecidableEq, Repr

/-- `ProtocolError` – p2p/src/error.rs, an error of the chainstate, or a missing block (`SyncError`) -/
inductive SErr
  | locatorSize | zeroBlocks | blocksLimit | duplicated (id : Nat) | unknownBlock (id : Nat) | headersLimit | disconnected | wrongOrder | unsolicited
  | chain (e : Chainstate.Err) | missing (id : Nat)
  deriving DecidableEq, Repr

/-- `IncomingDataState`, `OutgoingDataState`, `have_sent_all_headers` – block_manager.rs 54-118 -/
structure Peer where
  pending : List Nat := []
  requested : List Nat := []
  /-- `peers_best_block_that_we_have` -/
  best : Option Nat := none
  queue : List Nat := []
  bestSent : Option Idx := none
  bestHeader : Option Nat := none
  sentAll : Bool := false

/-- the outcome of handling a message -/
structure Out (L : Type) where
  db : Db L
  peer : Peer
  sent : List Msg := []
  err : Option SErr := none

/-- `choose_peers_best_block_by_block_indices` – peer_common/mod.rs 119-137 -/
def chooseIdx (env : Env L) (old new : Option Gen) : Option Nat :=
  match old, new with
  | none, none => none
  | some o, none => some (o.id env.tree)
  | none, some n => some (n.id env.tree)
  | some o, some n => if o.trust ≤ n.trust then some (n.id env.tree) else some (o.id env.tree)

/-- `choose_peers_best_block_by_block_ids` – peer_common/mod.rs 139-156 -/
def chooseBest (env : Env L) (s : Db L) (old new : Option Nat) : Option Nat := chooseIdx env (old.bind (storedGen env s)) (new.bind (storedGen env s))

/-- the locator of `request_headers` – block_manager.rs 375-387 -/
def requestLocator (env : Env L) (s : Db L) (p : Peer) : Except Chainstate.Err (List Nat) :=
  match p.best with
  | none => locatorFromBest env s
  | some x => if x = env.tree.genesisId then locatorFromBest env s else locatorFromBlock env s x

/-- `request_headers` – block_manager.rs 342-405 -/
def requestHeaders (env : Env L) (s : Db L) (p : Peer) : Out L :=
  match requestLocator env s p with
  | .ok loc => ⟨s, p, [.headerReq loc], none⟩
  | .error e => ⟨s, p, [], some (.chain e)⟩

/-- `request_blocks` – block_manager.rs 920-948 -/
def requestBlocks (lim : Limits) (s : Db L) (p : Peer) (hs : List Nat) : Out L :=
  ⟨s, { p with pending := if hs.length > lim.blocks then hs.drop lim.blocks else p.pending, requested := hs.take lim.blocks }, [.blockReq (hs.take lim.blocks)], none⟩

/-- `send_headers` – block_manager.rs 244-249 -/
def sendHeaders (s : Db L) (p : Peer) (l : List Nat) : Out L :=
  ⟨s, { p with bestHeader := match l.getLast? with
    | some b => some b
    | none => p.bestHeader }, [.headers l], none⟩

/-- `handle_header_request` – block_manager.rs 431-492 -/
def handleHeaderReq (env : Env L) (lim : Limits) (ctx : Ctx) (s : Db L) (p : Peer) (loc : List Nat) : Out L :=
  if loc.length > lim.locator then ⟨s, p, [], some .locatorSize⟩
  else if ctx.ibd then sendHeaders s p []
  else match headersByLocator env s loc lim.headers with
    | .error e => ⟨s, p, [], some (.chain e)⟩
    | .ok l =>
      sendHeaders s { p with
        best := match l.head? with
          | some b => chooseBest env s p.best (some (env.tree.body b).prev)
          | none => some s.best
        sentAll := decide (l.length < lim.headers) } l

/-- the check of the ids of a block request against the chainstate – block_manager.rs 545-575 -/
def checkRequested (s : Db L) (sent : Option Idx) : List Nat → Option SErr
  | [] => none
  | id :: ids =>
    match s.index.get id with
    | none => some (.unknownBlock id)
    | some e =>
      if e.persisted then
        match sent with
        | none => checkRequested s sent ids
        | some b => if e.idx.height ≤ b.height ∧ s.byHeight.get b.height = some b.id then some (.duplicated id) else checkRequested s sent ids
      else some (.unknownBlock id)

/-- `handle_block_request` – block_manager.rs 495-591 -/
def handleBlockReq (lim : Limits) (ctx : Ctx) (s : Db L) (p : Peer) (ids : List Nat) : Out L :=
  if ids.isEmpty then ⟨s, p, [], some .zeroBlocks⟩
  else if ctx.ibd then ⟨s, p, [], none⟩
  else if lim.blocks < ids.length + p.queue.length then ⟨s, p, [], some .blocksLimit⟩
  else match ids.find? (· ∈ p.queue) with
    | some id => ⟨s, p, [], some (.duplicated id)⟩
    | none =>
      match checkRequested s p.bestSent ids with
      | some e => ⟨s, p, [], some e⟩
      | none => ⟨s, { p with queue := p.queue ++ ids }, [], none⟩

/-- `send_block` with the removal of the block from the queue – block_manager.rs 199-203, 950-984 -/
def sendBlock (env : Env L) (s : Db L) (p : Peer) : Out L :=
  match p.queue with
  | [] => ⟨s, p, [], none⟩
  | id :: q =>
    match (s.blocks.get id), s.index.get id with
    | some _, some e =>
      if e.persisted then
        ⟨s, { p with
          queue := q
          bestSent := if chooseBest env s (p.bestSent.map (·.id)) (some id) = some id then some e.idx else p.bestSent }, [.block id], none⟩
      else ⟨s, { p with queue := q }, [], some (.missing id)⟩
    | _, _ => ⟨s, { p with queue := q }, [], some (.missing id)⟩

/-- each header is the child of the one before – block_manager.rs 650-657 -/
def linked (env : Env L) : List Nat → Bool
  | a :: b :: l => decide ((env.tree.body b).prev = a) && linked env (b :: l)
  | _ => true

/-- `preliminary_headers_check` – chainstate/src/detail/block_checking.rs 43-55, `check_block_header` – chainstateref/mod.rs 658-665: the tree part is that of `check_block` -/
def headersCheck (env : Env L) (ctx : Ctx) (s : Db L) : List Nat → Except Chainstate.Err Unit
  | [] => .ok ()
  | id :: l => do
    s.checkBlock env { check := ctx.header } id
    match ctx.chain (id :: l) with
      | some c => .error (.checkFailed c)
      | none => .ok ()

/-- `handle_header_list` – block_manager.rs 629-745 -/
def handleHeaders (env : Env L) (lim : Limits) (ctx : Ctx) (s : Db L) (p : Peer) (l : List Nat) : Out L :=
  match l with
  | [] => ⟨s, p, [], none⟩
  | first :: _ =>
    if l.length > lim.headers then ⟨s, p, [], some .headersLimit⟩
    else if !linked env l then ⟨s, p, [], some .disconnected⟩
    else match s.gen env (env.tree.body first).prev with
      | none => ⟨s, p, [], some .disconnected⟩
      | some _ =>
        let old := (splitKnown s l).1
        let new := (splitKnown s l).2
        let p1 := { p with best := chooseBest env s p.best old.getLast? }
        match headersCheck env ctx s new with
        | .error e => ⟨s, p1, [], some (.chain e)⟩
        | .ok () =>
          if !p1.requested.isEmpty then ⟨s, { p1 with pending := new }, [], none⟩
          else if new.isEmpty then
            if l.length = lim.headers then requestHeaders env s p1 else ⟨s, p1, [], none⟩
          else requestBlocks lim s p1 new

/-- the end of `handle_block_response` – block_manager.rs 889-914 -/
def continueSync (env : Env L) (lim : Limits) (s : Db L) (p : Peer) : Out L :=
  if p.requested.isEmpty then
    let hs := (splitKnown s p.pending).2
    let p1 := { p with pending := [] }
    if hs.isEmpty then requestHeaders env s p1 else requestBlocks lim s p1 hs
  else ⟨s, p, [], none⟩

/-- processing of a received block – block_manager.rs 830-875: a block that is stored already is not processed again -/
def processNew (env : Env L) (ctx : Ctx) (s : Db L) (id : Nat) : Db L × Option Chainstate.Err :=
  if stored s id then (s, none)
  else match s.process env ctx.now id with
    | (s', .ok _) => (s', none)
    | (s', .error e) => (s', some e)

/-- `handle_block_response` – block_manager.rs 752-914 -/
def handleBlock (env : Env L) (lim : Limits) (ctx : Ctx) (s : Db L) (p : Peer) (id : Nat) : Out L :=
  if p.requested.head? ≠ some id then ⟨s, p, [], some (if id ∈ p.requested then .wrongOrder else .unsolicited)⟩
  else
    let p1 := { p with requested := p.requested.tail }
    match s.checkBlock env ctx.now id with
    | .error e => ⟨s, p1, [], some (.chain e)⟩
    | .ok () =>
      match processNew env ctx s id with
      | (s', some e) => ⟨s', p1, [], some (.chain e)⟩
      | (s', none) =>
        continueSync env lim s' { p1 with best := chooseIdx env (p.best.bind (storedGen env s)) (if stored s' id then s'.gen env id else none) }

/-- `handle_message` – block_manager.rs 407-428 -/
def handle (env : Env L) (lim : Limits) (ctx : Ctx) (s : Db L) (p : Peer) : Msg → Out L
  | .headerReq loc => handleHeaderReq env lim ctx s p loc
  | .headers l => handleHeaders env lim ctx s p l
  | .blockReq ids => handleBlockReq lim ctx s p ids
  | .block id => handleBlock env lim ctx s p id

/-- `handle_new_tip` – block_manager.rs 251-330; `tip` is the tip announced by the event -/
def handleNewTip (env : Env L) (lim : Limits) (s : Db L) (p : Peer) (tip : Nat) : Out L :=
  if p.sentAll && p.queue.isEmpty then
    let ids := p.best.toList ++ (p.bestSent.map (·.id)).toList
    if ids.isEmpty then ⟨s, p, [], none⟩
    else match headersSinceFork env s ids lim.headers with
      | .error e => ⟨s, p, [], some (.chain e)⟩
      | .ok l => if l.isEmpty then ⟨s, p, [], none⟩ else if s.best ≠ tip then ⟨s, p, [], none⟩ else sendHeaders s p l
  else ⟨s, p, [], none⟩

end Verif.Sync
