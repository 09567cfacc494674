import Verif.Base.BMap
import Verif.Rolling.Model

/-!
The relay of transactions: the task that exchanges transactions with one peer, and the part of the
synchronisation manager that tells these tasks what to announce.

The mempool and the chainstate are the surroundings: each turn is given what they answer in it.  Sending a
message to a peer succeeds (it is a command put into a channel of the backend).  Times of the clock and of
the monotonic clock are numbers of nanoseconds.
-/
namespace Verif.Relay
open Verif

/-- A signed transaction: its id and all the rest of it. -/
structure Tx where
  id : Nat
  body : Nat
deriving DecidableEq, Repr

/-- `TransactionSyncMessage` with `TransactionResponse` (p2p/src/message.rs). -/
inductive Msg
  | new (id : Nat)
  | request (id : Nat)
  | found (tx : Tx)
  | notFound (id : Nat)
deriving DecidableEq, Repr

/-- `TxStatus` (mempool/types/src/lib.rs). -/
inductive Status
  | inMempool
  | inMempoolDuplicate
  | inOrphanPool
  | inOrphanPoolDuplicate
deriving DecidableEq, Repr

/-- The errors of the mempool as `handle_message_processing_result` tells them apart: the mempool is full, or
any other error with its ban score. -/
inductive PoolErr
  | full
  | other (score : Nat)
deriving DecidableEq, Repr

/-- What the surroundings answer in one turn of a task: the transaction with a given id in the mempool
(`transaction`, `contains_transaction`), the order in which the mempool wants transactions announced
(`get_best_tx_ids_by_score_and_ancestry`, which fails for no transaction of the mempool), the outcome of
`add_transaction_remote`, whether the chainstate is in the initial block download, the clock when a request
is recorded and when requests are purged, the monotonic clock and the random delay. -/
structure Env where
  tx : Nat → Option Tx
  best : List Nat → List Nat
  add : Tx → Except PoolErr Status
  ibd : Bool
  now : Nat
  purgeNow : Nat
  mono : Nat
  delay : Nat

/-- `max_peer_tx_announcements` (p2p/src/protocol.rs 88, 117: 5000 by default), the size of the filter
(`ROLLING_BLOOM_FILTER_SIZE`, p2p/src/sync/peer_common/known_transactions.rs 21: 50000) and the answers of
bloom filters to items not inserted. -/
structure Cfg where
  maxRequests : Nat
  filterSize : Nat
  fp : Nat → List Nat → Nat → Bool

/-- `REQUESTED_TX_EXPIRY_PERIOD` (p2p/src/sync/peer/requested_transactions.rs 25): an hour. -/
def expiry : Nat := 3600 * 1000000000

/-- `REQUESTED_TX_PURGE_INTERVAL` (requested_transactions.rs 27): five seconds. -/
def purgeInterval : Nat := 5 * 1000000000

/-- `PeerTransactionSyncManager` (p2p/src/sync/peer/transaction_manager.rs 80-105) with `RequestedTransactions`
(requested_transactions.rs 35-39); `service` says whether both nodes have the service of transactions,
`nextAnnounce` is the variable `next_time_to_announce_txs` of the loop. -/
structure Peer where
  service : Bool
  known : Rolling.Filter Nat
  requested : BMap Nat Nat
  nextPurge : Nat
  toAnnounce : BMap Nat Unit
  nextAnnounce : Nat

/-- What a task does to the outside: a message to the peer, a change of the score of the peer, a transaction
given to the mempool, the event `NewValidTransactionReceived`, the notification `TransactionSent`. -/
inductive Effect
  | send (m : Msg)
  | score (n : Nat)
  | submit (tx : Tx)
  | valid (id : Nat)
  | sent (id : Nat)
deriving DecidableEq, Repr

/-- The places where the code panics. -/
inductive Panic
  | requestedTwice
  | badTime
  | peerExists
  | peerUnknown
deriving DecidableEq, Repr

/-- `PeerTransactionSyncManager::new` (transaction_manager.rs 115-151), `RequestedTransactions::new`
(requested_transactions.rs 42-55) and the start of `main_loop` (transaction_manager.rs 178-179). -/
def Peer.new (c : Cfg) (service : Bool) (now mono delay : Nat) : Peer :=
  { service := service
    known := Rolling.Filter.new Nat c.filterSize
    requested := BMap.empty
    nextPurge := now + expiry
    toAnnounce := BMap.empty
    nextAnnounce := mono + delay }

/-- One round of the loop of `enqueue_transactions_to_announce` (transaction_manager.rs 249-251). -/
def Peer.enqueueOne (c : Cfg) (p : Peer) (id : Nat) : Peer :=
  if p.known.contains c.fp id then p else { p with toAnnounce := p.toAnnounce.insert id () }

/-- `enqueue_transactions_to_announce` (transaction_manager.rs 243-254). -/
def Peer.enqueue (c : Cfg) (p : Peer) (ids : List Nat) : Peer :=
  if p.service then ids.foldl (Peer.enqueueOne c) p else p

/-- `add_known_transaction` (transaction_manager.rs 399-401). -/
def Peer.addKnown (p : Peer) (id : Nat) : Peer := { p with known := p.known.insert id }

/-- `announce_transactions` (transaction_manager.rs 256-294). -/
def Peer.announce (p : Peer) (e : Env) : Peer × List Effect :=
  let ids := (p.toAnnounce.filter (fun id _ => (e.tx id).isSome)).entries.map Prod.fst
  let sorted := e.best ids
  (sorted.foldl Peer.addKnown { p with toAnnounce := BMap.empty }, sorted.map (fun id => .send (.new id)))

/-- `ban_score` of `ProtocolError::UnexpectedMessage` (p2p/src/error.rs 289). -/
def unexpectedScore : Nat := 20

/-- `handle_message_processing_result` for errors of the mempool (p2p/src/sync/peer_common/mod.rs 56-89). -/
def PoolErr.effects : PoolErr → List Effect
  | .full => []
  | .other s => if s > 0 then [.score s] else []

/-- `handle_transaction_request` (transaction_manager.rs 314-343), with what
`handle_message_processing_result` makes of its error. -/
def Peer.handleRequest (p : Peer) (id : Nat) (e : Env) : List Effect :=
  if ¬ p.service then [.score unexpectedScore]
  else match e.tx id with
    | some tx => [.send (.found tx), .sent id]
    | none => [.send (.notFound id)]

/-- `handle_transaction_response` (transaction_manager.rs 349-397), with what
`handle_message_processing_result` makes of its error. -/
def Peer.handleResponse (p : Peer) (id : Nat) (tx : Option Tx) (e : Env) : Peer × List Effect :=
  match p.requested.get id with
  | none => (p, [])
  | some _ =>
    let p := { p with requested := p.requested.erase id }
    match tx with
    | none => (p, [])
    | some tx =>
      match e.add tx with
      | .ok .inMempool => (p, [.submit tx, .valid tx.id])
      | .ok _ => (p, [.submit tx])
      | .error err => (p, .submit tx :: err.effects)

/-- `handle_transaction_announcement` (transaction_manager.rs 403-470), with what
`handle_message_processing_result` makes of its error; the assertion is that of `RequestedTransactions::add`
(requested_transactions.rs 57-61). -/
def Peer.handleNew (c : Cfg) (p : Peer) (id : Nat) (e : Env) : Except Panic (Peer × List Effect) :=
  let p := p.addKnown id
  if e.ibd then .ok (p, [])
  else if ¬ p.service then .ok (p, [.score unexpectedScore])
  else if p.requested.contains id then .ok (p, [])
  else if p.requested.size ≥ c.maxRequests then .ok (p, [])
  else if (e.tx id).isSome then .ok (p, [])
  else if p.requested.contains id then .error .requestedTwice
  else .ok ({ p with requested := p.requested.insert id e.now }, [.send (.request id)])

/-- What a turn of the loop reacts to (transaction_manager.rs 182-194): a message of the peer, an event of the
synchronisation manager (`MempoolRelayableTx` with one id, `UnconfirmedLocalTxsReannouncement` with many), or
the clock. -/
inductive Input
  | msg (m : Msg)
  | event (ids : List Nat)
  | tick
deriving DecidableEq, Repr

/-- `handle_message` (transaction_manager.rs 297-312) and `handle_local_event` (223-241). -/
def Peer.handle (c : Cfg) (p : Peer) (i : Input) (e : Env) : Except Panic (Peer × List Effect) :=
  match i with
  | .msg (.new id) => p.handleNew c id e
  | .msg (.request id) => .ok (p, p.handleRequest id e)
  | .msg (.found tx) => .ok (p.handleResponse tx.id (some tx) e)
  | .msg (.notFound id) => .ok (p.handleResponse id none e)
  | .event ids => .ok (p.enqueue c ids, [])
  | .tick => .ok (p, [])

/-- `purge_if_needed` (requested_transactions.rs 75-88). -/
def Peer.purge (p : Peer) (now : Nat) : Except Panic Peer :=
  if now ≥ p.nextPurge then
    if now < expiry then .error .badTime
    else .ok { p with
      requested := p.requested.filter (fun _ t => decide (now - expiry ≤ t))
      nextPurge := now + purgeInterval }
  else .ok p

/-- The end of a turn of the loop (transaction_manager.rs 198-204). -/
def Peer.finish (p : Peer) (e : Env) : Peer × List Effect :=
  if e.mono ≥ p.nextAnnounce then
    let r := p.announce e
    ({ r.1 with nextAnnounce := e.mono + e.delay }, r.2)
  else (p, [])

/-- One turn of the loop (transaction_manager.rs 181-209). -/
def Peer.turn (c : Cfg) (p : Peer) (i : Input) (e : Env) : Except Panic (Peer × List Effect) := do
  let r ← p.handle c i e
  let q ← r.1.purge e.purgeNow
  let s := q.finish e
  .ok (s.1, r.2 ++ s.2)

/-! ### The synchronisation manager -/

/-- A processed transaction (`TransactionProcessedEvent`, mempool/src/event.rs 30-35): its id, the peer it came
from (`none`: local), whether it is to be relayed, and the outcome: accepted, as new or not, or the ban score
of the error. -/
structure Processed where
  id : Nat
  origin : Option Nat
  relay : Bool
  result : Except Nat Bool

/-- A connected peer: its task and the events waiting for it. -/
structure Ctx where
  peer : Peer
  events : List (List Nat)

/-- `SyncManager` (p2p/src/sync/mod.rs 86-126) as far as transactions go, with the tasks of its peers, the
notifications waiting for it and the variable `next_time_to_requeue_unconfirmed_local_txs` of its loop. -/
structure Node where
  peers : BMap Nat Ctx
  unconfirmed : BMap Nat Unit
  notes : List Nat
  nextRequeue : Nat

/-- A node that was just started (sync/mod.rs 163-210). -/
def Node.new (mono delay : Nat) : Node :=
  { peers := BMap.empty, unconfirmed := BMap.empty, notes := [], nextRequeue := mono + delay }

/-- `send_tx_mgr_event` (sync/mod.rs 372-376). -/
def Node.sendEvent (n : Node) (ids : List Nat) : Node :=
  { n with peers := n.peers.mapV (fun _ x => { x with events := x.events ++ [ids] }) }

/-- `handle_transaction_processed` (sync/mod.rs 396-482).  A duplicate that is not local, which the mempool does
not report, only panics in debug builds. -/
def Node.processed (n : Node) (t : Processed) : Node × List (Nat × Effect) :=
  match t.result with
  | .ok new =>
    if t.relay then
      if new ∨ t.origin = none then
        let n := n.sendEvent [t.id]
        (if t.origin = none then { n with unconfirmed := n.unconfirmed.insert t.id () } else n, [])
      else (n, [])
    else (n, [])
  | .error score =>
    match t.origin with
    | some peer => (n, if score > 0 then [(peer, .score score)] else [])
    | none => (n, [])

/-- `requeue_unconfirmed_local_transactions` (sync/mod.rs 254-279). -/
def Node.requeue (n : Node) (tx : Nat → Option Tx) : Node :=
  let n := { n with unconfirmed := n.unconfirmed.filter (fun id _ => (tx id).isSome) }
  if n.unconfirmed.entries = [] then n else n.sendEvent (n.unconfirmed.entries.map Prod.fst)

/-- What happens in a node: the manager learns of a processed transaction, of a new connection, of the end of
one, of a notification (the oldest that waits), or of nothing but the time; or the task of a peer makes a turn
with a message, with the oldest event that waits for it, or with nothing. -/
inductive Op
  | processed (t : Processed)
  | connect (peer : Nat) (service : Bool) (now : Nat)
  | disconnect (peer : Nat)
  | note
  | idle
  | message (peer : Nat) (m : Msg)
  | event (peer : Nat)
  | tick (peer : Nat)

/-- The result of a turn of the task of a peer; its notifications go to the manager. -/
def Node.taken (n : Node) (p : Nat) (events : List (List Nat)) :
    Except Panic (Peer × List Effect) → Except Panic (Node × List (Nat × Effect))
  | .error x => .error x
  | .ok r => .ok
    ({ n with
        peers := n.peers.insert p { peer := r.1, events := events }
        notes := n.notes ++ r.2.filterMap (fun | .sent id => some id | _ => none) },
      r.2.map (fun x => (p, x)))

/-- `handle_peer_event` (sync/mod.rs 485-508) with `register_peer` (282-352) and `unregister_peer` (355-363),
`handle_tx_mgr_notification` (510-520), and the other arms of the `select!` in `run` (sync/mod.rs 212-238);
then the turns of the tasks.  A task of a peer that is not connected does not run. -/
def Node.handle (c : Cfg) (n : Node) (o : Op) (e : Env) : Except Panic (Node × List (Nat × Effect)) :=
  match o with
  | .processed t => .ok (n.processed t)
  | .connect p s now =>
    if n.peers.contains p then .error .peerExists
    else .ok ({ n with peers := n.peers.insert p { peer := Peer.new c s now e.mono e.delay, events := [] } }, [])
  | .disconnect p =>
    if n.peers.contains p then .ok ({ n with peers := n.peers.erase p }, []) else .error .peerUnknown
  | .note =>
    match n.notes with
    | [] => .ok (n, [])
    | id :: rest => .ok ({ n with notes := rest, unconfirmed := n.unconfirmed.erase id }, [])
  | .idle => .ok (n, [])
  | .message p m =>
    match n.peers.get p with
    | none => .ok (n, [])
    | some x => n.taken p x.events (x.peer.turn c (.msg m) e)
  | .event p =>
    match n.peers.get p with
    | none => .ok (n, [])
    | some x =>
      match x.events with
      | [] => .ok (n, [])
      | ids :: rest => n.taken p rest (x.peer.turn c (.event ids) e)
  | .tick p =>
    match n.peers.get p with
    | none => .ok (n, [])
    | some x => n.taken p x.events (x.peer.turn c .tick e)

/-- Whether an operation is a turn of the manager, not of a task. -/
def Op.manager : Op → Bool
  | .message _ _ => false
  | .event _ => false
  | .tick _ => false
  | _ => true

/-- A turn of the manager ends with re-announcing the unconfirmed local transactions when it is time
(sync/mod.rs 238-246). -/
def Node.step (c : Cfg) (n : Node) (o : Op) (e : Env) : Except Panic (Node × List (Nat × Effect)) := do
  let r ← n.handle c o e
  if o.manager ∧ e.mono ≥ r.1.nextRequeue then
    .ok ({ r.1.requeue e.tx with nextRequeue := e.mono + e.delay }, r.2)
  else .ok r

end Verif.Relay
