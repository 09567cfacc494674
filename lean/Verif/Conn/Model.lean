import Verif.Base.BMap

/-!
The networking backend: connections from the dial or the accepted socket to their end.

The state is the data of `Backend` together with the state of the task of each connection
(`Peer::run`, p2p/src/net/default_backend/peer/mod.rs 210-404), which decides what event a task can send
next.  An event a task cannot send is `impossible`.  Events of a task are handled in the order in which
they were sent, as they go through one channel.

Not modelled: the contents of messages, failures of the channels to the peer manager and to the
synchronisation manager (they exist as long as the node runs), the shutdown, the subscribers.
-/
namespace Verif.Conn
open Verif

/-- Socket addresses. -/
abbrev Addr := Nat

/-- `ConnectionInfo` (peer/mod.rs 60-67): the direction and the nonce of outbound connections. -/
inductive Info
  | inbound
  | outbound (nonce : Nat)
deriving DecidableEq, Repr

/-- `ConnectionInfo::is_inbound` (peer/mod.rs 77-82). -/
def Info.isInbound : Info → Bool
  | .inbound => true
  | .outbound _ => false

/-- `PendingPeerContext` (backend.rs 111-124). -/
structure Pending where
  addr : Addr
  info : Info
deriving DecidableEq, Repr

/-- `PeerContext` (backend.rs 85-108): the address, the direction and whether the peer was accepted by the
peer manager. -/
structure Peer where
  addr : Addr
  inbound : Bool
  accepted : Bool
deriving DecidableEq, Repr

/-- How far the task of a connection is: handshake not done, information about the peer sent,
misbehaviour during the handshake sent, ended. -/
inductive Phase
  | handshake
  | informed
  | failing
  | ended
deriving DecidableEq, Repr

/-- The task of a connection: `accepted`, `wrote` and `told` say that the backend has sent it the
respective event (`told`: to disconnect, or the channel to it was closed). -/
structure Task where
  inbound : Bool
  phase : Phase
  accepted : Bool
  wrote : Bool
  told : Bool
deriving DecidableEq, Repr

/-- `PeerEvent` (types.rs 115-137).  `info nonce alive`: information about the peer; `alive` tells whether
the task still exists when the event is handled.  `message` includes the note about the first message for
the synchronisation. -/
inductive PeerEvent
  | info (nonce : Nat) (alive : Bool)
  | sync
  | message
  | misbehavedOnHandshake
  | misbehaved
  | closed
deriving DecidableEq, Repr

/-- What happens to the backend: commands of the peer manager (`Command`, handled in 758-826), the result
of a dial, a connection accepted by the listener, events of the tasks.  A socket which is there may fail to
tell its addresses (`addresses = false`), when the remote node has reset the connection already.  The task
of a peer may have ended (`alive = false`) although its last event was not handled yet. -/
inductive Event
  | connect (a : Addr)
  | dialled (a : Addr) (result : Option (Nat × Bool))
  | incoming (a : Addr) (addresses : Bool)
  | peer (id : Nat) (e : PeerEvent)
  | accept (id : Nat) (alive : Bool)
  | disconnect (id : Nat)
  | send (id : Nat)
  | enable (b : Bool)
deriving DecidableEq, Repr

/-- What the backend does: events for the peer manager (`ConnectivityEvent`), for the synchronisation
manager (`SyncingEvent`) and for the tasks (`BackendEvent`). -/
inductive Out
  | connError (a : Addr) (self : Bool)
  | outbound (id : Nat) (a : Addr)
  | inbound (id : Nat) (a : Addr)
  | message (id : Nat)
  | misbehaved (id : Nat)
  | misbehavedOnHandshake (a : Addr)
  | closed (id : Nat)
  | syncConnected (id : Nat)
  | syncDisconnected (id : Nat)
  | toPeerAccepted (id : Nat)
  | toPeerSend (id : Nat)
  | toPeerDisconnect (id : Nat)
deriving DecidableEq, Repr

/-- How a step can fail: the process panics, `Backend::run` returns an error (the node then shuts its
network down, default_networking_service.rs 108-111), or the event cannot happen. -/
inductive Fail
  | panic
  | stop
  | impossible
deriving DecidableEq, Repr

/-- The data of `Backend` (backend.rs 126-182) and the tasks; `dialing` are the dials in `command_queue`,
`next` the next peer id (`PeerId::new` counts). -/
structure State where
  enabled : Bool
  maxPending : Nat
  next : Nat
  dialing : List Addr
  pending : BMap Nat Pending
  peers : BMap Nat Peer
  count : Nat
  tasks : BMap Nat Task

/-- A backend at its start (backend.rs 189-227). -/
def State.init (enabled : Bool) (maxPending : Nat) : State :=
  ⟨enabled, maxPending, 0, [], BMap.empty, BMap.empty, 0, BMap.empty⟩

/-- The result of a step. -/
abbrev Res := Except Fail (State × List Out)

/-- Changes the task of a connection, when there is one. -/
def State.task (s : State) (id : Nat) (f : Task → Task) : State :=
  match s.tasks.get id with
  | some t => { s with tasks := s.tasks.insert id (f t) }
  | none => s

/-- `insert_new_pending_peer` (backend.rs 841-858); ids are new, so that nothing is replaced. -/
def State.insertPending (s : State) (id : Nat) (p : Pending) : State :=
  { s with
    pending := s.pending.insert id p
    count := if p.info.isInbound then s.count + 1 else s.count }

/-- `remove_pending_peer` (backend.rs 860-877); the count is checked for underflow. -/
def State.removePending (s : State) (id : Nat) : Except Fail (Option Pending × State) :=
  match s.pending.get id with
  | none => .ok (none, s)
  | some p =>
    let s := { s with pending := s.pending.erase id }
    if p.info.isInbound then
      if s.count = 0 then .error .panic
      else .ok (some p, { s with count := s.count - 1 })
    else .ok (some p, s)

/-- `create_pending_peer` (backend.rs 423-474), `Peer::new` (peer/mod.rs 128-161): both ask the socket for
its addresses. -/
def State.createPending (s : State) (info : Info) (a : Addr) (addresses : Bool) : Res :=
  if addresses then
    let id := s.next
    let s := { s with
      next := id + 1
      tasks := s.tasks.insert id ⟨info.isInbound, .handshake, false, false, false⟩ }
    .ok (s.insertPending id ⟨a, info⟩, [])
  else .error .stop

/-- `handle_connect_res` (backend.rs 230-262): a dial ended. -/
def State.connectRes (s : State) (a : Addr) (result : Option (Nat × Bool)) : Res :=
  if a ∈ s.dialing then
    let s := { s with dialing := s.dialing.erase a }
    match result with
    | some (nonce, addresses) => s.createPending (.outbound nonce) a addresses
    | none => .ok (s, [.connError a false])
  else .error .impossible

/-- The accepting branch of `Backend::run` (backend.rs 351-381). -/
def State.incoming (s : State) (a : Addr) (addresses : Bool) : Res :=
  if !s.enabled then .ok (s, [])
  else if s.count ≥ s.maxPending then .ok (s, [])
  else s.createPending .inbound a addresses

/-- The outbound connections being made with this nonce. -/
def State.withNonce (s : State) (nonce : Nat) : List (Nat × Pending) :=
  s.pending.entries.filter fun p => p.2.info == .outbound nonce

/-- `is_connection_from_self` (backend.rs 586-625): the pending outbound connection found and removed
(`HashMap` order is not modelled: the first one; nonces are random numbers of 64 bits), whose task loses its
channel. -/
def State.fromSelf (s : State) (info : Info) (nonce : Nat) :
    Except Fail (Bool × State × List Out) :=
  if info = .inbound then
    match s.withNonce nonce with
    | [] => .ok (false, s, [])
    | (id, _) :: _ => do
      let (p, s) ← s.removePending id
      match p with
      | none => .error .panic
      | some p =>
        .ok (true, s.task id (fun t => { t with told := true }), [.connError p.addr true])
  else .ok (false, s, [])

/-- `create_peer` (backend.rs 481-557). -/
def State.createPeer (s : State) (id nonce : Nat) (alive : Bool) : Res := do
  let (p, s) ← s.removePending id
  match p with
  | none => .ok (s, [])
  | some p =>
    let (self, s, out) ← s.fromSelf p.info nonce
    if self then
      if alive then
        .ok (s.task id (fun t => { t with told := true }), out ++ [.toPeerDisconnect id])
      else .error .stop
    else
      let o := if p.info.isInbound then Out.inbound id p.addr else Out.outbound id p.addr
      .ok ({ s with peers := s.peers.insert id ⟨p.addr, p.info.isInbound, false⟩ }, out ++ [o])

/-- `destroy_peer` (backend.rs 562-584). -/
def State.destroyPeer (s : State) (id : Nat) : State × List Out :=
  match s.peers.get id with
  | none => (s, [])
  | some p =>
    ({ s with peers := s.peers.erase id },
      (if p.accepted then [.syncDisconnected id] else []) ++ [.closed id])

/-- What a task can send next (`Peer::run`, peer/mod.rs 210-404, handshake_handler.rs 162-361).  A
connection is read only after it was accepted.  An outbound connection whose handshake is done and which
was not accepted ends only when it is told to, or when writing to it fails. -/
def Task.can (t : Task) : PeerEvent → Bool
  | .info .. => t.phase == .handshake
  | .sync => t.phase == .informed && t.inbound
  | .message => t.phase == .informed && t.accepted
  | .misbehaved => t.phase == .informed && t.accepted
  | .misbehavedOnHandshake => t.phase == .handshake || (t.phase == .informed && t.inbound)
  | .closed =>
    t.phase == .handshake || t.phase == .failing ||
      (t.phase == .informed && (t.inbound || t.accepted || t.wrote || t.told))

/-- The phase of a task after an event. -/
def Task.after (t : Task) : PeerEvent → Task
  | .info .. => { t with phase := .informed }
  | .misbehavedOnHandshake => { t with phase := .failing }
  | .closed => { t with phase := .ended }
  | _ => t

/-- `handle_peer_event` (backend.rs 627-739) with `handle_message` (741-756). -/
def State.peerEvent (s : State) (id : Nat) (e : PeerEvent) : Res :=
  match e with
  | .info nonce alive => if s.enabled then s.createPeer id nonce alive else .ok (s, [])
  | .sync => .ok (s, [])
  | .message =>
    if s.enabled then
      if s.peers.contains id then .ok (s, [.message id]) else .ok (s, [])
    else .ok (s, [])
  | .misbehavedOnHandshake =>
    match s.pending.get id with
    | some p => .ok (s, [.misbehavedOnHandshake p.addr])
    | none => .ok (s, [])
  | .misbehaved => .ok (s, [.misbehaved id])
  | .closed => do
    let (p, s) ← s.removePending id
    let out := match p with
      | some p => if p.info.isInbound then [] else [Out.connError p.addr false]
      | none => []
    let (s, out') := s.destroyPeer id
    .ok (s, out ++ out')

/-- `accept_peer` (backend.rs 265-305). -/
def State.acceptPeer (s : State) (id : Nat) (alive : Bool) : Res :=
  match s.peers.get id with
  | none => .ok (s, [])
  | some p =>
    if !alive then .ok (s, [])
    else if p.accepted then .error .panic
    else .ok (({ s with peers := s.peers.insert id { p with accepted := true } }).task id
        (fun t => { t with accepted := true }), [.toPeerAccepted id, .syncConnected id])

/-- `EnableNetworking` (backend.rs 808-824): when networking gets disabled, all connections are told to
disconnect. -/
def State.enableNet (s : State) (b : Bool) : State × List Out :=
  if s.enabled = b then (s, [])
  else
    let s := { s with enabled := b }
    if b then (s, [])
    else
      let ids := s.peers.entries.map (·.1) ++ s.pending.entries.map (·.1)
      (ids.foldl (fun s id => s.task id (fun t => { t with told := true })) s,
        ids.map .toPeerDisconnect)

/-- One event (`Backend::run` 333-415, `handle_command` 758-826, `disconnect_peer` 308-321, `send_message` 324-330). -/
def State.step (s : State) (e : Event) : Res :=
  match e with
  | .connect a => .ok ({ s with dialing := a :: s.dialing }, [])
  | .dialled a r => s.connectRes a r
  | .incoming a addresses => s.incoming a addresses
  | .peer id e =>
    match s.tasks.get id with
    | none => .error .impossible
    | some t =>
      if t.can e then
        { s with tasks := s.tasks.insert id (t.after e) }.peerEvent id e
      else .error .impossible
  | .accept id alive => s.acceptPeer id alive
  | .disconnect id =>
    if s.peers.contains id then
      .ok (s.task id (fun t => { t with told := true }), [.toPeerDisconnect id])
    else .ok (s, [])
  | .send id =>
    if s.peers.contains id then
      .ok (s.task id (fun t => { t with wrote := true }), [.toPeerSend id])
    else .ok (s, [])
  | .enable b => .ok (s.enableNet b)

/-- A history: all that was done, in order. -/
def State.run (s : State) : List Event → Res
  | [] => .ok (s, [])
  | e :: es => do
    let (s, o) ← s.step e
    let (s, os) ← s.run es
    return (s, o ++ os)

end Verif.Conn
