import Verif.Wire.Types

/-!
The handshake of two nodes and the routing of the messages after it.

Times are numbers of nanoseconds since the epoch, `Time` counts them as a `Duration`.  That adding the
allowed difference to the present time overflows (`expect`) is not modelled: durations reach 2^64 seconds.
-/
namespace Verif.Handshake
open Verif Verif.Wire
open Verif.Codec (Bytes)

/-- What a node brings to a handshake: its protocol version (`node_protocol_version`), the network
(`magic_bytes`), its name and version, its services (`node_type`), whether it uses a proxy, and the largest
difference of clocks it allows (`max_clock_diff`). -/
structure Node where
  version : Nat
  network : Bytes
  userAgent : Bytes
  software : SemVer
  services : Nat
  proxy : Bool
  maxDiff : Nat

/-- `P2pTimestamp::from_time` (p2p/src/net/default_backend/types.rs 84-86): whole seconds. -/
def seconds (t : Nat) : Nat := t / 1000000000

/-- `as_duration_since_epoch` (types.rs 80-82). -/
def ofSeconds (s : Nat) : Nat := s * 1000000000

/-- The errors of a handshake: `TimeDiff`, `UnsupportedProtocol`, `HandshakeExpected`, `PeerWillDisconnect`
(p2p/src/error.rs). -/
inductive Err
  | timeDiff
  | unsupported
  | expected
  | willDisconnect
deriving DecidableEq, Repr

/-- `ban_score` of these errors (p2p/src/error.rs 228-332). -/
def Err.score : Err → Nat
  | .timeDiff => 0
  | .unsupported => 0
  | .expected => 100
  | .willDisconnect => 0

/-- `choose_common_protocol_version` (p2p/src/protocol.rs 76-82) with `SupportedProtocolVersion` (42-46). -/
def choose (a b : Nat) : Option Nat :=
  let m := min a b
  if m = 2 ∨ m = 3 then some m else none

/-- `validate_peer_time` (handshake_handler.rs 81-123). -/
def timeOk (n : Node) (start stop remote : Nat) : Bool :=
  decide (start - n.maxDiff ≤ ofSeconds remote ∧ ofSeconds remote ≤ stop + n.maxDiff)

/-- The checks in `validate_handshake` (handshake_handler.rs 129-163). -/
def validate (n : Node) (start stop remote version : Nat) : Except Err Nat :=
  if timeOk n start stop remote then
    match choose version n.version with
    | some v => .ok v
    | none => .error .unsupported
  else .error .timeDiff

/-- `maybe_send_will_disconnect` (peer/mod.rs 413-430) with `can_send_will_disconnect`
(types.rs 409-411) and `DisconnectionReason::from_result` (disconnection_reason.rs 129-134, 191-251); the
text of the reason is a parameter. -/
def farewell (reason : Err → Bytes) (r : Except Err Nat) (version : Nat) : List Message :=
  match r with
  | .error e => if 3 ≤ version then [.willDisconnect (reason e)] else []
  | .ok _ => []

/-- `peer_event::PeerInfo` (types.rs 92-112): what the backend is told about the other node. -/
structure Info where
  version : Nat
  network : Bytes
  common : Nat
  userAgent : Bytes
  software : SemVer
  seen : Option PeerAddress
  nonce : Nat
deriving DecidableEq, Repr

/-- What a side of the handshake does with the message it received: what it sends, what it tells the
backend, and its result, the common version. -/
structure Outcome where
  sent : List Message
  info : Option Info
  result : Except Err Nat

/-- The fields of both messages of the handshake (handshake_handler.rs 236-246, 258-269); behind a proxy
the address of the other node is not sent (172-177). -/
def Node.hello (n : Node) (services : Nat) (peer : PeerAddress) (now : Nat) : Hello :=
  ⟨n.version, n.network, services, n.userAgent, n.software, if n.proxy then none else some peer, seconds now⟩

/-- The inbound side (handshake_handler.rs 180-249): `start` is when the task began, `recv` when the message
arrived, `now` when the answer is sent.  The backend is told before the answer is sent. -/
def Node.inbound (n : Node) (reason : Err → Bytes) (peer : PeerAddress) (start recv now : Nat)
    (m : Message) : Outcome :=
  match m with
  | .handshake (.hello h nonce) =>
    let r := validate n start recv h.currentTime h.protocolVersion
    match r with
    | .error e => ⟨farewell reason r h.protocolVersion, none, .error e⟩
    | .ok v =>
      ⟨farewell reason r h.protocolVersion ++ [.handshake (.helloAck (n.hello n.services peer now))],
        some ⟨v, h.network, n.services &&& h.services, h.userAgent, h.softwareVersion, h.receiverAddress,
          nonce⟩, .ok v⟩
  | _ => ⟨[], none, .error .expected⟩

/-- The services the outbound side offers (handshake_handler.rs 254-255). -/
def Node.offered (n : Node) (override : Option Nat) : Nat := override.getD n.services

/-- The first message of the outbound side (handshake_handler.rs 250-270). -/
def Node.outboundHello (n : Node) (override : Option Nat) (peer : PeerAddress) (nonce start : Nat) :
    Message :=
  .handshake (.hello (n.hello (n.offered override) peer start) nonce)

/-- The outbound side after the answer arrived (handshake_handler.rs 272-323). -/
def Node.outbound (n : Node) (reason : Err → Bytes) (override : Option Nat) (nonce start recv : Nat)
    (m : Message) : Outcome :=
  match m with
  | .handshake (.helloAck h) =>
    let r := validate n start recv h.currentTime h.protocolVersion
    match r with
    | .error e => ⟨farewell reason r h.protocolVersion, none, .error e⟩
    | .ok v =>
      ⟨farewell reason r h.protocolVersion,
        some ⟨v, h.network, n.offered override &&& h.services, h.userAgent, h.softwareVersion,
          h.receiverAddress, nonce⟩, .ok v⟩
  | .willDisconnect _ => ⟨[], none, .error .willDisconnect⟩
  | _ => ⟨[], none, .error .expected⟩

/-! ### Messages after the handshake -/

/-- Where a message goes (`Message::categorize`, types.rs 273-331). -/
inductive Category
  | handshake
  | manager
  | blocks
  | transactions
deriving DecidableEq, Repr

/-- `Message::categorize` (types.rs 276-326). -/
def category : Message → Category
  | .handshake _ => .handshake
  | .pingRequest _ => .manager
  | .pingResponse _ => .manager
  | .announceAddr _ => .manager
  | .addrListRequest => .manager
  | .addrListResponse _ => .manager
  | .willDisconnect _ => .manager
  | .headerListRequest _ => .blocks
  | .headerList _ => .blocks
  | .blockListRequest _ => .blocks
  | .blockResponse _ => .blocks
  | .newTransaction _ => .transactions
  | .transactionRequest _ => .transactions
  | .transactionResponse _ => .transactions

/-- What the backend gets: `MessageReceived(PeerManagerMessage)`, `MessageReceived(FirstSyncMessageReceived)`,
`Misbehaved`. -/
inductive Note
  | message (m : Message)
  | first
  | misbehaved
deriving DecidableEq, Repr

/-- The channels of a connection: to the backend, to the synchronisation of blocks and of transactions. -/
structure Channels where
  notes : List Note
  blocks : List Message
  transactions : List Message
  synced : Bool

/-- `handle_socket_msg` (peer/mod.rs 161-216); channels are lists of what was sent. -/
def Channels.handle (c : Channels) (m : Message) : Channels :=
  match category m with
  | .handshake => { c with notes := c.notes ++ [.misbehaved] }
  | .manager => { c with notes := c.notes ++ [.message m] }
  | .blocks =>
    let c := if c.synced then c else { c with notes := c.notes ++ [.first], synced := true }
    { c with blocks := c.blocks ++ [m] }
  | .transactions =>
    let c := if c.synced then c else { c with notes := c.notes ++ [.first], synced := true }
    { c with transactions := c.transactions ++ [m] }

/-- The channels of a connection which was accepted (peer/mod.rs 249-254). -/
def Channels.init : Channels := ⟨[], [], [], false⟩

/-- All messages received, in order (peer/mod.rs 314-328). -/
def Channels.all (ms : List Message) : Channels := ms.foldl Channels.handle Channels.init

end Verif.Handshake
