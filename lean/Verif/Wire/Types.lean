import Verif.Codec.Types

/-!
The messages nodes exchange and their binary forms.
-/
namespace Verif.Wire
open Verif.Codec

/-- `PeerAddress` (p2p/types/src/peer_address.rs 28-53, ip_address.rs 21-33): the bytes of the IP and the
port. -/
inductive PeerAddress
  | ip4 (ip : Bytes) (port : Nat)
  | ip6 (ip : Bytes) (port : Nat)
deriving DecidableEq, Repr

/-- The index of the variant. -/
def PeerAddress.tag : PeerAddress → UInt8
  | .ip4 .. => 0
  | .ip6 .. => 1

/-- The variants. -/
def PeerAddress.variants : List (Variant PeerAddress) :=
  [variant 0 (pair (bytesN 4) (uint 2)) (fun (a, b) => .ip4 a b)
      (fun | .ip4 a b => Option.some (a, b) | _ => Option.none),
   variant 1 (pair (bytesN 16) (uint 2)) (fun (a, b) => .ip6 a b)
      (fun | .ip6 a b => Option.some (a, b) | _ => Option.none)]

/-- Its binary form. -/
def PeerAddress.codec : Codec PeerAddress := enum PeerAddress.variants

/-- The characters a user agent may contain: `is_ascii_alphanumeric` or `is_ascii_punctuation`, that is
the printable ones except the blank. -/
def userAgentChar (b : UInt8) : Bool := 0x21 ≤ b && b ≤ 0x7e

/-- `UserAgent` (common/src/primitives/user_agent.rs 20-76): not empty, at most 24 bytes, printable. -/
def userAgentC : Codec Bytes :=
  checked (fun l => !l.isEmpty && l.length ≤ 24 && l.all userAgentChar) blob

/-- `SemVer` (common/src/primitives/semver.rs 27-31). -/
structure SemVer where
  major : Nat
  minor : Nat
  patch : Nat
deriving DecidableEq, Repr

/-- Its binary form. -/
def SemVer.codec : Codec SemVer :=
  iso (fun x => (x.major, x.minor, x.patch)) (fun (a, b, c) => ⟨a, b, c⟩)
    (pair (uint 1) (pair (uint 1) (uint 2)))

/-- The fields common to both handshake messages (p2p/src/net/default_backend/types.rs 155-168, 171-182).
`MagicBytes` (common/src/chain/config/mod.rs 93), `ProtocolVersion` (p2p/src/protocol.rs 29), `Services`
(p2p/types/src/services.rs 32) and `P2pTimestamp` (types.rs 68, compact) are kept as bytes and numbers. -/
structure Hello where
  protocolVersion : Nat
  network : Bytes
  services : Nat
  userAgent : Bytes
  softwareVersion : SemVer
  receiverAddress : Option PeerAddress
  currentTime : Nat
deriving DecidableEq, Repr

/-- The binary form of these fields, in their order. -/
def Hello.codec : Codec Hello :=
  iso (fun x => (x.protocolVersion, x.network, x.services, x.userAgent, x.softwareVersion,
      x.receiverAddress, x.currentTime))
    (fun (a, b, c, d, e, f, g) => ⟨a, b, c, d, e, f, g⟩)
    (pair (uint 4) (pair (bytesN 4) (pair (uint 8) (pair userAgentC (pair SemVer.codec
      (pair (option PeerAddress.codec) (compact 8)))))))

/-- `HandshakeMessage` (p2p/src/net/default_backend/types.rs 152-184): the first one carries a nonce at
its end. -/
inductive HandshakeMessage
  | hello (h : Hello) (nonce : Nat)
  | helloAck (h : Hello)
deriving DecidableEq, Repr

/-- The index of the variant. -/
def HandshakeMessage.tag : HandshakeMessage → UInt8
  | .hello .. => 0
  | .helloAck .. => 1

/-- The variants. -/
def HandshakeMessage.variants : List (Variant HandshakeMessage) :=
  [variant 0 (pair Hello.codec (uint 8)) (fun (a, b) => .hello a b)
      (fun | .hello a b => Option.some (a, b) | _ => Option.none),
   variant 1 Hello.codec (fun a => .helloAck a)
      (fun | .helloAck a => Option.some a | _ => Option.none)]

/-- Its binary form. -/
def HandshakeMessage.codec : Codec HandshakeMessage := enum HandshakeMessage.variants

/-- `TransactionResponse` (p2p/src/message.rs 158-164). -/
inductive TransactionResponse
  | notFound (id : Bytes)
  | found (tx : SignedTransaction)
deriving DecidableEq, Repr

/-- The index of the variant. -/
def TransactionResponse.tag : TransactionResponse → UInt8
  | .notFound .. => 0
  | .found .. => 1

/-- The variants. -/
def TransactionResponse.variants (k : Crypto) : List (Variant TransactionResponse) :=
  [variant 0 hashC (fun a => .notFound a)
      (fun | .notFound a => Option.some a | _ => Option.none),
   variant 1 (SignedTransaction.codec k) (fun a => .found a)
      (fun | .found a => Option.some a | _ => Option.none)]

/-- Its binary form. -/
def TransactionResponse.codec (k : Crypto) : Codec TransactionResponse :=
  enum (TransactionResponse.variants k)

/-- `Message` (p2p/src/net/default_backend/types.rs 185-227) with its parts (p2p/src/message.rs 66-186,
chainstate/types/src/locator.rs 22).  The variant which exists in tests only is left out. -/
inductive Message
  | handshake (m : HandshakeMessage)
  | pingRequest (nonce : Nat)
  | pingResponse (nonce : Nat)
  | newTransaction (id : Bytes)
  | headerListRequest (locator : List Bytes)
  | headerList (headers : List SignedBlockHeader)
  | blockListRequest (ids : List Bytes)
  | blockResponse (block : BlockV1)
  | transactionRequest (id : Bytes)
  | transactionResponse (r : TransactionResponse)
  | announceAddr (a : PeerAddress)
  | addrListRequest
  | addrListResponse (l : List PeerAddress)
  | willDisconnect (reason : Bytes)
deriving DecidableEq, Repr

/-- The index of the variant. -/
def Message.tag : Message → UInt8
  | .handshake .. => 0
  | .pingRequest .. => 1
  | .pingResponse .. => 2
  | .newTransaction .. => 3
  | .headerListRequest .. => 4
  | .headerList .. => 5
  | .blockListRequest .. => 6
  | .blockResponse .. => 7
  | .transactionRequest .. => 11
  | .transactionResponse .. => 12
  | .announceAddr .. => 8
  | .addrListRequest => 9
  | .addrListResponse .. => 10
  | .willDisconnect .. => 13

/-- The variants. -/
def Message.variants (k : Crypto) : List (Variant Message) :=
  [variant 0 HandshakeMessage.codec (fun a => .handshake a)
      (fun | .handshake a => Option.some a | _ => Option.none),
   variant 1 (uint 8) (fun a => .pingRequest a)
      (fun | .pingRequest a => Option.some a | _ => Option.none),
   variant 2 (uint 8) (fun a => .pingResponse a)
      (fun | .pingResponse a => Option.some a | _ => Option.none),
   variant 3 hashC (fun a => .newTransaction a)
      (fun | .newTransaction a => Option.some a | _ => Option.none),
   variant 4 (vec hashC) (fun a => .headerListRequest a)
      (fun | .headerListRequest a => Option.some a | _ => Option.none),
   variant 5 (vec (SignedBlockHeader.codec k)) (fun a => .headerList a)
      (fun | .headerList a => Option.some a | _ => Option.none),
   variant 6 (vec hashC) (fun a => .blockListRequest a)
      (fun | .blockListRequest a => Option.some a | _ => Option.none),
   variant 7 (Block.codec k) (fun a => .blockResponse a)
      (fun | .blockResponse a => Option.some a | _ => Option.none),
   variant 11 hashC (fun a => .transactionRequest a)
      (fun | .transactionRequest a => Option.some a | _ => Option.none),
   variant 12 (TransactionResponse.codec k) (fun a => .transactionResponse a)
      (fun | .transactionResponse a => Option.some a | _ => Option.none),
   variant 8 PeerAddress.codec (fun a => .announceAddr a)
      (fun | .announceAddr a => Option.some a | _ => Option.none),
   variant 9 nothing (fun _ => .addrListRequest)
      (fun | .addrListRequest => Option.some () | _ => Option.none),
   variant 10 (vec PeerAddress.codec) (fun a => .addrListResponse a)
      (fun | .addrListResponse a => Option.some a | _ => Option.none),
   variant 13 (stringC k) (fun a => .willDisconnect a)
      (fun | .willDisconnect a => Option.some a | _ => Option.none)]

/-- Its binary form. -/
def Message.codec (k : Crypto) : Codec Message := enum (Message.variants k)

end Verif.Wire
