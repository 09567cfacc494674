import Verif.Codec.Base

/-!
Messages on a byte stream.

The network is a list of chunks: what successive reads deliver, in order; the end of the list is the
closed stream.  A read which delivers nothing means that the stream is closed, too.
Other failures of the operating system are not modelled.  Reserving memory has no effect which can be
observed.
-/
namespace Verif.Wire
open Verif.Codec

/-- The errors of `MessageCodec` and of `MessageReader::recv` (networking/src/error.rs). -/
inductive Err
  | tooLarge (actual max : Nat)
  | invalid
  | eof
deriving DecidableEq, Repr

/-- `check_encoded_message_size` (networking/src/transport/message_codec.rs 44-56). -/
def checkSize (limit : Option Nat) (size : Nat) : Except Err Unit :=
  match limit with
  | some max => if size > max then .error (.tooLarge size max) else .ok ()
  | none => .ok ()

/-- `MessageCodec::decode` (networking/src/transport/message_codec.rs 63-90): the result and the buffer
afterwards. -/
def decode {α : Type} (c : Codec α) (limit : Option Nat) (src : Bytes) :
    Except Err (Option α) × Bytes :=
  if src.length < 4 then (.ok none, src)
  else
    let length := leNat (src.take 4)
    let remaining := src.drop 4
    match checkSize limit length with
    | .error e => (.error e, src)
    | .ok _ =>
      if remaining.length < length then (.ok none, src)
      else
        match c.decodeAll (remaining.take length) with
        | some m => (.ok (some m), src.drop (4 + length))
        | none => (.error .invalid, src.drop (4 + length))

/-- `MessageCodec::encode` into an empty buffer and `MessageWriter::send`
(networking/src/transport/message_codec.rs 96-108, message_stream.rs 114-120): the bytes written; the
length is cut to 32 bits. -/
def send {α : Type} (c : Codec α) (limit : Option Nat) (m : α) : Except Err Bytes :=
  match checkSize limit (c.enc m).length with
  | .error e => .error e
  | .ok _ => .ok (leBytes 4 ((c.enc m).length % 2 ^ 32) ++ c.enc m)

/-- `MessageReader::recv` (networking/src/transport/message_stream.rs 71-84) with the buffer and the
network: the result, the buffer and the network afterwards. -/
def recv {α : Type} (c : Codec α) (limit : Option Nat) :
    Bytes → List Bytes → Except Err α × Bytes × List Bytes
  | buf, [] =>
    match decode c limit buf with
    | (.ok (some m), b) => (.ok m, b, [])
    | (.ok none, b) => (.error .eof, b, [])
    | (.error e, b) => (.error e, b, [])
  | buf, chunk :: net =>
    match decode c limit buf with
    | (.ok (some m), b) => (.ok m, b, chunk :: net)
    | (.ok none, b) =>
      if chunk = [] then (.error .eof, b, net) else recv c limit (b ++ chunk) net
    | (.error e, b) => (.error e, b, chunk :: net)

/-- Receives a number of messages one after the other, whatever each of them gives. -/
def recvMany {α : Type} (c : Codec α) (limit : Option Nat) :
    Nat → Bytes → List Bytes → List (Except Err α) × Bytes × List Bytes
  | 0, buf, net => ([], buf, net)
  | n + 1, buf, net =>
    let (r, buf', net') := recv c limit buf net
    let (rs, b, s) := recvMany c limit n buf' net'
    (r :: rs, b, s)

/-- Sends messages one after the other until one fails: all bytes written. -/
def sendMany {α : Type} (c : Codec α) (limit : Option Nat) : List α → Except Err Bytes
  | [] => .ok []
  | m :: ms => do
    let a ← send c limit m
    let b ← sendMany c limit ms
    return a ++ b

end Verif.Wire
