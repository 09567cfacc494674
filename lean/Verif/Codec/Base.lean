/-
The binary format in which consensus objects are hashed, stored and sent.

mintlayer-core derives its encoders with `parity_scale_codec` (re-exported by
`serialization/core/src/lib.rs` and `serialization/src/lib.rs`).  That crate is an external
dependency and is not part of /repo; the definitions of this file model it from the SCALE
specification:

* fixed width integers are little endian,
* compact integers use the two low bits of the first byte as the mode and are refused when a shorter
  form exists,
* a struct is the concatenation of its fields in order, an enum the index byte of the variant followed
  by its fields,
* a vector is its compact length (32 bit) followed by the elements,
* an option is a byte 0 or a byte 1 followed by the value.

Memory limits, nesting depth limits and error texts are not modelled: decoding gives `none` on any
error.  `ok a` describes the values the Rust type can hold, together with the limit of `2^32 - 1` elements
above which encoding a vector panics.
-/
namespace Verif.Codec

/-- Byte strings. -/
abbrev Bytes := List UInt8

/-- An encoder together with a decoder; the decoder returns the value and the unread input
(`Encode::encode_to` and `Decode::decode` of `parity_scale_codec`). -/
structure Codec (α : Type) where
  ok : α → Prop
  enc : α → Bytes
  dec : Bytes → Option (α × Bytes)

/-- Decoding is the exact inverse of encoding: what was encoded is read back whatever follows it, and
whatever can be read is exactly the encoding of the value read. -/
class Lawful {α : Type} (c : Codec α) : Prop where
  round : ∀ a r, c.ok a → c.dec (c.enc a ++ r) = some (a, r)
  canon : ∀ bs a r, c.dec bs = some (a, r) → c.ok a ∧ bs = c.enc a ++ r

/-- `DecodeAll::decode_all` (re-exported by serialization/core/src/lib.rs): decodes and refuses unread
input. -/
def Codec.decodeAll {α : Type} (c : Codec α) (bs : Bytes) : Option α :=
  match c.dec bs with
  | some (a, []) => some a
  | _ => none

/-! ### Integers -/

/-- The `n` low bytes of a number, least significant first (`to_le_bytes`). -/
def leBytes : Nat → Nat → Bytes
  | 0, _ => []
  | n + 1, v => UInt8.ofNat (v % 256) :: leBytes n (v / 256)

/-- The number with the given little endian bytes (`from_le_bytes`). -/
def leNat : Bytes → Nat
  | [] => 0
  | b :: bs => b.toNat + 256 * leNat bs

/-- Takes exactly `n` bytes off the input (`Input::read`). -/
def takeN (n : Nat) (bs : Bytes) : Option (Bytes × Bytes) :=
  if n ≤ bs.length then some (bs.take n, bs.drop n) else none

/-- An `n` byte unsigned integer, little endian (`u8`, `u16`, `u32`, `u64`, `u128`). -/
def uint (n : Nat) : Codec Nat where
  ok v := v < 256 ^ n
  enc v := leBytes n v
  dec bs := (takeN n bs).map fun (x, r) => (leNat x, r)

/-- The number of bytes of a positive number (`bytes_needed` of the compact encoders, `8 - lz / 8` for
64 bit numbers with `lz` leading zeros). -/
def byteLen (v : Nat) : Nat := Nat.log2 v / 8 + 1

/-- The least number whose compact form has `n` bytes after the first one. -/
def bigMin (n : Nat) : Nat := if n = 4 then 2 ^ 30 else 256 ^ (n - 1)

/-- Reads the big form of compact integers: `n` bytes, refused when a shorter form would have
represented the number. -/
def compactBig (w n : Nat) (bs : Bytes) : Option (Nat × Bytes) :=
  if n ≤ w then
    match takeN n bs with
    | some (x, r) =>
      if bigMin n ≤ leNat x then some (leNat x, r) else none
    | none => none
  else none

/-- Reads a compact integer of a type with `w` bytes. -/
def compactDec (w : Nat) : Bytes → Option (Nat × Bytes)
  | [] => none
  | b :: bs =>
    match b.toNat % 4 with
    | 0 => some (b.toNat / 4, bs)
    | 1 =>
      match takeN 1 bs with
      | some (x, r) =>
        if 2 ^ 6 ≤ leNat (b :: x) / 4 then some (leNat (b :: x) / 4, r) else none
      | none => none
    | 2 =>
      match takeN 3 bs with
      | some (x, r) =>
        if 2 ^ 14 ≤ leNat (b :: x) / 4 then some (leNat (b :: x) / 4, r) else none
      | none => none
    | _ => compactBig w (b.toNat / 4 + 4) bs

/-- Writes a compact integer. -/
def compactEnc (v : Nat) : Bytes :=
  if v < 2 ^ 6 then leBytes 1 (4 * v)
  else if v < 2 ^ 14 then leBytes 2 (4 * v + 1)
  else if v < 2 ^ 30 then leBytes 4 (4 * v + 2)
  else UInt8.ofNat (4 * (byteLen v - 4) + 3) :: leBytes (byteLen v) v

/-- `Compact<T>` of an unsigned integer type with `w` bytes (4, 8 or 16). -/
def compact (w : Nat) : Codec Nat where
  ok v := v < 256 ^ w
  enc := compactEnc
  dec := compactDec w

/-! ### Composite types -/

/-- An array `[u8; n]`. -/
def bytesN (n : Nat) : Codec Bytes where
  ok l := l.length = n
  enc l := l
  dec := takeN n

/-- A type without data (`()`, `PhantomData`). -/
def nothing : Codec Unit where
  ok _ := True
  enc _ := []
  dec bs := some ((), bs)

/-- Two fields in order. -/
def pair {α β : Type} (c : Codec α) (d : Codec β) : Codec (α × β) where
  ok p := c.ok p.1 ∧ d.ok p.2
  enc p := c.enc p.1 ++ d.enc p.2
  dec bs :=
    match c.dec bs with
    | some (a, r) =>
      match d.dec r with
      | some (b, r') => some ((a, b), r')
      | none => none
    | none => none

/-- A struct seen as the tuple of its fields. -/
def iso {α β : Type} (f : α → β) (g : β → α) (c : Codec β) : Codec α where
  ok a := c.ok (f a)
  enc a := c.enc (f a)
  dec bs := (c.dec bs).map fun (b, r) => (g b, r)

/-- A type whose decoder additionally checks the value read. -/
def checked {α : Type} (p : α → Bool) (c : Codec α) : Codec α where
  ok a := c.ok a ∧ p a = true
  enc := c.enc
  dec bs :=
    match c.dec bs with
    | some (a, r) => if p a then some (a, r) else none
    | none => none

/-- A constant byte which takes no space in memory (`VersionTag`, serialization/tagged/src/lib.rs
181-205). -/
def tagged {α : Type} (t : UInt8) (c : Codec α) : Codec α where
  ok := c.ok
  enc a := t :: c.enc a
  dec bs :=
    match bs with
    | b :: r => if b = t then c.dec r else none
    | [] => none

/-- Reads `n` elements. -/
def decMany {α : Type} (c : Codec α) : Nat → Bytes → Option (List α × Bytes)
  | 0, bs => some ([], bs)
  | n + 1, bs =>
    match c.dec bs with
    | some (a, r) =>
      match decMany c n r with
      | some (l, r') => some (a :: l, r')
      | none => none
    | none => none

/-- Writes elements one after the other. -/
def encMany {α : Type} (c : Codec α) : List α → Bytes
  | [] => []
  | a :: l => c.enc a ++ encMany c l

/-- `Vec<T>`: compact length, then the elements. -/
def vec {α : Type} (c : Codec α) : Codec (List α) where
  ok l := l.length < 256 ^ 4 ∧ ∀ a ∈ l, c.ok a
  enc l := compactEnc l.length ++ encMany c l
  dec bs :=
    match compactDec 4 bs with
    | some (n, r) => decMany c n r
    | none => none

/-- One byte. -/
def byte : Codec UInt8 where
  ok _ := True
  enc b := [b]
  dec bs :=
    match bs with
    | b :: r => some (b, r)
    | [] => none

/-- `Vec<u8>`. -/
def blob : Codec Bytes := vec byte

/-- `Option<T>`. -/
def option {α : Type} (c : Codec α) : Codec (Option α) where
  ok o := ∀ a, o = some a → c.ok a
  enc o :=
    match o with
    | none => [0]
    | some a => 1 :: c.enc a
  dec bs :=
    match bs with
    | [] => none
    | b :: r =>
      if b = 0 then some (none, r)
      else if b = 1 then
        match c.dec r with
        | some (a, r') => some (some a, r')
        | none => none
      else none

/-- An enum whose variants are told apart by the first byte of their first field, without an index of its
own, with the single variant of tag `t` (`DirectEncode`, `DirectDecode`,
serialization/tagged/derive/src/direct.rs 88-165): the first byte is looked at, and decides. -/
def direct {α : Type} (t : UInt8) (c : Codec α) : Codec α where
  ok := c.ok
  enc := c.enc
  dec bs :=
    match bs with
    | b :: r => if b = t then c.dec (b :: r) else none
    | [] => none

/-- `DataOrNoVec<u8>` (serialization/src/extras/non_empty_vec.rs 60-95): an optional vector, the absent
one written as an empty vector; a present one cannot be empty. -/
def noVec : Codec (Option Bytes) where
  ok o := ∀ l, o = some l → l ≠ [] ∧ blob.ok l
  enc o := blob.enc (o.getD [])
  dec bs :=
    match blob.dec bs with
    | some ([], r) => some (none, r)
    | some (l, r) => some (some l, r)
    | none => none

/-! ### Enums -/

/-- One variant of an enum: its index, the encoder of its fields (`none` for values of other variants)
and the decoder of its fields. -/
structure Variant (α : Type) where
  idx : UInt8
  ok : α → Prop
  enc : α → Option Bytes
  dec : Bytes → Option (α × Bytes)

/-- A variant given by the codec of its fields, the constructor and its partial inverse. -/
def variant {α β : Type} (i : UInt8) (c : Codec β) (mk : β → α) (get : α → Option β) :
    Variant α where
  idx := i
  ok a := ∀ b, get a = some b → c.ok b
  enc a := (get a).map c.enc
  dec bs := (c.dec bs).map fun (b, r) => (mk b, r)

/-- The first of the variants which the value belongs to. -/
def encEnum {α : Type} : List (Variant α) → α → Bytes
  | [], _ => []
  | v :: vs, a =>
    match v.enc a with
    | some bs => v.idx :: bs
    | none => encEnum vs a

/-- Reads the variant with the given index. -/
def decEnum {α : Type} : List (Variant α) → UInt8 → Bytes → Option (α × Bytes)
  | [], _, _ => none
  | v :: vs, i, bs => if v.idx = i then v.dec bs else decEnum vs i bs

/-- `#[derive(Encode, Decode)]` for an enum. -/
def enum {α : Type} (vs : List (Variant α)) : Codec α where
  ok a := ∀ v ∈ vs, v.ok a
  enc := encEnum vs
  dec bs :=
    match bs with
    | i :: r => decEnum vs i r
    | [] => none

end Verif.Codec
