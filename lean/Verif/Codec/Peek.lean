import Verif.Codec.Types

/-!
Input with a one byte lookahead, the signature set of multisig spends, and the identifiers of
transactions and blocks.
-/
namespace Verif.Codec

/-! ### Lookahead -/

/-- `Peekable` (serialization/tagged/src/derive_support.rs 24-27): the byte looked at, if it is still to be
delivered, and the inner input. -/
structure Peekable where
  init : Option UInt8
  inner : Bytes
deriving DecidableEq, Repr

/-- `Peekable::peek` (35-38). -/
def Peekable.peek (p : Peekable) : Option (Bytes × Peekable) :=
  match p.init with
  | some b => some ([b], p)
  | none =>
    match p.inner with
    | b :: r => some ([b], ⟨some b, r⟩)
    | [] => none

/-- `Peekable::read` (59-70). -/
def Peekable.read (n : Nat) (p : Peekable) : Option (Bytes × Peekable) :=
  match p.init with
  | none =>
    match takeN n p.inner with
    | some (x, r) => some (x, ⟨none, r⟩)
    | none => none
  | some b =>
    match n with
    | 0 => some ([], ⟨none, p.inner⟩)
    | m + 1 =>
      match takeN m p.inner with
      | some (x, r) => some (b :: x, ⟨none, r⟩)
      | none => none

/-- `Peekable::read_byte` (72-74). -/
def Peekable.readByte (p : Peekable) : Option (Bytes × Peekable) :=
  match p.init with
  | some b => some ([b], ⟨none, p.inner⟩)
  | none =>
    match p.inner with
    | b :: r => some ([b], ⟨none, r⟩)
    | [] => none

/-- `Peekable::remaining_len` (55-57). -/
def Peekable.remainingLen (p : Peekable) : Nat :=
  p.inner.length + (match p.init with | some _ => 1 | none => 0)

/-- A request to the input. -/
inductive ReadOp
  | peek
  | readByte
  | read (n : Nat)
deriving DecidableEq, Repr

/-- Serves one request. -/
def Peekable.step (p : Peekable) : ReadOp → Option (Bytes × Peekable)
  | .peek => p.peek
  | .readByte => p.readByte
  | .read n => p.read n

/-- Serves requests until the first failure. -/
def Peekable.run : List ReadOp → Peekable → Option (List Bytes × Peekable)
  | [], p => some ([], p)
  | op :: ops, p =>
    match p.step op with
    | some (x, q) =>
      match Peekable.run ops q with
      | some (xs, q') => some (x :: xs, q')
      | none => none
    | none => none

/-! ### Multisig spends -/

/-- Puts an entry into a list sorted by key, replacing an entry with the same key
(`BTreeMap::insert`). -/
def putSorted (i : Nat) (s : Bytes) : List (Nat × Bytes) → List (Nat × Bytes)
  | [] => [(i, s)]
  | (j, t) :: l =>
    if i < j then (i, s) :: (j, t) :: l
    else if i = j then (i, s) :: l
    else (j, t) :: putSorted i s l

/-- `BTreeMap::from_iter`: of entries with the same key the last one is kept. -/
def collectMap (l : List (Nat × Bytes)) : List (Nat × Bytes) :=
  l.foldl (fun m (i, s) => putSorted i s m) []

/-- `BTreeMap<u8, Signature>`: written in the order of the keys, read from entries in any order. -/
def sigMap : Codec (List (Nat × Bytes)) where
  ok l := (l.map (·.1)).Pairwise (· < ·) ∧ (vec (pair (uint 1) signatureC)).ok l
  enc l := (vec (pair (uint 1) signatureC)).enc l
  dec bs := ((vec (pair (uint 1) signatureC)).dec bs).map fun (l, r) => (collectMap l, r)

/-- `AuthorizedClassicalMultisigSpend`
(common/src/chain/transaction/signature/inputsig/classical_multisig/authorize_classical_multisig.rs
57-60): the signatures by the number of the key, and the challenge. -/
def multisigSpend (k : Crypto) : Codec (List (Nat × Bytes) × MultisigChallenge) :=
  pair sigMap (MultisigChallenge.codec k)

/-! ### Identifiers -/

/-- The identifier of a transaction (common/src/chain/transaction/transaction_v1.rs 70-75), with the hash
function `H`. -/
def txId (H : Bytes → Bytes) (k : Crypto) (tx : TransactionV1) : Bytes :=
  H ((Transaction.codec k).enc tx)

/-- The identifier of a block (common/src/chain/block/mod.rs 213-220): the hash of its unsigned
header. -/
def blockId (H : Bytes → Bytes) (k : Crypto) (b : BlockV1) : Bytes :=
  H ((BlockHeader.codec k).enc b.header.header)

end Verif.Codec
