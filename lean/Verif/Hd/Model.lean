import Verif.Base.Amount
import Verif.Decimal.Model
import Verif.Codec.Base
import Mathlib.Algebra.Group.Basic

/-!
# Model of derivation paths and derived keys
-/

namespace Verif.Hd
open Verif
open Verif.Codec (Bytes Codec leBytes leNat takeN encMany decMany)
open Verif.Decimal (isDigit digitVal showNat)

/-- `DerivationError` – crypto/src/key/hdkd/derivable.rs 20-38; the first four of those used -/
inductive Err
  | invalidChildNumber (v : Nat)
  | childNumberFormat
  | pathFormat
  | keyDerivation
  | pathTooLong
  | cannotDerivePath (p : List Nat)
  | hardenedFromPublic (c : Nat)
deriving DecidableEq

/-! ### Child numbers

`ChildNumber` (crypto/src/key/hdkd/child_number.rs 26-28) and `U31` are 32 bit integers; here they are natural numbers and
their bit operations are arithmetic. -/

/-- `MSB_BIT` – crypto/src/key/hdkd/u31.rs 22 -/
def msb : Nat := 2 ^ 31

/-- `from_u32_with_msb` – u31.rs 32-37 -/
def splitMsb (v : Nat) : Nat × Bool := (v % msb, decide (msb ≤ v))

/-- `into_encoded_with_msb` – u31.rs 51-53 -/
def encodeMsb (i : Nat) (b : Bool) : Nat := if b then i + msb else i

/-- `TryFrom<u32> for U31` – u31.rs 66-72 -/
def toU31 (v : Nat) : Except Err Nat := if v < msb then .ok v else .error (.invalidChildNumber v)

/-- `from_hardened` – child_number.rs 35-37 -/
def hardened (i : Nat) : Nat := encodeMsb i true

/-- `from_normal` – 40-42 -/
def normal (i : Nat) : Nat := encodeMsb i false

/-- `is_hardened` – 59-61 -/
def isHardened (c : Nat) : Bool := (splitMsb c).2

/-- `increment` – 75-79 -/
def increment (c : Nat) : Except Err Nat := do
  let i ← toU31 ((splitMsb c).1 + 1)
  pure (encodeMsb i (splitMsb c).2)

/-- a step of `u32::from_str` on digits: checked multiplication and addition -/
def u32Step (a : Nat) (c : Char) : Option Nat :=
  if a * 10 < 2 ^ 32 then
    if a * 10 + digitVal c < 2 ^ 32 then some (a * 10 + digitVal c) else none
  else none

/-- `FromStr for U31` – u31.rs 80-87, on digits (the caller has looked at the characters) -/
def parseU31 (s : List Char) : Except Err Nat :=
  match (if s = [] then none else s.foldlM u32Step 0) with
  | none => .error .childNumberFormat
  | some v => toU31 v

/-- `strip_suffix([HARDENED_APOS, HARDENED_H])` – child_number.rs 87-90 -/
def stripMark (s : List Char) : List Char × Bool :=
  match s.getLast? with
  | some '\'' => (s.dropLast, true)
  | some 'h' => (s.dropLast, true)
  | _ => (s, false)

/-- `FromStr for ChildNumber` – 82-111 -/
def parseChild (s : List Char) : Except Err Nat := do
  let index := (stripMark s).1
  ensure (index.any (fun c => !isDigit c) = false) .childNumberFormat
  ensure (¬(index.length > 1 ∧ index.head? = some '0')) .childNumberFormat
  let i ← parseU31 index
  pure (if (stripMark s).2 then hardened i else normal i)

/-- `Display for ChildNumber` – 113-124; `alt` is the alternate form `{:#}` -/
def showChild (alt : Bool) (c : Nat) : List Char :=
  if (splitMsb c).2 then showNat (splitMsb c).1 ++ [if alt then 'h' else '\''] else showNat (splitMsb c).1

/-! ### Paths -/

/-- `MAX_PATH_SIZE` – crypto/src/key/hdkd/derivation_path.rs 27 -/
def maxPath : Nat := 255

/-- `TryFrom<Vec<ChildNumber>>` – 88-98 -/
def toPath (p : List Nat) : Except Err (List Nat) := if p.length ≤ maxPath then .ok p else .error .pathTooLong

/-- `str::split("/")` -/
def split : List Char → List (List Char)
  | [] => [[]]
  | c :: cs =>
    if c = '/' then [] :: split cs
    else
      match split cs with
      | [] => [[c]]
      | h :: t => (c :: h) :: t

/-- collecting results up to the first error -/
def collect : List (List Char) → Except Err (List Nat)
  | [] => .ok []
  | s :: ss => do
    let c ← parseChild s
    let r ← collect ss
    pure (c :: r)

/-- `FromStr for DerivationPath` – 109-125 -/
def parsePath (s : List Char) : Except Err (List Nat) :=
  match split s with
  | [] => .error .pathFormat
  | pre :: parts =>
    if pre ≠ ['m'] then .error .pathFormat
    else do
      let p ← collect parts
      toPath p

/-- `Display for DerivationPath` – 127-136; the alternate form is passed on to the children -/
def showPath (alt : Bool) (p : List Nat) : List Char := 'm' :: p.flatMap fun c => '/' :: showChild alt c

/-- `to_be_bytes`, `from_be_bytes` of `u32` – child_number.rs 67-73 -/
def be4 : Codec Nat where
  ok c := c < 256 ^ 4
  enc c := (leBytes 4 c).reverse
  dec bs := (takeN 4 bs).map fun (x, r) => (leNat x.reverse, r)

/-- `Encode`, `Decode for DerivationPath` – derivation_path.rs 63-86 -/
def pathCodec : Codec (List Nat) where
  ok p := p.length ≤ 255 ∧ ∀ c ∈ p, c < 256 ^ 4
  enc p := UInt8.ofNat (p.length % 256) :: encMany be4 p
  dec bs :=
    match bs with
    | [] => none
    | n :: r => decMany be4 n.toNat r

/-- `slice::strip_prefix` -/
def stripPrefix : List Nat → List Nat → Option (List Nat)
  | p, [] => some p
  | [], _ :: _ => none
  | a :: p, b :: q => if a = b then stripPrefix p q else none

/-- `get_super_path_diff` – 58-60 -/
def superPathDiff (p sub : List Nat) : Option (List Nat) := (stripPrefix p sub).filter fun d => !d.isEmpty

/-! ### Keys -/

/-- What derivation is built on: the group of the curve with its generator and the number of scalars, compressed
serialization of points (`secp256k1::PublicKey::serialize`), and HMAC-SHA512, whose result is cut in two halves
(crypto/src/util/mod.rs 32-56). -/
structure Curve where
  G : Type
  grp : AddCommGroup G
  deq : DecidableEq G
  g : G
  n : Nat
  ser : G → Bytes
  hmac : Bytes → Bytes → Bytes × Bytes

attribute [instance] Curve.grp Curve.deq

variable {C : Curve}

/-- `SecretKey::from_slice` as used in `to_key_and_chain_code` – crypto/src/key/secp256k1/extended_keys.rs 63-70: numbers from 1
below the order -/
def secretOf (C : Curve) (bs : Bytes) : Except Err Nat :=
  if 0 < leNat bs.reverse ∧ leNat bs.reverse < C.n then .ok (leNat bs.reverse) else .error .keyDerivation

/-- `PublicKey::from_secret_key` -/
def pointOf (C : Curve) (k : Nat) : C.G := k • C.g

/-- `SecretKey::add_tweak` -/
def addTweak (C : Curve) (k t : Nat) : Except Err Nat :=
  if (k + t) % C.n = 0 then .error .keyDerivation else .ok ((k + t) % C.n)

/-- `PublicKey::add_exp_tweak` -/
def addExpTweak (C : Curve) (q : C.G) (t : Nat) : Except Err C.G :=
  if q + t • C.g = 0 then .error .keyDerivation else .ok (q + t • C.g)

/-- `Secp256k1ExtendedPrivateKey` – extended_keys.rs 40-49 -/
structure Priv where
  path : List Nat
  chain : Bytes
  key : Nat
deriving DecidableEq

/-- `Secp256k1ExtendedPublicKey` – 169-178 -/
structure Pub (C : Curve) where
  path : List Nat
  chain : Bytes
  key : C.G

/-- `new_master` – 73-86 -/
def newMaster (C : Curve) (seed : Bytes) : Except Err Priv := do
  let m := C.hmac [66, 105, 116, 99, 111, 105, 110, 32, 115, 101, 101, 100] seed
  let k ← secretOf C m.1
  pure ⟨[], m.2, k⟩

/-- `from_private_key` – 205-213 -/
def Priv.toPublic (C : Curve) (k : Priv) : Pub C := ⟨k.path, k.chain, pointOf C k.key⟩

/-- what is authenticated for a child of a private key – 125-141 -/
def privInput (C : Curve) (k : Nat) (c : Nat) : Bytes :=
  (if isHardened c then 0 :: (leBytes 32 k).reverse else C.ser (pointOf C k)) ++ be4.enc c

/-- `derive_child` of a private key – 119-162 -/
def Priv.deriveChild (C : Curve) (k : Priv) (c : Nat) : Except Err Priv := do
  let m := C.hmac k.chain (privInput C k.key c)
  let part ← secretOf C m.1
  let key ← addTweak C part k.key
  let path ← toPath (k.path ++ [c])
  pure ⟨path, m.2, key⟩

/-- `derive_child` of a public key – 229-267 -/
def Pub.deriveChild (k : Pub C) (c : Nat) : Except Err (Pub C) :=
  if isHardened c then .error (.hardenedFromPublic c)
  else do
    let m := C.hmac k.chain (C.ser k.key ++ be4.enc c)
    let part ← secretOf C m.1
    let key ← addExpTweak C k.key part
    let path ← toPath (k.path ++ [c])
    pure ⟨path, m.2, key⟩

/-- the fold of `derive_absolute_path` – derivable.rs 50 -/
def deriveSteps {K : Type} (step : K → Nat → Except Err K) : K → List Nat → Except Err K
  | k, [] => .ok k
  | k, c :: cs => do
    let k' ← step k c
    deriveSteps step k' cs

/-- `derive_absolute_path` – derivable.rs 45-51 -/
def deriveAbs {K : Type} (pathOf : K → List Nat) (step : K → Nat → Except Err K) (k : K) (p : List Nat) : Except Err K :=
  match superPathDiff p (pathOf k) with
  | none => .error (.cannotDerivePath p)
  | some d => deriveSteps step k d

/-- `derive_absolute_path` of a private key -/
def Priv.derive (C : Curve) (k : Priv) (p : List Nat) : Except Err Priv := deriveAbs Priv.path (Priv.deriveChild C) k p

/-- `derive_absolute_path` of a public key -/
def Pub.derive (k : Pub C) (p : List Nat) : Except Err (Pub C) := deriveAbs Pub.path Pub.deriveChild k p

/-! ### The wallet's keys -/

/-- `make_account_path` – wallet/src/key_chain/mod.rs 323-332 -/
def accountPath (coin account : Nat) : List Nat := [hardened 44, coin, hardened account]

/-- `AccountKeyChainImpl::new_from_root_key`, `derive_account_private_key` – wallet/src/key_chain/account_key_chain/mod.rs
85-89, 210-218 -/
def accountKey (C : Curve) (root : Priv) (coin account : Nat) : Except Err Priv := root.derive C (accountPath coin account)

/-- `KeyPurpose::get_deterministic_index` – wallet/types/src/keys.rs 48-58 -/
def purposeIndex (change : Bool) : Nat := if change then normal 1 else normal 0

/-- the public key behind an address of an account: `LeafKeySoftChain::derive_key` (leaf_key_chain/mod.rs 295-307) on the chain
of the purpose, without the pool of keys derived before -/
def addressKey (account : Pub C) (change : Bool) (index : Nat) : Except Err (Pub C) := do
  let parent ← account.deriveChild (purposeIndex change)
  parent.deriveChild (normal index)

/-- `KeyChainError` of `get_private_key` -/
inductive ChainErr
  | derivation (e : Err)
  | notInSameHierarchy

/-- `get_private_key` – account_key_chain/mod.rs 232-243 -/
def getPrivateKey (parent : Priv) (requested : Pub C) : Except ChainErr Priv :=
  match parent.derive C requested.path with
  | .error e => .error (.derivation e)
  | .ok k =>
    if (k.toPublic C).path = requested.path ∧ (k.toPublic C).chain = requested.chain ∧ (k.toPublic C).key = requested.key
    then .ok k else .error .notInSameHierarchy

end Verif.Hd
