import Verif.Base.Amount
import Verif.Codec.Types

/-!
# Addresses

Model of `common/src/address/mod.rs`, `common/src/primitives/bech32_encoding/mod.rs` and the prefixes in
`common/src/chain/config/mod.rs`.  The encoding itself is done by the external crate `bech32` (0.11), which is not
in the repository; it is modelled after BIP 173 and BIP 350 and the documentation of the crate (among others, that
bits left over after the last whole byte are dropped without a check).  The strings in
`common/src/primitives/bech32_encoding/tests.rs` are reproduced in `Verif.Address.Props`.

Characters are numbers (Unicode scalar values), strings are lists of them.
-/

namespace Verif.Address
open Verif Codec

abbrev Str := List Nat

/-- the characters of a literal -/
def str (s : String) : Str := s.toList.map Char.toNat

/-- `Bech32Error` and `AddressError` (bech32_encoding/error.rs 21-53, address/mod.rs 34-43), without details -/
inductive Err
  | character | hrp | checksum | tooLong | decoding | wrongPrefix
  deriving DecidableEq, Repr

/-! ### The crate `bech32` -/

def isUpper (c : Nat) : Bool := decide (65 ≤ c ∧ c ≤ 90)
def isLower (c : Nat) : Bool := decide (97 ≤ c ∧ c ≤ 122)
def lower (c : Nat) : Nat := if isUpper c then c + 32 else c

/-- the 32 characters, in the order of their values (BIP 173) -/
def charset : Str := str "qpzry9x8gf2tvdw0s3jn54khce6mua7l"

/-- the value of a character, in upper or lower case -/
def value (c : Nat) : Option Nat := charset.idxOf? (lower c)

/-- the character of a value -/
def char (v : Nat) : Nat := charset.getD v 0

/-- the part of the generator selected by the highest five bits (BIP 173, `bech32_polymod`) -/
def spread (b : Nat) : Nat :=
  ((((if b.testBit 0 then 0x3b6a57b2 else 0) ^^^ (if b.testBit 1 then 0x26508e6d else 0)) ^^^ (if b.testBit 2 then 0x1ea119fa else 0)) ^^^
    (if b.testBit 3 then 0x3d4233dd else 0)) ^^^ (if b.testBit 4 then 0x2a1462b3 else 0)

/-- one more symbol -/
def step (c v : Nat) : Nat := (((c &&& 0x1ffffff) <<< 5) ^^^ spread (c >>> 25)) ^^^ v

/-- the symbols of the human readable part -/
def expand (hrp : Str) : List Nat := hrp.map (fun c => lower c >>> 5) ++ 0 :: hrp.map (fun c => lower c &&& 31)

/-- the residue of BIP 350 -/
def target : Nat := 0x2bc830a3

/-- the longest string with a checksum -/
def codeLength : Nat := 1023

/-- the six symbols of the checksum -/
def checksum (l : List Nat) : List Nat :=
  let r := (l ++ [0, 0, 0, 0, 0, 0]).foldl step 1 ^^^ target
  [5, 4, 3, 2, 1, 0].map (fun i => (r >>> (5 * i)) &&& 31)

/-- the bits of a number, the highest first -/
def bits : Nat → Nat → List Bool
  | 0, _ => []
  | w + 1, n => bits w (n / 2) ++ [n % 2 == 1]

def number (l : List Bool) : Nat := l.foldl (fun n b => 2 * n + b.toNat) 0

/-- bytes to symbols of five bits, filled up with zeros -/
def regroup : List Bool → List Nat
  | a :: b :: c :: d :: e :: r => number [a, b, c, d, e] :: regroup r
  | [] => []
  | l => [number ((l ++ [false, false, false, false]).take 5)]

/-- symbols to bytes; incomplete bytes are dropped -/
def whole : List Bool → Bytes
  | a :: b :: c :: d :: e :: f :: g :: h :: r => UInt8.ofNat (number [a, b, c, d, e, f, g, h]) :: whole r
  | _ => []

def toSymbols (bs : Bytes) : List Nat := regroup (bs.flatMap (fun b => bits 8 b.toNat))

def toBytes (l : List Nat) : Bytes := whole (l.flatMap (bits 5))

def mixedCase (s : Str) : Bool := s.any isUpper && s.any isLower

/-- `Hrp::parse` -/
def hrpOk (h : Str) : Bool := decide (1 ≤ h.length ∧ h.length ≤ 83) && h.all (fun c => decide (33 ≤ c ∧ c ≤ 126)) && !mixedCase h

/-- the string before and after the last '1' -/
def splitLast : Str → Option (Str × Str)
  | [] => none
  | c :: s =>
    match splitLast s with
    | some (a, b) => some (c :: a, b)
    | none => if c = 49 then some ([], s) else none

/-- `UncheckedHrpstring::new` -/
def parse (s : Str) : Except Err (Str × List Nat) := do
  let (hrp, rest) ← okOr (splitLast s) .character
  let l ← okOr (rest.mapM value) .character
  ensure (mixedCase s = false) .character
  ensure (hrpOk hrp = true) .hrp
  pure (hrp, l)

/-! ### `bech32_encoding` -/

/-- `bech32m_decode` – bech32_encoding/mod.rs 20-29: the checksum must be that of Bech32m, since both of the checks
must succeed -/
def decode (s : Str) : Except Err (Str × Bytes) := do
  let (hrp, l) ← parse s
  ensure (6 ≤ l.length) .checksum
  ensure (s.length ≤ codeLength) .checksum
  ensure ((expand hrp ++ l).foldl step 1 = target) .checksum
  pure (hrp, toBytes (l.take (l.length - 6)))

/-- `bech32m_encode` – bech32_encoding/mod.rs 31-40 -/
def encode (hrp : Str) (data : Bytes) : Except Err Str := do
  ensure (hrpOk hrp = true) .hrp
  ensure (hrp.length + 1 + (toSymbols data).length + 6 ≤ codeLength) .tooLong
  pure (hrp.map lower ++ 49 :: (toSymbols data ++ checksum (expand hrp ++ toSymbols data)).map char)

/-! ### `Address` -/

variable {T : Type}

/-- `Addressable` – address/traits.rs 23-41, for a given chain: the prefix of an object and its binary form -/
structure Kind (T : Type) where
  pfx : T → Str
  codec : Codec T

/-- `Address` – address/mod.rs 47-50 -/
structure Address (T : Type) where
  address : Str
  object : T
  deriving DecidableEq, Repr

/-- `Address::new` – address/mod.rs 53-57 -/
def Kind.new (k : Kind T) (o : T) : Except Err (Address T) := do
  let s ← encode (k.pfx o) (k.codec.enc o)
  pure ⟨s, o⟩

/-- `decode_address` – address/mod.rs 111-120 -/
def Kind.decodeAddress (k : Kind T) (s : Str) : Except Err T := do
  let (hrp, data) ← decode s
  let o ← okOr (k.codec.decodeAll data) .decoding
  ensure (hrp = k.pfx o) .wrongPrefix
  pure o

/-- `Address::from_string` – address/mod.rs 59-67 -/
def Kind.fromString (k : Kind T) (s : Str) : Except Err (Address T) := do
  let o ← k.decodeAddress s
  pure ⟨s, o⟩

/-- `HexifiedAddress::decode_no_hrp_verify` – address/hexified.rs 129-134, used when JSON is read -/
def Kind.decodeJson (k : Kind T) (s : Str) : Except Err T := do
  let (_, data) ← decode s
  okOr (k.codec.decodeAll data) .decoding

/-- `to_short_string` – address/mod.rs 92-102; `none` is a panic of `split_at` (the string is ASCII) -/
def Address.short (a : Address T) : Option Str :=
  let n := (a.address.idxOf? 49).getD 0
  if a.address.length < n + 4 then none
  else
    let rest := a.address.drop (n + 4)
    if rest.length < 8 then some a.address
    else some (a.address.take (n + 4) ++ str "..." ++ rest.drop (rest.length - 4))

/-! ### Prefixes -/

/-- `ChainType` – chain/config/mod.rs 127-132 -/
inductive ChainType
  | mainnet | testnet | regtest | signet
  deriving DecidableEq, Repr

/-- `address_prefix` – chain/config/mod.rs 234-265 -/
def destinationPrefix : ChainType → Destination → Str
  | .mainnet, .anyoneCanSpend => str "mxanyonecanspend"
  | .mainnet, .publicKeyHash _ => str "mtc"
  | .mainnet, .publicKey _ => str "mptc"
  | .mainnet, .scriptHash _ => str "mstc"
  | .mainnet, .classicMultisig _ => str "mmtc"
  | .testnet, .anyoneCanSpend => str "txanyonecanspend"
  | .testnet, .publicKeyHash _ => str "tmt"
  | .testnet, .publicKey _ => str "tpmt"
  | .testnet, .scriptHash _ => str "tstc"
  | .testnet, .classicMultisig _ => str "tmtc"
  | .regtest, .anyoneCanSpend => str "rxanyonecanspend"
  | .regtest, .publicKeyHash _ => str "rmt"
  | .regtest, .publicKey _ => str "rpmt"
  | .regtest, .scriptHash _ => str "rstc"
  | .regtest, .classicMultisig _ => str "rmtc"
  | .signet, .anyoneCanSpend => str "sxanyonecanspend"
  | .signet, .publicKeyHash _ => str "smt"
  | .signet, .publicKey _ => str "spmt"
  | .signet, .scriptHash _ => str "sstc"
  | .signet, .classicMultisig _ => str "smtc"

/-- `pool_id_address_prefix` – chain/config/mod.rs 317-324 -/
def poolPrefix : ChainType → Str
  | .mainnet => str "mpool" | .testnet => str "tpool" | .regtest => str "rpool" | .signet => str "spool"

/-- `delegation_id_address_prefix` – chain/config/mod.rs 327-334 -/
def delegationPrefix : ChainType → Str
  | .mainnet => str "mdelg" | .testnet => str "tdelg" | .regtest => str "rdelg" | .signet => str "sdelg"

/-- `token_id_address_prefix` – chain/config/mod.rs 337-344 -/
def tokenPrefix : ChainType → Str
  | .mainnet => str "mmltk" | .testnet => str "tmltk" | .regtest => str "rmltk" | .signet => str "smltk"

/-- `order_id_address_prefix` – chain/config/mod.rs 347-354 -/
def orderPrefix : ChainType → Str
  | .mainnet => str "mordr" | .testnet => str "tordr" | .regtest => str "rordr" | .signet => str "sordr"

/-- `vrf_public_key_address_prefix` – chain/config/mod.rs 357-364 -/
def vrfPrefix : ChainType → Str
  | .mainnet => str "mvrfpk" | .testnet => str "tvrfpk" | .regtest => str "rvrfpk" | .signet => str "svrfpk"

/-- `Addressable for Destination` – chain/transaction/output/mod.rs 82-105 -/
def destinations (cr : Crypto) (c : ChainType) : Kind Destination := ⟨destinationPrefix c, Destination.codec cr⟩

/-- `Addressable for PoolId` – chain/pos/pool_id.rs 42-65 -/
def pools (c : ChainType) : Kind Bytes := ⟨fun _ => poolPrefix c, hashC⟩

/-- `Addressable for DelegationId` – chain/pos/delegation_id.rs 30-53 -/
def delegations (c : ChainType) : Kind Bytes := ⟨fun _ => delegationPrefix c, hashC⟩

/-- `Addressable for TokenId` – chain/tokens/token_id.rs 29-52 -/
def tokens (c : ChainType) : Kind Bytes := ⟨fun _ => tokenPrefix c, hashC⟩

/-- `Addressable for OrderId` – chain/order/order_id.rs 29-52 -/
def orders (c : ChainType) : Kind Bytes := ⟨fun _ => orderPrefix c, hashC⟩

/-- `Addressable for VRFPublicKey` – address/traits.rs 42-64 -/
def vrfKeys (cr : Crypto) (c : ChainType) : Kind Bytes := ⟨fun _ => vrfPrefix c, vrfPublicKeyC cr⟩

end Verif.Address
