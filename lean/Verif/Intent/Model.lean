import Verif.Script.Sig
import Verif.Sighash.Model

/-!
# Model of signed messages and signed transaction intents

Signature checks are those of the witness model (`Verif.Script`).  Texts are their UTF-8 bytes.
-/

namespace Verif.Intent
open Verif.Codec (Bytes InputCommitment)
open Verif.Script

/-- `MESSAGE_MAGIC_PREFIX` – common/src/chain/transaction/signature/inputsig/arbitrary_message/mod.rs 16:
`===MINTLAYER MESSAGE BEGIN===` and a line feed -/
def magicPrefix : Bytes :=
  [61, 61, 61, 77, 73, 78, 84, 76, 65, 89, 69, 82, 32, 77, 69, 83, 83, 65, 71, 69, 32, 66, 69, 71, 73, 78, 61, 61, 61, 10]

/-- `MESSAGE_MAGIC_SUFFIX` – 17: a line feed and `===MINTLAYER MESSAGE END===` -/
def magicSuffix : Bytes :=
  [10, 61, 61, 61, 77, 73, 78, 84, 76, 65, 89, 69, 82, 32, 77, 69, 83, 83, 65, 71, 69, 32, 69, 78, 68, 61, 61, 61]

/-- the wrapped message – 62-68 -/
def wrapped (m : Bytes) : Bytes := magicPrefix ++ m ++ magicSuffix

/-- `produce_message_challenge` – 61-72; the hash is a parameter -/
def challenge (hash : Bytes → Nat) (m : Bytes) : Nat := hash (wrapped m)

/-- a digit of `{:02x}` -/
def hexDigit (n : Nat) : UInt8 := if n < 10 then UInt8.ofNat (48 + n) else UInt8.ofNat (87 + n)

/-- `LowerHex for Id<T>` – common/src/primitives/id/mod.rs 144-154 -/
def hex : Bytes → Bytes
  | [] => []
  | b :: bs => hexDigit (b.toNat / 16) :: hexDigit (b.toNat % 16) :: hex bs

/-- `get_message_to_sign` – common/src/chain/transaction/signed_transaction_intent.rs 228-230:
`<tx_id:{tx_id:x};intent:{intent}>` -/
def messageToSign (intent txId : Bytes) : Bytes :=
  [60, 116, 120, 95, 105, 100, 58] ++ hex txId ++ [59, 105, 110, 116, 101, 110, 116, 58] ++ intent ++ [62]

/-- `ArbitraryMessageSignatureRef::verify_signature` – arbitrary_message/mod.rs 176-204; the checks are those of standard
input signatures -/
def verifyMessageSignature (cr : Crypto) (d : Dest) (raw ch : Nat) : Except SigErr Unit := verifyStandard cr d raw ch

/-- `SignedTransactionIntent` – signed_transaction_intent.rs 59-65; raw signatures are numbers as in the witness model -/
structure Signed where
  message : Bytes
  sigs : List Nat
deriving DecidableEq

/-- `SignedTransactionIntentError` – 245-264 -/
inductive Err
  | wrongMessage
  | destinationsCount
  | signing
  | verification (idx : Nat) (e : SigErr)
  | unsupported (d : Dest)
  | noKey
deriving DecidableEq

/-- `normalize_destination` – 233-242 -/
def normalize (cr : Crypto) : Dest → Dest
  | .publicKey k => .publicKeyHash (cr.hashKey k)
  | d => d

/-- the loop of `verify` – 200-215 -/
def verifyLoop (cr : Crypto) (ch : Nat) : Nat → List (Nat × Dest) → Except Err Unit
  | _, [] => .ok ()
  | i, (raw, d) :: rest =>
    match verifyMessageSignature cr (normalize cr d) raw ch with
    | .ok () => verifyLoop cr ch (i + 1) rest
    | .error e => .error (.verification i e)

/-- `verify` – 175-218 -/
def Signed.verify (cr : Crypto) (hash : Bytes → Nat) (s : Signed) (dests : List Dest) (expected : Bytes) :
    Except Err Unit := do
  ensure (s.message = expected) .wrongMessage
  ensure (s.sigs.length = dests.length) .destinationsCount
  verifyLoop cr (challenge hash s.message) 0 (s.sigs.zip dests)

/-- `produce_uniparty_signature_as_pub_key_hash_spending` – arbitrary_message/mod.rs 136-155;
`encPkh` encodes `AuthorizedPublicKeyHashSpend` -/
def signMessage (sg : Signer) (encPkh : Nat × Nat → Nat) (hash : Bytes → Nat) (priv : Nat) (m : Bytes) : Except Err Nat :=
  match sg.sign priv (challenge hash m) with
  | some s => .ok (encPkh (sg.pubOf priv, s))
  | none => .error .signing

/-- the closure of `produce_from_transaction_id` – 103-127 -/
def signFor (sg : Signer) (encPkh : Nat × Nat → Nat) (hash : Bytes → Nat) (keyFor : Dest → Option Nat) (m : Bytes)
    (d : Dest) : Except Err Nat :=
  match d with
  | .publicKeyHash _ | .publicKey _ =>
    match keyFor d with
    | some priv => signMessage sg encPkh hash priv m
    | none => .error .noKey
  | .anyoneCanSpend | .scriptHash _ | .classicMultisig _ => .error (.unsupported d)

/-- signing for all destinations, in order, up to the first failure -/
def signAllFor (sg : Signer) (encPkh : Nat × Nat → Nat) (hash : Bytes → Nat) (keyFor : Dest → Option Nat) (m : Bytes) :
    List Dest → Except Err (List Nat)
  | [] => .ok []
  | d :: ds => do
    let s ← signFor sg encPkh hash keyFor m d
    let r ← signAllFor sg encPkh hash keyFor m ds
    pure (s :: r)

/-- `produce_from_transaction_id` – 87-134 -/
def produceFromId (sg : Signer) (encPkh : Nat × Nat → Nat) (hash : Bytes → Nat) (keyFor : Dest → Option Nat)
    (txId : Bytes) (dests : List Dest) (intent : Bytes) : Except Err Signed := do
  let m := messageToSign intent txId
  let sigs ← signAllFor sg encPkh hash keyFor m dests
  pure ⟨m, sigs⟩

/-- `produce_from_transaction` – 139-166; of the transaction its id and number of inputs matter -/
def produce (sg : Signer) (encPkh : Nat × Nat → Nat) (hash : Bytes → Nat) (keyFor : Dest → Option Nat) (txId : Bytes)
    (inputs : Nat) (dests : List Dest) (intent : Bytes) : Except Err Signed := do
  ensure (inputs = dests.length) .destinationsCount
  produceFromId sg encPkh hash keyFor txId dests intent

/-- `from_components` – 68-82 -/
def fromComponents (cr : Crypto) (hash : Bytes → Nat) (message : Bytes) (sigs : List Nat) (dests : List Dest) :
    Except Err Signed := do
  let s : Signed := ⟨message, sigs⟩
  s.verify cr hash dests s.message
  pure s

end Verif.Intent
