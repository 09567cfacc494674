import Verif.Script.Model
import Verif.Base.BMap

/-! Model of signature checks against a destination.

Sources: `common/src/chain/transaction/signature/mod.rs`, `.../inputsig/standard_signature.rs`,
`.../inputsig/authorize_pubkey*_spend.rs`, `.../inputsig/classical_multisig/*.rs`,
`common/src/chain/transaction/output/classic_multisig.rs`.

Hashing, signature verification and the decoding of raw signature bytes are parameters
(`structure Crypto`): nothing is assumed about them.  Keys, hashes, signatures, messages and byte
strings are natural numbers. -/

namespace Verif.Script

/-- `enum Destination` (common/src/chain/transaction/output/mod.rs 53-64). -/
inductive Dest where
  | anyoneCanSpend
  | publicKeyHash (h : Nat)
  | publicKey (k : Nat)
  | scriptHash (h : Nat)
  | classicMultisig (h : Nat)
deriving DecidableEq, Repr

/-- `InputWitness` / `EvaluatedInputWitness` (signature/mod.rs 118-129): either no signature, or a
sighash type together with raw signature bytes. -/
inductive Witness where
  | noSignature
  | standard (mode raw : Nat)
deriving DecidableEq, Repr

/-- `ClassicMultisigChallenge` (output/classic_multisig.rs 26-30). -/
structure Challenge where
  minRequired : Nat
  keys : List Nat
deriving DecidableEq

/-- `AuthorizedClassicalMultisigSpend` (authorize_classical_multisig.rs 57-61): signatures by key
index, and the challenge. -/
structure MsSpend where
  sigs : BMap Nat Nat
  challenge : Challenge

/-- `AuthorizedHashedTimelockContractSpend` (authorize_hashed_timelock_contract_spend.rs 24-27). -/
inductive HtlcSpend where
  | spend (secret raw : Nat)
  | refund (raw : Nat)
deriving DecidableEq

/-- The cryptographic and decoding primitives, left abstract. -/
structure Crypto where
  /-- `AuthorizedPublicKeyHashSpend::from_data`: public key and signature. -/
  decodePkh : Nat → Option (Nat × Nat)
  /-- `AuthorizedPublicKeySpend::from_data`: signature. -/
  decodePk : Nat → Option Nat
  /-- `AuthorizedClassicalMultisigSpend::from_data`. -/
  decodeMs : Nat → Option MsSpend
  /-- `AuthorizedHashedTimelockContractSpend::from_data`. -/
  decodeHtlc : Nat → Option HtlcSpend
  /-- `PublicKeyHash::from(&PublicKey)`. -/
  hashKey : Nat → Nat
  /-- `PublicKeyHash::from(&ClassicMultisigChallenge)`. -/
  hashChallenge : Challenge → Nat
  /-- `PublicKey::verify_message`: key, signature, message. -/
  verifyMsg : Nat → Nat → Nat → Bool
  /-- `Ripemd160(Sha256(preimage))`. -/
  hash160 : Nat → Nat
  /-- `chain_config.max_classic_multisig_public_keys_count()`. -/
  maxKeys : Nat

/-- The variants of `DestinationSigError` used below (signature/mod.rs 41-98). -/
inductive SigErr where
  | signatureNotFound
  | signatureNotNeeded
  | invalidSignatureEncoding
  | publicKeyToHashMismatch
  | verificationFailed
  | unsupported
  | multisigHashMismatch
  | emptyPublicKeys
  | tooManyPublicKeys
  | minRequiredZero
  | moreRequiredThanKeys
  | invalidSignatureIndex
  | overconstrained
  | incompleteMultisig (required have_ : Nat)
  | invalidMultisig
  | sighash
deriving DecidableEq, Repr

/-- `ClassicMultisigChallenge::is_valid` (output/classic_multisig.rs 65-93). -/
def Challenge.isValid (cr : Crypto) (c : Challenge) : Except SigErr Unit :=
  if c.keys = [] then .error .emptyPublicKeys
  else if cr.maxKeys < c.keys.length then .error .tooManyPublicKeys
  else if c.minRequired = 0 then .error .minRequiredZero
  else if c.keys.length < c.minRequired then .error .moreRequiredThanKeys
  else .ok ()

/-- `check_structurally_valid` (multisig_partial_signature.rs 59-91); the state it returns is not
used by the callers modelled here. -/
def checkStructure (cr : Crypto) (m : MsSpend) : Except SigErr Unit :=
  match m.challenge.isValid cr with
  | .error e => .error e
  | .ok () =>
    if m.sigs.entries.any (fun e => decide (m.challenge.keys.length ≤ e.1)) then
      .error .invalidSignatureIndex
    else if m.challenge.minRequired < m.sigs.size then .error .overconstrained
    else .ok ()

/-- `enum SigsVerifyResult` (multisig_partial_signature.rs 140-144). -/
inductive SigsResult where
  | complete
  | incomplete
  | invalid
deriving DecidableEq

/-- The `all` over the signatures in `verify_signatures` (multisig_partial_signature.rs 99-102);
out-of-range indexing is excluded by the structure check before it, here it counts as a failed
signature. -/
def sigsAllValid (cr : Crypto) (msg : Nat) (m : MsSpend) : Bool :=
  m.sigs.entries.all fun e =>
    match m.challenge.keys[e.1]? with
    | some k => cr.verifyMsg k e.2 msg
    | none => false

/-- `PartiallySignedMultisigChallenge::verify_signatures` (multisig_partial_signature.rs 93-118). -/
def verifySignatures (cr : Crypto) (msg : Nat) (m : MsSpend) : Except SigErr SigsResult :=
  match checkStructure cr m with
  | .error e => .error e
  | .ok () =>
    if sigsAllValid cr msg m = false then .ok .invalid
    else if m.sigs.size < m.challenge.minRequired then .ok .incomplete
    else .ok .complete

/-- `verify_classical_multisig_spending` (authorize_classical_multisig.rs 118-147). -/
def verifyMultisig (cr : Crypto) (h : Nat) (m : MsSpend) (msg : Nat) : Except SigErr Unit :=
  if cr.hashChallenge m.challenge ≠ h then .error .multisigHashMismatch
  else match verifySignatures cr msg m with
    | .error e => .error e
    | .ok .complete => .ok ()
    | .ok .incomplete => .error (.incompleteMultisig m.challenge.minRequired m.sigs.size)
    | .ok .invalid => .error .invalidMultisig

/-- `StandardInputSignature::verify_signature` (standard_signature.rs 74-103). -/
def verifyStandard (cr : Crypto) (d : Dest) (raw msg : Nat) : Except SigErr Unit :=
  match d with
  | .publicKeyHash h =>
    match cr.decodePkh raw with
    | none => .error .invalidSignatureEncoding
    | some (k, s) =>
      if cr.hashKey k ≠ h then .error .publicKeyToHashMismatch
      else if cr.verifyMsg k s msg then .ok () else .error .verificationFailed
  | .publicKey k =>
    match cr.decodePk raw with
    | none => .error .invalidSignatureEncoding
    | some s => if cr.verifyMsg k s msg then .ok () else .error .verificationFailed
  | .scriptHash _ => .error .unsupported
  | .anyoneCanSpend => .error .signatureNotNeeded
  | .classicMultisig h =>
    match cr.decodeMs raw with
    | none => .error .invalidSignatureEncoding
    | some m => verifyMultisig cr h m msg

/-- `verify_signature` (signature/mod.rs 131-168).  `sighash` is the message to be signed for a
given sighash type, `none` when it cannot be computed; the index checks at the beginning hold for
the callers, which iterate over the inputs. -/
def verifySignature (cr : Crypto) (sighash : Nat → Option Nat) (d : Dest) (w : Witness) :
    Except SigErr Unit :=
  match d, w with
  | .anyoneCanSpend, .noSignature => .ok ()
  | .anyoneCanSpend, .standard _ _ => .error .signatureNotNeeded
  | _, .noSignature => .error .signatureNotFound
  | d, .standard mode raw =>
    match sighash mode with
    | none => .error .sighash
    | some msg => verifyStandard cr d raw msg

end Verif.Script

namespace Verif.Script

/-- Errors of `sign_classical_multisig_spending`
(`enum ClassicalMultisigSigningError`, authorize_classical_multisig.rs 151-168). -/
inductive SignErr where
  | invalidChallenge (e : SigErr)
  | indexAlreadyExists
  | alreadyComplete
  | invalidKeyIndex
  | preExistingInvalidSignature
  | keyMismatch
  | producingFailed
  | structure (e : SigErr)
deriving DecidableEq

/-- `enum ClassicalMultisigCompletionStatus` (authorize_classical_multisig.rs 37-40). -/
inductive Completion where
  | complete (m : MsSpend)
  | incomplete (m : MsSpend)

/-- Private keys: `PublicKey::from_private_key` and `PrivateKey::sign_message`. -/
structure Signer where
  pubOf : Nat → Nat
  sign : Nat → Nat → Option Nat

/-- The last step of `sign_classical_multisig_spending` (authorize_classical_multisig.rs 247-265):
add the signature and classify the result; the `Invalid` branch is `unreachable!`. -/
def signFinish (cr : Crypto) (msg : Nat) (cur : MsSpend) : Except (Err SignErr) Completion :=
  match verifySignatures cr msg cur with
  | .error e => .error (.err (.structure e))
  | .ok .complete => .ok (.complete cur)
  | .ok .incomplete => .ok (.incomplete cur)
  | .ok .invalid => .error .panic

/-- `sign_classical_multisig_spending` (authorize_classical_multisig.rs 178-266).  The calls of
`from_partial` perform the same structure check as `verify_signatures` right after them. -/
def signMultisig (cr : Crypto) (sg : Signer) (idx priv : Nat) (ch : Challenge) (msg : Nat)
    (cur : MsSpend) : Except (Err SignErr) Completion :=
  match ch.isValid cr with
  | .error e => .error (.err (.invalidChallenge e))
  | .ok () =>
    if (cur.sigs.get idx).isSome then .error (.err .indexAlreadyExists)
    else match verifySignatures cr msg cur with
      | .error e => .error (.err (.structure e))
      | .ok .complete => .error (.err .alreadyComplete)
      | .ok .invalid => .error (.err .preExistingInvalidSignature)
      | .ok .incomplete =>
        match ch.keys[idx]? with
        | none => .error (.err .invalidKeyIndex)
        | some k =>
          if k ≠ sg.pubOf priv then .error (.err .keyMismatch)
          else match sg.sign priv msg with
            | none => .error (.err .producingFailed)
            | some s => signFinish cr msg { cur with sigs := cur.sigs.insert idx s }

end Verif.Script
