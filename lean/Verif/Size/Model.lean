import Verif.Codec.Types

/-!
# Estimates of the sizes of transactions (common/src/size_estimation/mod.rs)

The code makes witnesses with made-up keys and signatures and takes the sizes of their binary forms (the codecs of C46).
-/

namespace Verif.Size
open Verif Verif.Codec

/-- `SizeEstimationError` – size_estimation/mod.rs 45-50 -/
inductive Err
  | unsupportedInputDestination
  | tooManyElements
deriving DecidableEq

/-! ### Contents of the raw signatures -/

/-- `AuthorizedPublicKeySpend` – common/src/chain/transaction/signature/inputsig/authorize_pubkey_spend.rs 21-24 -/
def publicKeySpend (sig : Bytes) : Bytes := signatureC.enc sig

/-- `AuthorizedPublicKeyHashSpend` – common/src/chain/transaction/signature/inputsig/authorize_pubkeyhash_spend.rs 23-27 -/
def publicKeyHashSpend (k : Crypto) (pk sig : Bytes) : Bytes := (pair (publicKeyC k) signatureC).enc (pk, sig)

/-- `AuthorizedClassicalMultisigSpend` – common/src/chain/transaction/signature/inputsig/classical_multisig/authorize_classical_multisig.rs
56-62; the map from indices to signatures is given by its entries, and has the binary form of the list of them -/
def multisigSpend (k : Crypto) (sigs : List (UInt8 × Bytes)) (c : MultisigChallenge) : Bytes :=
  (pair (vec (pair byte signatureC)) (MultisigChallenge.codec k)).enc (sigs, c)

/-- `AuthorizedHashedTimelockContractSpendTag` –
common/src/chain/transaction/signature/inputsig/authorize_hashed_timelock_contract_spend.rs 22-27 -/
inductive HtlcTag
  | spend
  | refund
deriving DecidableEq

/-- the binary form of `AuthorizedHashedTimelockContractSpend` – the same file, 24-27 -/
def htlcEnc (k : Crypto) (s : HtlcSpend) : Bytes := (HtlcSpend.codec k).enc s

/-- `encoded_size` of a witness -/
def witnessSize (k : Crypto) (w : InputWitness) : Nat := ((InputWitness.codec k).enc w).length

/-! ### Sizes calculated upfront -/

/-- the public key of `BOGUS_KEY_PAIR_AND_SIGNATURE` – size_estimation/mod.rs 67-76; its contents are made up here too -/
def bogusKey : Bytes := List.replicate 33 2

/-- the signature of `BOGUS_KEY_PAIR_AND_SIGNATURE` – size_estimation/mod.rs 67-76 -/
def bogusSig : Bytes := List.replicate 64 7

/-- `SigHashType::all()` – common/src/chain/transaction/signature/sighash/sighashtype.rs -/
def all : UInt8 := 1

/-- `multisig_signature_size` – size_estimation/mod.rs 86-108; results are kept in the code, which does not change them -/
def multisigSize (k : Crypto) (total required : Nat) : Nat :=
  let sigs := (List.range required).map fun i => (UInt8.ofNat i, bogusSig)
  let c : MultisigChallenge := ⟨required, List.replicate total bogusKey⟩
  witnessSize k (.standard ⟨all, multisigSpend k sigs c⟩)

/-- `NO_SIGNATURE_SIZE` – size_estimation/mod.rs 113-115 -/
def noSignatureSize (k : Crypto) : Nat := witnessSize k (.noSignature none)

/-- `PUB_KEY_SIGNATURE_SIZE` – size_estimation/mod.rs 117-125 -/
def pubKeySize (k : Crypto) : Nat := witnessSize k (.standard ⟨all, publicKeySpend bogusSig⟩)

/-- `ADDRESS_SIGNATURE_SIZE` – size_estimation/mod.rs 127-138 -/
def addressSize (k : Crypto) : Nat := witnessSize k (.standard ⟨all, publicKeyHashSpend k bogusKey bogusSig⟩)

/-- `HTLC_SPEND_SIGNATURE_OVERHEAD` – size_estimation/mod.rs 140-154; the difference is positive, the subtraction does not fail -/
def htlcSpendOverhead (k : Crypto) : Nat :=
  let pkh := publicKeyHashSpend k bogusKey bogusSig
  (htlcEnc k (.spend (List.replicate 32 0) pkh)).length - pkh.length

/-- `HTLC_REFUND_SIGNATURE_OVERHEAD` – size_estimation/mod.rs 156-168 -/
def htlcRefundOverhead (k : Crypto) : Nat :=
  let pkh := publicKeyHashSpend k bogusKey bogusSig
  (htlcEnc k (.refund pkh)).length - pkh.length

/-- the match on the destination – size_estimation/mod.rs 216-229; `info` gives the number of keys and that of required
signatures of a multisignature, and `none` if there is no provider -/
def destSize (k : Crypto) (info : Destination → Option (Nat × Nat)) (d : Destination) : Except Err Nat :=
  match d with
  | .publicKeyHash _ => .ok (addressSize k)
  | .publicKey _ => .ok (pubKeySize k)
  | .anyoneCanSpend => .ok (noSignatureSize k)
  | .scriptHash _ => .error .unsupportedInputDestination
  | .classicMultisig _ =>
    match info d with
    | some (total, required) => .ok (multisigSize k total required)
    | none => .error .unsupportedInputDestination

/-- `input_signature_size_from_destination` – size_estimation/mod.rs 210-242 -/
def signatureSize (k : Crypto) (info : Destination → Option (Nat × Nat)) (d : Destination) (tag : Option HtlcTag) :
    Except Err Nat := do
  let size ← destSize k info d
  match tag with
  | none => pure size
  | some .spend => pure (size + htlcSpendOverhead k)
  | some .refund => pure (size + htlcRefundOverhead k)

/-- `input_signatures_size_from_destinations` – size_estimation/mod.rs 290-305 -/
def signaturesSize (k : Crypto) (info : Destination → Option (Nat × Nat)) : List (Destination × Option HtlcTag) → Except Err Nat
  | [] => .ok 0
  | (d, tag) :: ds => do
    let n ← signatureSize k info d tag
    let r ← signaturesSize k info ds
    pure (n + r)

/-! ### Transactions -/

/-- `Compact::<u32>::compact_len` of a number which has to fit in 32 bits first – size_estimation/mod.rs 266-276 -/
def compactLen (n : Nat) : Except Err Nat :=
  if n < 2 ^ 32 then
    .ok (if n < 2 ^ 6 then 1 else if n < 2 ^ 14 then 2 else if n < 2 ^ 30 then 4 else 5)
  else .error .tooManyElements

/-- `encoded_size` of a signed transaction -/
def txBytes (k : Crypto) (t : SignedTransaction) : Nat := ((SignedTransaction.codec k).enc t).length

/-- `EMPTY_SIGNED_TX_SIZE` – size_estimation/mod.rs 250-259 -/
def emptySize (k : Crypto) : Nat := txBytes k ⟨⟨1, [], []⟩, []⟩

/-- `tx_size_with_num_inputs_and_outputs` – size_estimation/mod.rs 246-280 (`ZERO_COMPACT_SIZE` is 1) -/
def txSize (k : Crypto) (outs ins : Nat) : Except Err Nat := do
  let i ← compactLen ins
  let o ← compactLen outs
  pure (emptySize k + (o - 1) + (i - 1) * 2)

/-- `outputs_encoded_size` – size_estimation/mod.rs 282-284 -/
def outputsSize (k : Crypto) (os : List TxOutput) : Nat := (os.map fun o => ((TxOutput.codec k).enc o).length).sum

/-- `inputs_encoded_size` – size_estimation/mod.rs 286-288 -/
def inputsSize (k : Crypto) (is : List TxInput) : Nat := (is.map fun i => ((TxInput.codec k).enc i).length).sum

/-- how the functions are put together where a transaction is estimated – wallet/src/account/mod.rs 716-724 -/
def estimate (k : Crypto) (info : Destination → Option (Nat × Nat)) (is : List TxInput) (os : List TxOutput)
    (ds : List (Destination × Option HtlcTag)) : Except Err Nat := do
  let base ← txSize k os.length is.length
  let sigs ← signaturesSize k info ds
  pure (base + inputsSize k is + outputsSize k os + sigs)

end Verif.Size
