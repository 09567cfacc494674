import Verif.Base.Amount
import Verif.Codec.Types

/-!
The message that is signed to spend an input, and the extra data it commits to.

The hash function is not modelled: a message is the byte string fed into it.
-/
namespace Verif.Sighash

open Verif Verif.Codec

/-- The errors of `DestinationSigError` which occur here
(common/src/chain/transaction/signature/mod.rs). -/
inductive Err
  | withoutInputs
  | invalidIndex (i n : Nat)
  | commitmentsCount (a b : Nat)
deriving DecidableEq, Repr

/-- The parts of a `Signable` (common/src/chain/transaction/signature/mod.rs). -/
structure Signable where
  inputs : Option (List TxInput)
  outputs : Option (List TxOutput)
  version : Option UInt8
  flags : Option Nat
deriving DecidableEq, Repr

/-- A transaction (common/src/chain/transaction/mod.rs 69-86, signed_transaction.rs 101-117,
partially_signed_transaction/mod.rs 324-340). -/
def ofTx (tx : TransactionV1) : Signable := ⟨some tx.inputs, some tx.outputs, some 1, some tx.flags⟩

/-- A block reward (common/src/chain/block/block_reward.rs 72-88). -/
def ofReward (inputs : Option (List TxInput)) (outputs : Option (List TxOutput)) : Signable :=
  ⟨inputs, outputs, none, none⟩

/-- `OutputsMode` (common/src/chain/transaction/signature/sighash/sighashtype.rs). -/
inductive OutputsMode
  | all
  | none
  | single
deriving DecidableEq, Repr

/-- `SigHashType::outputs_mode` (sighashtype.rs 49-55). -/
def outputsMode (mode : UInt8) : OutputsMode :=
  if mode &&& 0x7f = 2 then .none else if mode &&& 0x7f = 3 then .single else .all

/-- `SigHashType::inputs_mode` (sighashtype.rs 42-47): whether only the input being signed is
committed to. -/
def anyoneCanPay (mode : UInt8) : Bool := mode &&& 0x80 == 0x80

/-- `hash_encoded_if_some` (sighash/mod.rs 32-36). -/
def encIfSome {α : Type} (enc : α → Bytes) : Option α → Bytes
  | some a => enc a
  | none => []

/-- The optional version byte and flags (sighash/mod.rs 53-54); the flags are hashed as a 16 byte
integer. -/
def streamHead (t : Signable) : Bytes :=
  encIfSome (fun v => [v]) t.version ++ encIfSome (uint 16).enc t.flags

/-- `SignatureHashableInputs::signature_hash` (sighash/hashable.rs 91-129).  The number of inputs is cast
to 32 bits. -/
def streamInputs (k : Crypto) (inputs : List TxInput) (cs : List InputCommitment) (mode : UInt8)
    (target : TxInput) (i : Nat) : Except Err Bytes := do
  ensure (i < inputs.length) (.invalidIndex i inputs.length)
  if anyoneCanPay mode then
    let c ← okOr cs[i]? (.invalidIndex i inputs.length)
    pure ((TxInput.codec k).enc target ++ (InputCommitment.codec k).enc c)
  else
    pure ((uint 4).enc (inputs.length % 2 ^ 32) ++ (encMany (TxInput.codec k) inputs ++
      ((uint 4).enc (cs.length % 2 ^ 32) ++ encMany (InputCommitment.codec k) cs)))

/-- `<&[TxOutput]>::signature_hash` (sighash/hashable.rs 39-61). -/
def streamOutputs (k : Crypto) (outputs : List TxOutput) (mode : UInt8) (i : Nat) :
    Except Err Bytes :=
  match outputsMode mode with
  | .all => pure ((vec (TxOutput.codec k)).enc outputs)
  | .none => pure []
  | .single => do
    let o ← okOr outputs[i]? (.invalidIndex i outputs.length)
    pure ((TxOutput.codec k).enc o)

/-- `stream_signature_hash` (sighash/mod.rs 38-64): the message signed for input `i`. -/
def stream (k : Crypto) (t : Signable) (cs : List InputCommitment) (mode : UInt8) (i : Nat) :
    Except Err Bytes := do
  let inputs ← okOr t.inputs .withoutInputs
  let target ← okOr inputs[i]? (.invalidIndex i inputs.length)
  ensure (cs.length = inputs.length) (.commitmentsCount cs.length inputs.length)
  let is ← streamInputs k inputs cs mode target i
  let os ← streamOutputs k (t.outputs.getD []) mode i
  pure (mode :: (streamHead t ++ (is ++ os)))

/-! ### Input commitments -/

/-- `OrderInfo` (sighash/input_commitments/info_providers.rs 29-34). -/
structure OrderInfo where
  initiallyAsked : OutputValue
  initiallyGiven : OutputValue
  askBalance : Nat
  giveBalance : Nat
deriving DecidableEq, Repr

/-- What the providers tell about the chain (info_providers.rs 36-70); errors of the providers are not
modelled. -/
structure Info where
  utxo : UtxoOutPoint → Option TxOutput
  stakerBalance : Bytes → Option Nat
  order : Bytes → Option OrderInfo

/-- `SighashInputCommitmentCreationError` (sighash/input_commitments/mod.rs 417-446). -/
inductive CErr
  | utxoNotFound (o : UtxoOutPoint) (i : Nat)
  | poolNotFound (p : Bytes) (i : Nat)
  | orderNotFound (o : Bytes) (i : Nat)
  | nonUtxoKernelInput (x : TxInput) (i : Nat)
deriving DecidableEq, Repr

/-- The commitment to an output (sighash/input_commitments/mod.rs 339-363). -/
def commitUtxo (v : Info) (u : TxOutput) (i : Nat) : Except CErr InputCommitment :=
  match u with
  | .produceBlockFromStake d p => do
    let b ← okOr (v.stakerBalance p) (.poolNotFound p i)
    pure (.produceBlockFromStakeUtxo (.produceBlockFromStake d p) b)
  | u => pure (.utxo u)

/-- The commitment of a fill (sighash/input_commitments/mod.rs 378-385, 395-402). -/
def commitFill (v : Info) (o : Bytes) (i : Nat) : Except CErr InputCommitment := do
  let q ← okOr (v.order o) (.orderNotFound o i)
  pure (.fillOrder q.initiallyAsked q.initiallyGiven)

/-- The commitment of a conclusion (sighash/input_commitments/mod.rs 367-376, 403-412). -/
def commitConclude (v : Info) (o : Bytes) (i : Nat) : Except CErr InputCommitment := do
  let q ← okOr (v.order o) (.orderNotFound o i)
  pure (.concludeOrder q.initiallyAsked q.initiallyGiven q.askBalance q.giveBalance)

/-- `make_sighash_input_commitment_v1_for_one_transaction_input`
(sighash/input_commitments/mod.rs 323-414). -/
def commitV1 (v : Info) (x : TxInput) (i : Nat) : Except CErr InputCommitment :=
  match x with
  | .utxo o => do
    let u ← okOr (v.utxo o) (.utxoNotFound o i)
    commitUtxo v u i
  | .account _ => pure .none
  | .accountCommand _ (.concludeOrder o) => commitConclude v o i
  | .accountCommand _ (.fillOrder o _ _) => commitFill v o i
  | .accountCommand _ _ => pure .none
  | .orderAccountCommand (.fillOrder o _) => commitFill v o i
  | .orderAccountCommand (.concludeOrder o) => commitConclude v o i
  | .orderAccountCommand (.freezeOrder _) => pure .none

/-- The commitment of the first version (sighash/input_commitments/mod.rs 279-303); the one of the second
version is made as well, for its errors. -/
def commitV0 (v : Info) (x : TxInput) (i : Nat) : Except CErr InputCommitment := do
  let _ ← commitV1 v x i
  match x with
  | .utxo o => do
    let u ← okOr (v.utxo o) (.utxoNotFound o i)
    pure (.utxo u)
  | _ => pure .none

/-- Goes through the inputs in order, stopping at the first error (`collect::<Result<_, _>>`). -/
def commitAll (f : TxInput → Nat → Except CErr InputCommitment) :
    Nat → List TxInput → Except CErr (List InputCommitment)
  | _, [] => pure []
  | i, x :: xs => do
    let c ← f x i
    let cs ← commitAll f (i + 1) xs
    pure (c :: cs)

/-- `SighashInputCommitmentVersion` (common/src/chain/upgrades/chainstate_upgrade/mod.rs 114-117). -/
inductive Version
  | v0
  | v1
deriving DecidableEq, Repr

/-- `make_sighash_input_commitments_for_transaction_inputs`
(sighash/input_commitments/mod.rs 235-321). -/
def commitments (v : Info) (ver : Version) (xs : List TxInput) :
    Except CErr (List InputCommitment) :=
  match ver with
  | .v0 => commitAll (commitV0 v) 0 xs
  | .v1 => commitAll (commitV1 v) 0 xs

/-- One kernel input (sighash/input_commitments/mod.rs 174-194). -/
def commitKernel (v : Info) (x : TxInput) (i : Nat) : Except CErr InputCommitment :=
  match x with
  | .utxo o => do
    let u ← okOr (v.utxo o) (.utxoNotFound o i)
    pure (.utxo u)
  | x => .error (.nonUtxoKernelInput x i)

/-- `make_sighash_input_commitments_for_kernel_inputs`
(sighash/input_commitments/mod.rs 158-196). -/
def kernelCommitments (v : Info) (xs : List TxInput) : Except CErr (List InputCommitment) :=
  commitAll (commitKernel v) 0 xs

end Verif.Sighash
