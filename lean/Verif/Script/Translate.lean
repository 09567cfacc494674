import Verif.Script.Sig

/-! Model of the conditions under which an input may be spent, and of the verification of all
inputs of a transaction or block reward.

Sources: `mintscript/src/translate.rs`, `mintscript/src/checker/*.rs`,
`chainstate/tx-verifier/src/transaction_verifier/input_check/mod.rs`. -/

namespace Verif.Script

/-- A leaf of a witness script (script/mod.rs 136-144).  Of the hash challenges only `Hash160` is
ever produced by the translation (translate.rs 166-168); the others are `unimplemented!`. -/
inductive Leaf where
  | signature (d : Dest) (w : Witness)
  | timelock (l : TimeLock)
  | hashlock (expected preimage : Nat)
deriving DecidableEq

/-- `HashedTimelockContract` (common/src/chain/transaction/output/htlc.rs 28-36). -/
structure Htlc where
  secretHash : Nat
  spendKey : Dest
  refundTimelock : TimeLock
  refundKey : Dest
deriving DecidableEq

/-- `enum TxOutput` (common/src/chain/transaction/output/mod.rs 121-172), keeping only what decides
who may spend the output; values, metadata and issuance data are dropped. -/
inductive Output where
  | transfer (d : Dest)
  | lockThenTransfer (d : Dest) (l : TimeLock)
  | burn
  | createStakePool (staker decommission : Dest)
  | produceBlockFromStake (d : Dest) (pool : Nat)
  | createDelegationId
  | delegateStaking
  | issueFungibleToken
  | issueNft (d : Dest)
  | dataDeposit
  | htlc (h : Htlc)
  | createOrder
deriving DecidableEq

/-- `enum UtxoSource` (utxo/src/utxo.rs 23-28): where the output comes from. -/
inductive Source where
  | blockchain (height : Nat)
  | mempool
deriving DecidableEq

/-- `enum InputInfo` (translate.rs 72-87).  The commands that act on a token under its authority are
one constructor, and so are the two order commands under the conclude key. -/
inductive InputInfo where
  | utxo (o : Output) (src : Source)
  /-- `AccountSpending::DelegationBalance`. -/
  | delegation (id : Nat)
  /-- `AccountCommand::{MintTokens, UnmintTokens, LockTokenSupply, FreezeToken, UnfreezeToken,
  ChangeTokenMetadataUri, ChangeTokenAuthority}`. -/
  | tokenCommand (token : Nat)
  /-- `AccountCommand::ConcludeOrder`. -/
  | concludeOrderV0 (order : Nat)
  /-- `AccountCommand::FillOrder`. -/
  | fillOrderV0 (order : Nat)
  /-- `OrderAccountCommand::FillOrder`. -/
  | fillOrder (order : Nat)
  /-- `OrderAccountCommand::{FreezeOrder, ConcludeOrder}`. -/
  | orderCommand (order : Nat)
deriving DecidableEq

/-- `trait SignatureInfoProvider` (translate.rs 94-117): destinations recorded in the accounting
state.  Storage errors are not modelled. -/
structure Accounts where
  poolDecommission : Nat → Option Dest
  delegationSpend : Nat → Option Dest
  tokenAuthority : Nat → Option Dest
  orderConclude : Nat → Option Dest

/-- `enum TranslationError` (translate.rs 36-70). -/
inductive TrErr where
  | unspendable
  | illegalOutputSpend
  | illegalAccountSpend
  | poolNotFound
  | delegationNotFound
  | tokenNotFound
  | orderNotFound
  | signature (e : SigErr)
deriving DecidableEq

abbrev Script := Scr Leaf

/-- `to_signature_witness_script` (translate.rs 502-511). -/
def sigScript (w : Witness) (d : Dest) : Script := .leaf (.signature d w)

/-- A destination out of the accounting state. -/
def sigLookup (w : Witness) (d : Option Dest) (e : TrErr) : Except TrErr Script :=
  match d with
  | some d => .ok (sigScript w d)
  | none => .error e

/-- The HTLC case of `SignedTransaction::translate_input` (translate.rs 149-195). -/
def htlcScript (cr : Crypto) (h : Htlc) : Witness → Except TrErr Script
  | .noSignature => .error (.signature .signatureNotFound)
  | .standard mode raw =>
    match cr.decodeHtlc raw with
    | none => .error (.signature .invalidSignatureEncoding)
    | some (.spend secret sig) => .ok (satisfiedConjunction
        [.leaf (.hashlock h.secretHash secret), .leaf (.signature h.spendKey (.standard mode sig))])
    | some (.refund sig) => .ok (satisfiedConjunction
        [.leaf (.timelock h.refundTimelock), .leaf (.signature h.refundKey (.standard mode sig))])

/-- `<SignedTransaction as TranslateInput>::translate_input` (translate.rs 123-258). -/
def translateTx (cr : Crypto) (ac : Accounts) (i : InputInfo) (w : Witness) :
    Except TrErr Script :=
  match i with
  | .utxo (.transfer d) _ => .ok (sigScript w d)
  | .utxo (.lockThenTransfer d l) _ =>
      .ok (satisfiedConjunction [.leaf (.timelock l), sigScript w d])
  | .utxo (.createStakePool _ d) _ => .ok (sigScript w d)
  | .utxo (.produceBlockFromStake _ p) _ => sigLookup w (ac.poolDecommission p) .poolNotFound
  | .utxo (.htlc h) _ => htlcScript cr h w
  | .utxo (.issueNft d) _ => .ok (sigScript w d)
  | .utxo .burn _ | .utxo .createDelegationId _ | .utxo .delegateStaking _
  | .utxo .issueFungibleToken _ | .utxo .dataDeposit _ | .utxo .createOrder _ =>
      .error .unspendable
  | .delegation id => sigLookup w (ac.delegationSpend id) .delegationNotFound
  | .tokenCommand t => sigLookup w (ac.tokenAuthority t) .tokenNotFound
  | .concludeOrderV0 o => sigLookup w (ac.orderConclude o) .orderNotFound
  | .fillOrderV0 _ => .ok .true
  | .fillOrder _ => .ok (sigScript w .anyoneCanSpend)
  | .orderCommand o => sigLookup w (ac.orderConclude o) .orderNotFound

/-- `<BlockRewardTransactable as TranslateInput>::translate_input` (translate.rs 260-299). -/
def translateReward (i : InputInfo) (w : Witness) : Except TrErr Script :=
  match i with
  | .utxo (.transfer _) _ | .utxo (.lockThenTransfer _ _) _ | .utxo (.issueNft _) _
  | .utxo (.htlc _) _ => .error .illegalOutputSpend
  | .utxo .burn _ | .utxo .createDelegationId _ | .utxo .delegateStaking _
  | .utxo .issueFungibleToken _ | .utxo .dataDeposit _ | .utxo .createOrder _ =>
      .error .unspendable
  | .utxo (.produceBlockFromStake d _) _ => .ok (sigScript w d)
  | .utxo (.createStakePool s _) _ => .ok (sigScript w s)
  | _ => .error .illegalAccountSpend

/-- The HTLC case of `TimelockOnly::translate_input` (translate.rs 314-331). -/
def htlcTimelock (cr : Crypto) (h : Htlc) : Witness → Except TrErr Script
  | .noSignature => .error (.signature .signatureNotFound)
  | .standard _ raw =>
    match cr.decodeHtlc raw with
    | none => .error (.signature .invalidSignatureEncoding)
    | some (.spend _ _) => .ok .true
    | some (.refund _) => .ok (.leaf (.timelock h.refundTimelock))

/-- `<TimelockOnly as TranslateInput>::translate_input` (translate.rs 303-364). -/
def translateTimelock (cr : Crypto) (i : InputInfo) (w : Witness) : Except TrErr Script :=
  match i with
  | .utxo (.lockThenTransfer _ l) _ => .ok (.leaf (.timelock l))
  | .utxo (.htlc h) _ => htlcTimelock cr h w
  | .utxo .burn _ | .utxo .createDelegationId _ | .utxo .delegateStaking _
  | .utxo .issueFungibleToken _ | .utxo .dataDeposit _ | .utxo .createOrder _ =>
      .error .unspendable
  | _ => .ok .true

/-- Errors of the individual checks. -/
inductive ChkErr where
  | signature (e : SigErr)
  | timelock (e : LockErr)
  | hashMismatch
deriving DecidableEq

/-- The chain as seen by the verification (input_check/mod.rs 407-470): the height and time of the
spending block and the time of the block at a given height below the tip. -/
structure Tip where
  height : Nat
  time : Nat
  timeAt : Nat → Option Nat

/-- `TimelockContext for InputVerifyContextTimelock` (input_check/mod.rs 487-545): the source of an
output still in the mempool counts as the spending block itself; account inputs have no source. -/
def lockCtx (t : Tip) : InputInfo → LockCtx
  | .utxo _ (.blockchain h) =>
    { spendHeight := t.height, spendTime := t.time, srcHeight := .ok h,
      srcTime := match t.timeAt h with
        | some s => .ok s
        | none => .error .headerLoad }
  | .utxo _ .mempool =>
    { spendHeight := t.height, spendTime := t.time, srcHeight := .ok t.height,
      srcTime := .ok t.time }
  | _ =>
    { spendHeight := t.height, spendTime := t.time, srcHeight := .error .timelockedAccount,
      srcTime := .error .timelockedAccount }

/-- `StandardTimelockChecker` as a visitor. -/
def visitTimelock (c : LockCtx) (l : TimeLock) : Except (Err ChkErr) Unit :=
  match checkTimelock c l with
  | .ok () => .ok ()
  | .error .panic => .error .panic
  | .error (.err e) => .error (.err (.timelock e))

/-- `StandardSignatureChecker` as a visitor (mintscript/src/checker/signature.rs 74-92). -/
def visitSignature (cr : Crypto) (sighash : Nat → Option Nat) (d : Dest) (w : Witness) :
    Except (Err ChkErr) Unit :=
  match verifySignature cr sighash d w with
  | .ok () => .ok ()
  | .error e => .error (.err (.signature e))

/-- `ScriptChecker::full` (mintscript/src/checker/mod.rs 80-87, 120-150;
`StandardHashlockChecker`, checker/hashlock.rs 64-88). -/
def fullChecker (cr : Crypto) (sighash : Nat → Option Nat) (c : LockCtx) :
    Leaf → Except (Err ChkErr) Unit
  | .signature d w => visitSignature cr sighash d w
  | .timelock l => visitTimelock c l
  | .hashlock e p => if cr.hash160 p = e then .ok () else .error (.err .hashMismatch)

/-- `ScriptChecker::timelock_only` (mintscript/src/checker/mod.rs 56-63): signatures and hash locks
are not looked at. -/
def timelockChecker (c : LockCtx) : Leaf → Except (Err ChkErr) Unit
  | .signature _ _ => .ok ()
  | .timelock l => visitTimelock c l
  | .hashlock _ _ => .ok ()

/-- Errors of input verification (`InputCheckErrorPayload`, input_check/mod.rs 50-86). -/
inductive InErr where
  | translation (e : TrErr)
  | verification (e : ScrErr ChkErr)
  /-- The evaluation loop did not stop; excluded by `C30_terminates`. -/
  | diverged
deriving DecidableEq

/-- An input of a transaction as collected by `CoreContext::new` (input_check/mod.rs 333-372): what
is being spent and the witness.  `sighash` is the message of this input for a given sighash type. -/
structure Input where
  info : InputInfo
  witness : Witness
  sighash : Nat → Option Nat

/-- Run a translated script. -/
def runScript (v : Leaf → Except (Err ChkErr) Unit) (s : Except TrErr Script) :
    Except (Err InErr) Unit :=
  match s with
  | .error e => .error (.err (.translation e))
  | .ok s =>
    match verify v s with
    | none => .error (.err .diverged)
    | some (.ok ()) => .ok ()
    | some (.error .panic) => .error .panic
    | some (.error (.err e)) => .error (.err (.verification e))

/-- Verify one input: the body of the loop of `verify_full` (input_check/mod.rs 677-684) for a
transaction. -/
def verifyInput (cr : Crypto) (ac : Accounts) (t : Tip) (i : Input) : Except (Err InErr) Unit :=
  runScript (fullChecker cr i.sighash (lockCtx t i.info)) (translateTx cr ac i.info i.witness)

/-- The same for a block reward. -/
def verifyRewardInput (cr : Crypto) (t : Tip) (i : Input) : Except (Err InErr) Unit :=
  runScript (fullChecker cr i.sighash (lockCtx t i.info)) (translateReward i.info i.witness)

/-- The body of the loop of `verify_timelocks` (input_check/mod.rs 724-730). -/
def verifyInputTimelock (cr : Crypto) (t : Tip) (i : Input) : Except (Err InErr) Unit :=
  runScript (timelockChecker (lockCtx t i.info)) (translateTimelock cr i.info i.witness)

/-- A loop over inputs that stops at the first error. -/
def forInputs (f : Input → Except (Err InErr) Unit) : List Input → Except (Err InErr) Unit
  | [] => .ok ()
  | i :: r => match f i with
    | .ok () => forInputs f r
    | .error e => .error e

/-- `verify_full` (input_check/mod.rs 640-687) for a transaction; the collection of the inputs and
of the sighash commitments is taken as given. -/
def verifyFull (cr : Crypto) (ac : Accounts) (t : Tip) (l : List Input) : Except (Err InErr) Unit :=
  forInputs (verifyInput cr ac t) l

/-- `verify_full` for a block reward. -/
def verifyFullReward (cr : Crypto) (t : Tip) (l : List Input) : Except (Err InErr) Unit :=
  forInputs (verifyRewardInput cr t) l

/-- `verify_timelocks` (input_check/mod.rs 699-733), used by the mempool when the tip moves. -/
def verifyTimelocks (cr : Crypto) (t : Tip) (l : List Input) : Except (Err InErr) Unit :=
  forInputs (verifyInputTimelock cr t) l

end Verif.Script
