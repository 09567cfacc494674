import Verif.Policy.CheckTx
import Verif.Verifier.Replay
import Verif.Emission.Model

/-!
# Model of the input/output policy

chainstate/tx-verifier/src/transaction_verifier/input_output_policy/mod.rs (below `policy/mod.rs`) and
input_output_policy/purposes_check.rs, on the transactions of the codec model, with the constrained value accumulator of
`Verif.Accumulator`.
-/

namespace Verif.Policy
open Verif
open Verif.Codec

/-! ### Transactions as the models of the ledger see them

Ids, destinations and other byte strings are numbers there. -/

/-- byte strings as numbers, one to one: little endian with a leading one -/
def num : Bytes → Nat
  | [] => 1
  | b :: bs => b.toNat + 256 * num bs

/-- common/src/chain/transaction/output/output_value.rs 40-47 -/
def value : OutputValue → Orders.OutputValue
  | .coin n => .coin n
  | .tokenV0 _ => .tokenV0
  | .tokenV1 id n => .tokenV1 (num id) n

/-- destinations as numbers -/
def destination (k : Crypto) (d : Destination) : Nat := num ((Destination.codec k).enc d)

/-- a new order; it is not frozen – orders-accounting/src/data.rs 33-42 -/
def orderData (k : Crypto) (d : OrderData) : Orders.OrderData := ⟨destination k d.concludeKey, value d.ask, value d.give, false⟩

def timeLock : OutputTimeLock → Accumulator.TimeLock
  | .untilHeight h => .untilHeight h
  | .untilTime t => .untilTime t
  | .forBlockCount n => .forBlockCount n
  | .forSeconds n => .forSeconds n

/-- an output as the accumulator sees it -/
def accOut (k : Crypto) : TxOutput → Accumulator.TxOutput
  | .transfer v _ => .transfer (value v)
  | .lockThenTransfer v _ l => .lockThenTransfer (value v) (timeLock l)
  | .burn v => .burn (value v)
  | .createStakePool p d => .createStakePool (num p) d.pledge
  | .produceBlockFromStake _ p => .produceBlockFromStake (num p)
  | .createDelegationId _ _ => .createDelegationId
  | .delegateStaking n _ => .delegateStaking n
  | .issueFungibleToken _ => .issueFungibleToken
  | .issueNft id _ _ => .issueNft (num id)
  | .dataDeposit _ => .dataDeposit
  | .htlc v _ => .htlc (value v)
  | .createOrder d => .createOrder (orderData k d)

/-- an outpoint -/
def outpoint (o : UtxoOutPoint) : Utxo.OutPoint :=
  match o.id with
  | .transaction id => Utxo.txOut (num id) o.index
  | .blockReward id => Utxo.rewardOut (num id) o.index

/-- an input as the verifier sees it -/
def input (k : Crypto) : TxInput → Verifier.Input
  | .utxo o => .utxo (outpoint o)
  | .account ⟨n, .delegationBalance d a⟩ => .account n (num d) a
  | .accountCommand n (.mintTokens id a) => .token n (.mint (num id) a)
  | .accountCommand n (.unmintTokens id) => .token n (.unmint (num id))
  | .accountCommand n (.lockTokenSupply id) => .token n (.lock (num id))
  | .accountCommand n (.freezeToken id u) => .token n (.freeze (num id) (u = .yes))
  | .accountCommand n (.unfreezeToken id) => .token n (.unfreeze (num id))
  | .accountCommand n (.changeTokenAuthority id d) => .token n (.changeAuthority (num id) (destination k d))
  | .accountCommand n (.changeTokenMetadataUri id u) => .token n (.changeMetadataUri (num id) (num u))
  | .accountCommand n (.concludeOrder id) => .orderV0 n (.conclude (num id))
  | .accountCommand n (.fillOrder id a _) => .orderV0 n (.fill (num id) a)
  | .orderAccountCommand (.fillOrder id a) => .order (.fill (num id) a)
  | .orderAccountCommand (.freezeOrder id) => .order (.freeze (num id))
  | .orderAccountCommand (.concludeOrder id) => .order (.conclude (num id))

/-! ### Errors and views -/

/-- the errors of the policy: `IOPolicyError`, `SpendStakeError` and those of `ConnectTransactionError` that are made here -/
inductive PolicyErr
  | missingOutputOrSpent
  | invalidInputType
  | multipleCommands
  | produceBlockInTx
  | multiplePools
  | multipleDelegations
  | multipleOrders
  | burnSum
  | insufficientTokenFees
  | accumulator (e : Accumulator.Err)
  | zeroTokenTransfer (token : Bytes)
  | accountInReward
  | noKernel
  | multipleKernels
  | invalidInputTypeInReward
  | invalidOutputTypeInReward
  | noRewardOutputs
  | multipleRewardOutputs
  | poolIdMismatch
  | stakerDestinationChanged
  | rewardAddition
  deriving DecidableEq

/-- what the policy sees of the state.  Reading from storage does not fail. -/
structure Chain where
  utxo : UtxoOutPoint → Option TxOutput
  orders : Orders.View
  pos : Pos.View
  tokens : Tokens.View

/-! ### Transactions -/

/-- `collect_inputs_utxos` – policy/mod.rs 308-330 -/
def collectUtxos (utxo : UtxoOutPoint → Option TxOutput) : List TxInput → Except PolicyErr (List TxOutput)
  | [] => .ok []
  | .utxo o :: is => do
    let u ← okOr (utxo o) .missingOutputOrSpent
    let us ← collectUtxos utxo is
    pure (u :: us)
  | _ :: is => collectUtxos utxo is

/-- purposes_check.rs 198-212 -/
def spendable : TxOutput → Bool
  | .transfer _ _ => true
  | .lockThenTransfer _ _ _ => true
  | .createStakePool _ _ => true
  | .produceBlockFromStake _ _ => true
  | .issueNft _ _ _ => true
  | .htlc _ _ => true
  | .burn _ => false
  | .createDelegationId _ _ => false
  | .delegateStaking _ _ => false
  | .issueFungibleToken _ => false
  | .dataDeposit _ => false
  | .createOrder _ => false

/-- purposes_check.rs 216-223 -/
def isCommand : TxInput → Bool
  | .utxo _ => false
  | .account _ => false
  | .accountCommand _ _ => true
  | .orderAccountCommand _ => true

def isProduceBlock : TxOutput → Bool
  | .produceBlockFromStake _ _ => true
  | _ => false

def isPool : TxOutput → Bool
  | .createStakePool _ _ => true
  | _ => false

def isDelegation : TxOutput → Bool
  | .createDelegationId _ _ => true
  | _ => false

def isOrder : TxOutput → Bool
  | .createOrder _ => true
  | _ => false

/-- `check_tx_inputs_outputs_purposes` – purposes_check.rs 193-276; the counters are the lengths of filtered lists -/
def checkTxPurposes (t : TransactionV1) (utxos : List TxOutput) : Except PolicyErr Unit := do
  ensure (utxos.all spendable = true) .invalidInputType
  ensure ((t.inputs.filter isCommand).length ≤ 1) .multipleCommands
  ensure ((t.outputs.filter isProduceBlock).length = 0) .produceBlockInTx
  ensure ((t.outputs.filter isPool).length ≤ 1) .multiplePools
  ensure ((t.outputs.filter isDelegation).length ≤ 1) .multipleDelegations
  ensure ((t.outputs.filter isOrder).length ≤ 1) .multipleOrders

/-- coins burned by an output -/
def burnedCoins : TxOutput → Option Nat
  | .burn (.coin n) => some n
  | _ => none

/-- `check_issuance_fee_burn_v0` – policy/mod.rs 224-258; `fee` is `fungible_token_issuance_fee` -/
def checkFeeBurnV0 (fee : Nat) (t : TransactionV1) : Except PolicyErr Unit :=
  if (t.outputs.filter isIssuance).length > 0 then do
    let total ← okOr (Accumulator.sumAmounts (t.outputs.filterMap burnedCoins)) .burnSum
    ensure (fee ≤ total) .insufficientTokenFees
  else .ok ()

/-- policy/mod.rs 275-303 -/
def checkZeroTransfer (o : TxOutput) : Except PolicyErr Unit :=
  match o with
  | .transfer (.tokenV1 id n) _ => ensure (n ≠ 0) (.zeroTokenTransfer id)
  | .lockThenTransfer (.tokenV1 id n) _ _ => ensure (n ≠ 0) (.zeroTokenTransfer id)
  | .burn (.tokenV1 id n) => ensure (n ≠ 0) (.zeroTokenTransfer id)
  | .htlc (.tokenV1 id n) _ => ensure (n ≠ 0) (.zeroTokenTransfer id)
  | _ => .ok ()

/-- the output an input spends – policy/mod.rs 176-191 -/
def spentBy (utxo : UtxoOutPoint → Option TxOutput) : TxInput → Except PolicyErr (Option TxOutput)
  | .utxo o => (okOr (utxo o) .missingOutputOrSpent).map some
  | _ => .ok none

/-- `zero_token_transfer_forbidden` – policy/mod.rs 216-219 -/
def checkZeroTransfers (r : Rules) (t : TransactionV1) : Except PolicyErr Unit :=
  if r.zeroTokenTransferForbidden then forEach checkZeroTransfer t.outputs else .ok ()

/-- policy/mod.rs 169-174 -/
def checkFeeBurn (r : Rules) (cfg : Accumulator.Config) (t : TransactionV1) : Except PolicyErr Unit :=
  if r.tokensV1 then .ok () else checkFeeBurnV0 cfg.ftIssuanceFee t

/-- `check_tx_inputs_outputs_policy` – policy/mod.rs 152-222: the fee -/
def checkTxPolicy (k : Crypto) (r : Rules) (cfg : Accumulator.Config) (w : Chain) (t : TransactionV1) :
    Except PolicyErr Accumulator.Acc := do
  let us ← collectUtxos w.utxo t.inputs
  checkTxPurposes t us
  checkFeeBurn r cfg t
  let utxos ← t.inputs.mapM (spentBy w.utxo)
  let i ← (Accumulator.fromInputs cfg w.orders w.pos w.tokens (t.inputs.map fun i => (input k i).toAcc)
    (utxos.map (Option.map (accOut k)))).mapError .accumulator
  let o ← (Accumulator.fromOutputs cfg (t.outputs.map (accOut k))).mapError .accumulator
  let fee ← (Accumulator.satisfyWith i o).mapError .accumulator
  checkZeroTransfers r t
  pure fee

/-! ### Block rewards -/

/-- `BlockRewardTransactable` – common/src/chain/block/block_reward.rs 48-52, block_v1.rs 89-100: the inputs are those of
the consensus data when staking, and absent otherwise; there are always outputs -/
structure RewardTx where
  inputs : Option (List TxInput)
  outputs : List TxOutput

/-- the pool and the staker of the kernel – purposes_check.rs 56-87 -/
def kernelPool : List TxOutput → Except PolicyErr (Bytes × Destination)
  | [] => .error .noKernel
  | [.createStakePool p d] => .ok (p, d.staker)
  | [.produceBlockFromStake d p] => .ok (p, d)
  | [_] => .error .invalidInputTypeInReward
  | _ => .error .multipleKernels

/-- the pool and the staker of the reward – purposes_check.rs 92-124 -/
def rewardPool : List TxOutput → Except PolicyErr (Bytes × Destination)
  | [] => .error .noRewardOutputs
  | [.produceBlockFromStake d p] => .ok (p, d)
  | [_] => .error .invalidOutputTypeInReward
  | _ => .error .multipleRewardOutputs

/-- purposes_check.rs 41-48 -/
def checkRewardInput : TxInput → Except PolicyErr Unit
  | .utxo _ => .ok ()
  | _ => .error .accountInReward

def isLockThenTransfer : TxOutput → Bool
  | .lockThenTransfer _ _ _ => true
  | _ => false

/-- `check_reward_inputs_outputs_purposes` – purposes_check.rs 31-190 -/
def checkRewardPurposes (r : Rules) (utxo : UtxoOutPoint → Option TxOutput) (b : RewardTx) : Except PolicyErr Unit :=
  match b.inputs with
  | some is => do
    forEach checkRewardInput is
    let us ← collectUtxos utxo is
    let (p, d) ← kernelPool us
    let (p', d') ← rewardPool b.outputs
    ensure (p = p') .poolIdMismatch
    ensure (r.stakerDestinationUpdateForbidden = false ∨ d' = d) .stakerDestinationChanged
  | none => ensure (b.outputs.all isLockThenTransfer = true) .invalidOutputTypeInReward

/-- the outputs of a reward are worth no more than fees and subsidy – policy/mod.rs 108-129 -/
def checkRewardValue (k : Crypto) (cfg : Accumulator.Config) (fees subsidy : Nat) (outs : List TxOutput) :
    Except PolicyErr Unit := do
  let i ← okOr (Accumulator.fromBlockReward fees subsidy) .rewardAddition
  let o ← (Accumulator.fromOutputs cfg (outs.map (accOut k))).mapError .accumulator
  let _ ← (Accumulator.satisfyWith i o).mapError .accumulator
  pure ()

/-- the number of outputs of a reward when staking – policy/mod.rs 131-147 -/
def checkOneOutput : List TxOutput → Except PolicyErr Unit
  | [] => .error .noRewardOutputs
  | [_] => .ok ()
  | _ => .error .multipleRewardOutputs

/-- `check_reward_inputs_outputs_policy` – policy/mod.rs 89-150; the consensus data, on which the code matches, is of staking
exactly if the reward has inputs -/
def checkRewardPolicy (k : Crypto) (r : Rules) (cfg : Accumulator.Config) (utxo : UtxoOutPoint → Option TxOutput)
    (fees subsidy : Nat) (b : RewardTx) : Except PolicyErr Unit := do
  checkRewardPurposes r utxo b
  if b.inputs.isSome then checkOneOutput b.outputs else checkRewardValue k cfg fees subsidy b.outputs

end Verif.Policy
