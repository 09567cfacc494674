import Verif.Policy.Policy
import Verif.Policy.CheckTxSpec

/-!
# What the input/output policy demands

Stated per error: `TxFault` and `RewardFault` say what is wrong with the transaction or the reward, without reference to the order in
which the code looks.  For amounts they refer to the accumulator, whose meaning is C20.
-/

namespace Verif.Policy
open Verif
open Verif.Codec

/-- outputs that can be spent by an input -/
inductive CanBeSpent : TxOutput → Prop
  | transfer (v d) : CanBeSpent (.transfer v d)
  | locked (v d l) : CanBeSpent (.lockThenTransfer v d l)
  | pool (p d) : CanBeSpent (.createStakePool p d)
  | stake (d p) : CanBeSpent (.produceBlockFromStake d p)
  | nft (id n d) : CanBeSpent (.issueNft id n d)
  | htlc (v h) : CanBeSpent (.htlc v h)

/-- inputs that are commands to a token or an order -/
inductive Commands : TxInput → Prop
  | account (n c) : Commands (.accountCommand n c)
  | order (c) : Commands (.orderAccountCommand c)

/-- two elements at different places have the property -/
def Two {α : Type} (P : α → Prop) (l : List α) : Prop :=
  ∃ (i j : Nat) (a b : α), i < j ∧ l[i]? = some a ∧ l[j]? = some b ∧ P a ∧ P b

/-- coins burned by explicit outputs -/
def coinsBurned : List TxOutput → Nat
  | [] => 0
  | .burn (.coin n) :: os => n + coinsBurned os
  | _ :: os => coinsBurned os

/-- the output moves the amount `n` of the token -/
inductive Moves (id : Bytes) (n : Nat) : TxOutput → Prop
  | transfer (d) : Moves id n (.transfer (.tokenV1 id n) d)
  | locked (d l) : Moves id n (.lockThenTransfer (.tokenV1 id n) d l)
  | burn : Moves id n (.burn (.tokenV1 id n))
  | htlc (h) : Moves id n (.htlc (.tokenV1 id n) h)

/-- what the inputs spend: the output for an input that names one, nothing for others -/
def spends (utxo : UtxoOutPoint → Option TxOutput) : TxInput → Option TxOutput
  | .utxo o => utxo o
  | _ => none

/-- what the accumulator makes of the inputs -/
def inputsWorth (k : Crypto) (cfg : Accumulator.Config) (w : Chain) (t : TransactionV1) : Except Accumulator.Err Accumulator.Acc :=
  Accumulator.fromInputs cfg w.orders w.pos w.tokens (t.inputs.map fun i => (input k i).toAcc)
    (t.inputs.map fun i => (spends w.utxo i).map (accOut k))

/-- what the accumulator makes of the outputs -/
def outputsWorth (k : Crypto) (cfg : Accumulator.Config) (os : List TxOutput) : Except Accumulator.Err Accumulator.Acc :=
  Accumulator.fromOutputs cfg (os.map (accOut k))

/-- what is wrong with a transaction -/
def TxFault (k : Crypto) (r : Rules) (cfg : Accumulator.Config) (w : Chain) (t : TransactionV1) : PolicyErr → Prop
  | .missingOutputOrSpent => ∃ o, TxInput.utxo o ∈ t.inputs ∧ w.utxo o = none
  | .invalidInputType => ∃ o u, TxInput.utxo o ∈ t.inputs ∧ w.utxo o = some u ∧ ¬ CanBeSpent u
  | .multipleCommands => Two Commands t.inputs
  | .produceBlockInTx => ∃ d p, TxOutput.produceBlockFromStake d p ∈ t.outputs
  | .multiplePools => Two (fun o => ∃ p d, o = TxOutput.createStakePool p d) t.outputs
  | .multipleDelegations => Two (fun o => ∃ d p, o = TxOutput.createDelegationId d p) t.outputs
  | .multipleOrders => Two (fun o => ∃ d, o = TxOutput.createOrder d) t.outputs
  | .burnSum => r.tokensV1 = false ∧ (∃ o ∈ t.outputs, Issues o) ∧ 2 ^ 128 ≤ coinsBurned t.outputs
  | .insufficientTokenFees => r.tokensV1 = false ∧ (∃ o ∈ t.outputs, Issues o) ∧ coinsBurned t.outputs < cfg.ftIssuanceFee
  | .accumulator e => inputsWorth k cfg w t = .error e ∨ outputsWorth k cfg t.outputs = .error e ∨
      ∃ i o, inputsWorth k cfg w t = .ok i ∧ outputsWorth k cfg t.outputs = .ok o ∧ Accumulator.satisfyWith i o = .error e
  | .zeroTokenTransfer id => r.zeroTokenTransferForbidden = true ∧ ∃ o ∈ t.outputs, Moves id 0 o
  | _ => False

/-- the output carries the stake of the pool, which belongs to the staker -/
inductive Stake (p : Bytes) (staker : Destination) : TxOutput → Prop
  | pool (d) : d.staker = staker → Stake p staker (.createStakePool p d)
  | produced : Stake p staker (.produceBlockFromStake staker p)

/-- what is wrong with a block reward -/
def RewardFault (k : Crypto) (r : Rules) (cfg : Accumulator.Config) (utxo : UtxoOutPoint → Option TxOutput)
    (fees subsidy : Nat) (b : RewardTx) : PolicyErr → Prop
  | .accountInReward => ∃ is i, b.inputs = some is ∧ i ∈ is ∧ ∀ o, i ≠ .utxo o
  | .missingOutputOrSpent => ∃ is o, b.inputs = some is ∧ TxInput.utxo o ∈ is ∧ utxo o = none
  | .noKernel => b.inputs = some []
  | .multipleKernels => ∃ is, b.inputs = some is ∧ 1 < is.length
  | .invalidInputTypeInReward => ∃ o u, b.inputs = some [.utxo o] ∧ utxo o = some u ∧ ∀ p d, ¬ Stake p d u
  | .noRewardOutputs => b.inputs ≠ none ∧ b.outputs = []
  | .multipleRewardOutputs => b.inputs ≠ none ∧ 1 < b.outputs.length
  | .invalidOutputTypeInReward => (b.inputs ≠ none ∧ ∃ o ∈ b.outputs, ∀ d p, o ≠ .produceBlockFromStake d p) ∨
      (b.inputs = none ∧ ∃ o ∈ b.outputs, ∀ v d l, o ≠ .lockThenTransfer v d l)
  | .poolIdMismatch => ∃ o u p d p' d', b.inputs = some [.utxo o] ∧ utxo o = some u ∧ Stake p d u ∧
      b.outputs = [.produceBlockFromStake d' p'] ∧ p ≠ p'
  | .stakerDestinationChanged => r.stakerDestinationUpdateForbidden = true ∧
      ∃ o u p d d', b.inputs = some [.utxo o] ∧ utxo o = some u ∧ Stake p d u ∧
        b.outputs = [.produceBlockFromStake d' p] ∧ d ≠ d'
  | .rewardAddition => b.inputs = none ∧ 2 ^ 128 ≤ fees + subsidy
  | .accumulator e => b.inputs = none ∧ (outputsWorth k cfg b.outputs = .error e ∨
      ∃ i o, Accumulator.fromBlockReward fees subsidy = some i ∧ outputsWorth k cfg b.outputs = .ok o ∧
        Accumulator.satisfyWith i o = .error e)
  | _ => False

end Verif.Policy
