import Verif.Verifier.Replay
import Verif.Accumulator.Spec

/-!
# How much of a currency a ledger holds

Specification vocabulary for the absence of inflation: what everything recorded in a ledger is worth, what transactions
create and destroy on purpose, and what the value checks of the code guarantee.
-/

namespace Verif.Verifier
open Verif
open Verif.Utxo (OutPoint Coin Output)
open Verif.Accumulator (Cur TxOutput val)

/-- what an unspent output is worth in currency `c` (0 for coins, `id + 1` for the token `id`).  Outputs that stand for
a staking pool are worth nothing by themselves: their coins are counted with the pool. -/
def worth (c : Cur) : TxOutput → Nat
  | .transfer v => val c v
  | .lockThenTransfer v _ => val c v
  | .htlc v => val c v
  | .issueNft id => if c = id + 1 then 1 else 0
  | _ => 0

/-- what an order holds: what was paid into it so far and what it still offers -/
def orderHolds (c : Cur) (d : Orders.OrderData) (ask give : Nat) : Int :=
  (if Accumulator.curOf d.ask = some c then ((Orders.amountOf d.ask).getD 0 : Int) - ask else 0) +
    (if Accumulator.curOf d.give = some c then (give : Int) else 0)

/-- everything a ledger holds in currency `c`: unspent outputs; pledges and rewards of staking pools and balances of
delegations; and the funds of orders.  `read` tells what the contents of outputs are. -/
def Ledger.holds (read : Nat → TxOutput) (l : Ledger) (c : Cur) : Int :=
  l.utxo.utxos.sumV (fun _ x => (worth c (read x.output.content) : Int)) +
  (if c = 0 then l.pos.poolData.sumV (fun _ d => ((d.pledge + d.rewards : Nat) : Int)) +
    l.pos.delegationBalances.sumV (fun _ n => (n : Int)) else 0) +
  l.orders.data.sumV (fun id d => orderHolds c d ((l.orders.ask.get id).getD 0) ((l.orders.give.get id).getD 0))

/-- the circulating supply recorded for a token -/
def Ledger.supply (l : Ledger) (id : Nat) : Nat := (l.tokens.supply.get id).getD 0

/-! ### Created and destroyed on purpose -/

/-- tokens minted by an input -/
def mintedBy (c : Cur) : Input → Nat
  | .token _ (.mint id n) => if c = id + 1 then n else 0
  | _ => 0

/-- NFTs issued by an output -/
def nftBy (c : Cur) : TxOutput → Nat
  | .issueNft id => if c = id + 1 then 1 else 0
  | _ => 0

/-- what an output destroys: burned value, and the fees charged for it -/
def lostBy (cfg : Accumulator.Config) (c : Cur) : TxOutput → Nat
  | .burn v => val c v
  | .issueFungibleToken => if c = 0 then cfg.ftIssuanceFee else 0
  | .issueNft _ => if c = 0 then cfg.nftIssuanceFee else 0
  | .dataDeposit => if c = 0 then cfg.dataDepositFee else 0
  | _ => 0

/-! ### The two descriptions of an output

The verifier model keeps what an output does (`Effect`) apart from its contents, of which it knows nothing.  The value
checks look at the contents.  Both come from the same `TxOutput`; this is how they fit together –
common/src/chain/transaction/output/mod.rs 121-186 (contents), tx-verifier mod.rs 391-455, 657-665, 886-910 (effects),
utxo/src/cache.rs 505-521 `should_include_in_utxo_set`. -/

def Fits : Effect → TxOutput → Bool → Prop
  | .createPool p d, o, u => ∃ n, o = .createStakePool p n ∧ d.pledge = n ∧ d.rewards = 0 ∧ u = true
  | .createDelegation _ _ _, o, u => o = .createDelegationId ∧ u = false
  | .delegate _ a, o, u => o = .delegateStaking a ∧ u = false
  | .issueToken _ _, o, u => o = .issueFungibleToken ∧ u = false
  | .issueNft id, o, u => o = .issueNft id ∧ u = true
  | .createOrder _ d, o, u => o = .createOrder d ∧ u = false
  | .burnToken id n, o, u => o = .burn (.tokenV1 id n) ∧ u = false
  | .none, o, u => (∃ v, o = .transfer v ∧ u = true) ∨ (∃ v l, o = .lockThenTransfer v l ∧ u = true) ∨
      (∃ v, o = .htlc v ∧ u = true) ∨ (∃ n, o = .burn (.coin n) ∧ u = false) ∨ (o = .burn .tokenV0 ∧ u = false) ∨
      (∃ p, o = .produceBlockFromStake p ∧ u = true) ∨ (o = .dataDeposit ∧ u = false)

/-- the outputs of the transactions of a block are described consistently -/
def Described (read : Nat → TxOutput) (b : Block) : Prop :=
  ∀ t ∈ b.txs, ∀ o ∈ t.outputs, Fits o.effect (read o.out.content) o.out.inUtxoSet

/-- the pool an output stands for -/
def poolIn : TxOutput → Option Nat
  | .createStakePool p _ => some p
  | .produceBlockFromStake p => some p
  | _ => Option.none

/-- the kinds of outputs that can be spent – purposes_check.rs 197-212 -/
def Spendable : TxOutput → Prop
  | .transfer _ => True
  | .lockThenTransfer _ _ => True
  | .createStakePool _ _ => True
  | .produceBlockFromStake _ => True
  | .issueNft _ => True
  | .htlc _ => True
  | _ => False

/-- the output an input spends -/
def spent (read : Nat → TxOutput) (w : Views) (i : Input) : Option TxOutput :=
  i.outpoint.bind fun o => (w.utxo o).map fun x => read x.output.content

/-- the fees of a block: all fees added up, then those that need not stay locked longer than a block reward –
default_strategy.rs 72-100 -/
def feesOf (feeOf : Nat → Accumulator.Acc) (maturity : Nat) (fees : List Nat) : Except Accumulator.Err Nat := do
  let acc ← fees.foldlM (fun a f => a.combine (feeOf f)) Accumulator.Acc.empty
  Accumulator.blockFees acc maturity

/-- coins paid out by a plan -/
def Plan.total (p : Plan) : Nat := p.delegations.sumV (fun _ n => n) + p.staker

/-- What the value checks of the code guarantee about the read-only parts of the model.  `cfgOf` are the fees
and the version of order commands in force, `feeOf` says what the fee computed for a transaction is, `subsidy` the block subsidy at each
height.
* one NFT issuance per transaction at most – check_transaction.rs 204-211;
* which kind of order command may be used – check_transaction.rs 385-446;
* spent outputs are of a kind that can be spent, and there is at most one command – purposes_check.rs 193-228;
* inputs and outputs add up – input_output_policy/mod.rs 152-222;
* block rewards: one pool output for one pool input when staking, outputs worth no more than fees and subsidy
  otherwise – purposes_check.rs 31-190, input_output_policy/mod.rs 89-150;
* a staking reward is exactly the fees and the subsidy – mod.rs 1056-1089 and property C22. -/
structure ValueGuards (env : Env) (read : Nat → TxOutput) (cfgOf : Src → Accumulator.Config)
    (feeOf : Nat → Accumulator.Acc) (subsidy : Nat → Nat) : Prop where
  pool : ∀ n, env.poolOf n = poolIn (read n)
  oneNft : ∀ s t, env.checkTx s t = true → (t.outputs.filterMap fun o => o.effect.nft).length ≤ 1
  fillV0 : ∀ s t n id a, env.checkTx s t = true → Input.orderV0 n (.fill id a) ∈ t.inputs → (cfgOf s).ordersVersion = .v0
  fillV1 : ∀ s t id a, env.checkTx s t = true → Input.order (.fill id a) ∈ t.inputs → (cfgOf s).ordersVersion = .v1
  oneCommand : ∀ w s t f, env.checkInputs w s t = some f → (t.inputs.filter Input.isCommand).length ≤ 1
  kinds : ∀ w s t f, env.checkInputs w s t = some f → ∀ i ∈ t.inputs, ∀ o, spent read w i = some o → Spendable o
  adds : ∀ w s t f, env.checkInputs w s t = some f → ∃ i o,
    Accumulator.fromInputs (cfgOf s) w.orders w.pos w.tokens (t.inputs.map Input.toAcc) (t.inputs.map (spent read w)) = .ok i ∧
    Accumulator.fromOutputs (cfgOf s) (t.outputs.map fun o => read o.out.content) = .ok o ∧
    Accumulator.satisfyWith i o = .ok (feeOf f)
  reward : ∀ w b fees, env.checkReward w b fees = true → ∃ maturity n, feesOf feeOf maturity fees = .ok n ∧
    (∀ is ∈ b.reward.inputs, ∀ k x, some k ∈ is → w.utxo k = some x → (poolIn (read x.output.content)).isSome) ∧
    (b.pos = true → (∀ os ∈ b.reward.outputs, ∀ o ∈ os, (poolIn (read o.content)).isSome) ∧
      ∀ w' p, env.plan w' b fees = some p → p.total = n + subsidy b.height) ∧
    (b.pos = false → ∃ cfg i o r, Accumulator.fromBlockReward n (subsidy b.height) = some i ∧
      Accumulator.fromOutputs cfg ((b.reward.outputs.getD []).map fun o => read o.content) = .ok o ∧
      Accumulator.satisfyWith i o = .ok r ∧
      ∀ os ∈ b.reward.outputs, ∀ o ∈ os, ∃ v l, read o.content = .lockThenTransfer v l)

end Verif.Verifier
