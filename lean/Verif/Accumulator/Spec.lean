import Verif.Accumulator.Model
import Verif.Orders.Spec
import Mathlib.Algebra.BigOperators.Group.Finset.Basic

/-!
# Specification vocabulary for value accumulators
-/

namespace Verif.Accumulator
open Verif

/-- everything of a currency that an accumulator holds, locked or not -/
def Acc.total (a : Acc) (c : Cur) : Nat :=
  (a.unc.get c).getD 0 + if c = 0 then a.locked.sumV (fun _ v => v) else 0

/-- coins that must stay locked for at least `d` blocks -/
def Acc.lockedFrom (a : Acc) (d : Nat) : Nat := a.locked.sumV (fun k v => if d ≤ k then v else 0)

/-- coins that must stay locked for at most `d` blocks, including not at all -/
def Acc.upTo (a : Acc) (d : Nat) : Nat :=
  (a.unc.get 0).getD 0 + a.locked.sumV (fun k v => if k ≤ d then v else 0)

/-- amount of currency `c` in an output value -/
def val (c : Cur) : Orders.OutputValue → Nat
  | .coin n => if c = 0 then n else 0
  | .tokenV1 id n => if c = id + 1 then n else 0
  | .tokenV0 => 0

/-- coins a pool owner can take out of a pool: pledge and rewards -/
def ownerShare (v : Pos.View) (p : Nat) : Nat :=
  match v.poolData p with
  | .ok (some d) => d.pledge + d.rewards
  | _ => 0

/-- coins an input takes out of staking -/
def unstaked (v : Pos.View) : TxInput × Option TxOutput → Nat
  | (.utxo, some (.createStakePool p _)) => ownerShare v p
  | (.utxo, some (.produceBlockFromStake p)) => ownerShare v p
  | (.delegation _ n, _) => n
  | _ => 0

/-- amount of currency `c` an input brings in: value of the spent output, coins leaving staking, tokens minted -/
def brought (v : Pos.View) (c : Cur) (x : TxInput × Option TxOutput) : Nat :=
  (if c = 0 then unstaked v x else 0) +
  match x with
  | (.utxo, some (.transfer w)) => val c w
  | (.utxo, some (.lockThenTransfer w _)) => val c w
  | (.utxo, some (.htlc w)) => val c w
  | (.utxo, some (.issueNft id)) => if c = id + 1 then 1 else 0
  | (.utxo, some (.delegateStaking n)) => if c = 0 then n else 0
  | (.mint id n, _) => if c = id + 1 then n else 0
  | _ => 0

/-- fee (in coins) charged for a command among the inputs -/
def commandFee (cfg : Config) (c : Cur) : TxInput → Nat
  | .mint _ _ => if c = 0 then cfg.supplyChangeFee else 0
  | .unmint _ => if c = 0 then cfg.supplyChangeFee else 0
  | .lockSupply _ => if c = 0 then cfg.supplyChangeFee else 0
  | .freezeToken _ => if c = 0 then cfg.freezeFee else 0
  | .unfreezeToken _ => if c = 0 then cfg.freezeFee else 0
  | .changeAuthority _ => if c = 0 then cfg.changeAuthorityFee else 0
  | .changeMetadataUri _ => if c = 0 then cfg.changeMetadataFee else 0
  | _ => 0

/-- amount of currency `c` an output takes: the value it carries, or the fee charged for it -/
def placed (cfg : Config) (c : Cur) : TxOutput → Nat
  | .transfer v => val c v
  | .lockThenTransfer v _ => val c v
  | .burn v => val c v
  | .htlc v => val c v
  | .createStakePool _ n => if c = 0 then n else 0
  | .delegateStaking n => if c = 0 then n else 0
  | .issueFungibleToken => if c = 0 then cfg.ftIssuanceFee else 0
  | .issueNft _ => if c = 0 then cfg.nftIssuanceFee else 0
  | .dataDeposit => if c = 0 then cfg.dataDepositFee else 0
  | .createOrder d => val c d.give
  | .produceBlockFromStake _ => 0
  | .createDelegationId => 0

/-- coins an output locks for at least `d` blocks -/
def lockedOut (d : Nat) : TxOutput → Nat
  | .lockThenTransfer (.coin n) (.forBlockCount k) => if k ≠ 0 ∧ d ≤ k then n else 0
  | _ => 0

/-- order operations among the inputs -/
def orderOps (cfg : Config) : TxInput → List Orders.Op
  | .concludeOrder id => [.conclude id]
  | .fillOrder id n => [.fill id n cfg.ordersVersion]
  | _ => []

/-- value of currency `c` held by an order: what was paid into it so far (in the asked currency) and what it still
offers (in the given currency) -/
def held (v : Orders.View) (c : Cur) (id : Nat) : Int :=
  match v.data id, v.ask id, v.give id with
  | .ok (some d), .ok a, .ok g =>
    (if curOf d.ask = some c then ((Orders.amountOf d.ask).getD 0 : Int) - a else 0) +
      (if curOf d.give = some c then (g : Int) else 0)
  | _, _, _ => 0

/-- order commands among the inputs touch only these orders -/
def touches (id : Nat) : TxInput → Prop
  | .concludeOrder i => i = id
  | .fillOrder i _ => i = id
  | _ => False

end Verif.Accumulator
