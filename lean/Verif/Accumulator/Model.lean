import Verif.Pos.Model
import Verif.Tokens.Model
import Verif.Orders.Model

/-!
# Model of `chainstate/constraints-value-accumulator`

Files: chainstate/constraints-value-accumulator/src/{lib,constraints_accumulator,accumulated_fee}.rs.
-/

namespace Verif.Accumulator
open Verif

/-- `Error` – error.rs; payloads dropped; accounting errors are kept apart by crate -/
inductive Err
  | amountOverflow
  | coinOrTokenOverflow
  | attemptToPrintMoney
  | attemptToViolateFeeRequirements
  | lengthMismatch
  | missingOutputOrSpent
  | spendingNonSpendableOutput
  | pledgeAmountNotFound
  | negativeAccountBalance
  | unsupportedTokenVersion
  | pos (e : Pos.Err)
  | tokens (e : Tokens.Err)
  | orders (e : Orders.Err)
  deriving DecidableEq, Repr

/-- `CoinOrTokenId` – common/src/primitives/mod.rs 45-66: 0 is the coin, `n + 1` the token `n` -/
abbrev Cur := Nat
def coin : Cur := 0
def token (id : Nat) : Cur := id + 1

/-- `ConstrainedValueAccumulator` – constraints_accumulator.rs 38-41, and `AccumulatedFee` –
accumulated_fee.rs 26-29 (same fields).  Keys of `locked` are `NonZeroU64`; the model's keys are natural numbers, put in
only when non-zero. -/
structure Acc where
  unc : BMap Cur Nat
  locked : BMap Nat Nat
  deriving DecidableEq

/-- `new` – constraints_accumulator.rs 44-49 -/
def Acc.empty : Acc := ⟨BMap.empty, BMap.empty⟩

/-- amount under a key, absent = 0 -/
def amt (m : BMap Nat Nat) (k : Nat) : Nat := (m.get k).getD 0

/-- `insert_or_increase` – lib.rs 24-33 -/
def insertOrIncrease (m : BMap Nat Nat) (k a : Nat) : Except Err (BMap Nat Nat) := do
  let v ← okOr (Amt.add (amt m k) a) .amountOverflow
  pure (m.insert k v)

/-- `decrease_or` – constraints_accumulator.rs 603-620 -/
def decreaseOr (m : BMap Nat Nat) (k a : Nat) (e : Err) : Except Err (BMap Nat Nat) :=
  if a > 0 then
    match m.get k with
    | some v => do
      let r ← okOr (Amt.sub v a) e
      pure (m.insert k r)
    | none => .error e
  else pure m

/-- a place holding coins: a lock distance or the unconstrained coins -/
inductive Cell
  | lock (d : Nat)
  | free
  deriving DecidableEq

/-- amount in a cell -/
def Acc.cell (a : Acc) : Cell → Nat
  | .lock d => amt a.locked d
  | .free => amt a.unc coin

/-- write a cell -/
def Acc.setCell (a : Acc) (c : Cell) (v : Nat) : Acc :=
  match c with
  | .lock d => { a with locked := a.locked.insert d v }
  | .free => { a with unc := a.unc.insert coin v }

/-- the iterator of `satisfy_with` – constraints_accumulator.rs 560-573: the unconstrained coins (if there is an entry)
followed by the locks up to `t` in ascending order, all reversed -/
def Acc.cellsUpTo (a : Acc) (t : Nat) : List Cell :=
  (((a.locked.entries.map Prod.fst).filter (· ≤ t)).reverse.map Cell.lock) ++
    (if (a.unc.get coin).isSome then [Cell.free] else [])

/-- the `while` loop – constraints_accumulator.rs 577-596 -/
def useCells (a : Acc) : List Cell → Nat → Except Err Acc
  | [], n => if n > 0 then .error .attemptToPrintMoney else pure a
  | c :: cs, n =>
    if n > 0 then
      if n > a.cell c then useCells (a.setCell c 0) cs (n - a.cell c)
      else pure (a.setCell c (a.cell c - n))
    else pure a

/-- `satisfy_with` – constraints_accumulator.rs 547-600 -/
def satisfyWith (self other : Acc) : Except Err Acc := do
  let unc ← other.unc.entries.foldlM (fun m kv => decreaseOr m kv.1 kv.2 .attemptToPrintMoney) self.unc
  other.locked.entries.foldlM (fun a kv => useCells a (a.cellsUpTo kv.1) kv.2) { self with unc := unc }

/-- `merge_amount_maps` – accumulated_fee.rs 93-101 -/
def mergeAmountMaps (l r : BMap Nat Nat) : Except Err (BMap Nat Nat) :=
  r.entries.foldlM (fun m kv => insertOrIncrease m kv.1 kv.2) l

/-- `AccumulatedFee::combine` – accumulated_fee.rs 49-59 -/
def Acc.combine (a b : Acc) : Except Err Acc := do
  let unc ← mergeAmountMaps a.unc b.unc
  let locked ← mergeAmountMaps a.locked b.locked
  pure ⟨unc, locked⟩

/-- `Sum for Option<Amount>` – common/src/primitives/amount/mod.rs 222-230: `None` on overflow -/
def sumAmounts (l : List Nat) : Option Nat := l.foldlM (fun a x => Amt.add a x) 0

/-- `map_into_block_fees` – accumulated_fee.rs 64-90; `maturity` = `staking_pool_spend_maturity_block_count(height)` -/
def blockFees (a : Acc) (maturity : Nat) : Except Err Nat := do
  let tl ← okOr (sumAmounts ((a.locked.entries.filter (fun kv => kv.1 ≤ maturity)).map Prod.snd)) .coinOrTokenOverflow
  okOr (Amt.add (amt a.unc coin) tl) .coinOrTokenOverflow

/-- `from_block_reward` – constraints_accumulator.rs 51-57 -/
def fromBlockReward (fee subsidy : Nat) : Option Acc := do
  let v ← Amt.add fee subsidy
  pure ⟨BMap.empty.insert coin v, BMap.empty⟩

/-! ### Inputs and outputs of a transaction -/

/-- `OutputTimeLock` – common/src/chain/transaction/output/timelock.rs 37-46 -/
inductive TimeLock
  | untilHeight (h : Nat)
  | untilTime (t : Nat)
  | forBlockCount (n : Nat)
  | forSeconds (n : Nat)
  deriving DecidableEq, Repr

/-- `TxOutput` – common/src/chain/transaction/output/mod.rs 121-186; only what the accumulator reads (destinations,
hash-lock contents, issuance and deposit contents dropped) -/
inductive TxOutput
  | transfer (v : Orders.OutputValue)
  | lockThenTransfer (v : Orders.OutputValue) (l : TimeLock)
  | burn (v : Orders.OutputValue)
  | createStakePool (pool pledge : Nat)
  | produceBlockFromStake (pool : Nat)
  | createDelegationId
  | delegateStaking (a : Nat)
  | issueFungibleToken
  | issueNft (id : Nat)
  | dataDeposit
  | htlc (v : Orders.OutputValue)
  | createOrder (d : Orders.OrderData)
  deriving DecidableEq, Repr

/-- `TxInput` with `AccountSpending`, `AccountCommand`, `OrderAccountCommand` –
common/src/chain/transaction/input.rs 39-48, account_outpoint.rs 118-168, 219-236; nonces and destinations dropped.
The deprecated order commands of `AccountCommand` behave as the new ones here (lines 303-318 and 330-346 call the same
functions). -/
inductive TxInput
  | utxo
  | delegation (id amount : Nat)
  | mint (id amount : Nat)
  | unmint (id : Nat)
  | lockSupply (id : Nat)
  | freezeToken (id : Nat)
  | unfreezeToken (id : Nat)
  | changeAuthority (id : Nat)
  | changeMetadataUri (id : Nat)
  | concludeOrder (id : Nat)
  | fillOrder (id amount : Nat)
  | freezeOrder (id : Nat)
  deriving DecidableEq, Repr

/-- the values of `ChainConfig` at the block's height that the accumulator reads -/
structure Config where
  maturity : Nat
  supplyChangeFee : Nat
  freezeFee : Nat
  changeAuthorityFee : Nat
  changeMetadataFee : Nat
  dataDepositFee : Nat
  ftIssuanceFee : Nat
  nftIssuanceFee : Nat
  ordersVersion : Orders.Version

/-- `CoinOrTokenId::from_output_value` – common/src/primitives/mod.rs 53-59 -/
def curOf : Orders.OutputValue → Option Cur
  | .coin _ => some coin
  | .tokenV0 => none
  | .tokenV1 id _ => some (token id)

/-- add an output value to the unconstrained values – constraints_accumulator.rs 152-165, 446-457 -/
def addValue (a : Acc) : Orders.OutputValue → Except Err Acc
  | .coin n => do let u ← insertOrIncrease a.unc coin n; pure { a with unc := u }
  | .tokenV0 => pure a
  | .tokenV1 id n => do let u ← insertOrIncrease a.unc (token id) n; pure { a with unc := u }

/-- coins coming out of staking: locked for the maturity distance unless that is 0 –
constraints_accumulator.rs 192-210 and 241-258 -/
def addStaked (a : Acc) (maturity n : Nat) : Except Err Acc :=
  if maturity ≠ 0 then do
    let l ← (insertOrIncrease a.locked maturity n).mapError (fun _ => .coinOrTokenOverflow)
    pure { a with locked := l }
  else do
    let u ← insertOrIncrease a.unc coin n
    pure { a with unc := u }

/-- the accumulator with the scratch accounting layers – constraints_accumulator.rs 73-83 -/
structure St where
  acc : Acc
  deduct : BMap Cur Nat
  pos : Pos.Cache
  tokens : Tokens.Cache
  orders : Orders.Cache

/-- `process_input_utxo` – constraints_accumulator.rs 140-216 -/
def inputUtxo (cfg : Config) (pos : Pos.View) (a : Acc) : TxOutput → Except Err Acc
  | .transfer v => addValue a v
  | .lockThenTransfer v _ => addValue a v
  | .htlc v => addValue a v
  | .createDelegationId => .error .spendingNonSpendableOutput
  | .issueFungibleToken => .error .spendingNonSpendableOutput
  | .burn _ => .error .spendingNonSpendableOutput
  | .dataDeposit => .error .spendingNonSpendableOutput
  | .createOrder _ => .error .spendingNonSpendableOutput
  | .issueNft id => addValue a (.tokenV1 id 1)
  | .delegateStaking n => addValue a (.coin n)
  | .createStakePool p _ => stake p
  | .produceBlockFromStake p => stake p
where
  /-- lines 181-211 -/
  stake (p : Nat) : Except Err Acc := do
    let od ← (pos.poolData p).mapError (fun _ => Err.pos .viewFail)
    let d ← okOr od .pledgeAmountNotFound
    let b ← d.stakerBalance.mapError Err.pos
    addStaked a cfg.maturity b

/-- `process_input_account` – constraints_accumulator.rs 218-262 -/
def inputDelegation (cfg : Config) (s : St) (d n : Nat) : Except Err St := do
  let p ← (Pos.spendInput s.pos d n).mapError Err.pos
  let a ← addStaked s.acc cfg.maturity n
  pure { s with pos := p, acc := a }

/-- `insert_or_increase(&mut total_to_deduct, ..)` – constraints_accumulator.rs 113, 123 -/
def addDeduct (s : St) (c : Cur) (n : Nat) : Except Err St := do
  let d ← insertOrIncrease s.deduct c n
  pure { s with deduct := d }

/-- `MintTokens` – constraints_accumulator.rs 276-290 -/
def inputMint (s : St) (id n : Nat) : Except Err St := do
  let (t, _) ← (Tokens.mintTokens s.tokens id n).mapError Err.tokens
  let _ ← (t.view.supply id).mapError Err.tokens
  let u ← insertOrIncrease s.acc.unc (token id) n
  pure { s with tokens := t, acc := { s.acc with unc := u } }

/-- `output_value_amount` – constraints_accumulator.rs 622-627 -/
def valueAmount : Orders.OutputValue → Except Err Nat
  | .coin a => .ok a
  | .tokenV1 _ a => .ok a
  | .tokenV0 => .error .unsupportedTokenVersion

/-- `process_conclude_order_command` – constraints_accumulator.rs 347-386 -/
def inputConclude (s : St) (id : Nat) : Except Err St := do
  let od ← (s.orders.view.data id).mapError (fun _ => Err.orders .viewFail)
  let d ← okOr od (.orders .orderDataNotFound)
  let ask ← (s.orders.view.ask id).mapError (fun _ => Err.orders .viewFail)
  let give ← (s.orders.view.give id).mapError (fun _ => Err.orders .viewFail)
  let (o, _) ← (Orders.concludeOrder s.orders id).mapError Err.orders
  let _ ← (o.view.ask id).mapError Err.orders
  let _ ← (o.view.give id).mapError Err.orders
  let asked ← valueAmount d.ask
  let filled ← okOr (Amt.sub asked ask) .negativeAccountBalance
  let ac ← okOr (curOf d.ask) .unsupportedTokenVersion
  let u ← insertOrIncrease s.acc.unc ac filled
  let gc ← okOr (curOf d.give) .unsupportedTokenVersion
  let u ← insertOrIncrease u gc give
  pure { s with orders := o, acc := { s.acc with unc := u } }

/-- `process_fill_order_command` – constraints_accumulator.rs 390-434; the result is what to deduct -/
def inputFill (cfg : Config) (s : St) (id n : Nat) : Except Err (St × Cur) := do
  let od ← (s.orders.view.data id).mapError (fun _ => Err.orders .viewFail)
  let d ← okOr od (.orders .orderDataNotFound)
  let filled ← (Orders.calculateFillOrder s.orders.view id n cfg.ordersVersion).mapError Err.orders
  let (o, _) ← (Orders.fillOrder s.orders id n cfg.ordersVersion).mapError Err.orders
  let _ ← (o.view.ask id).mapError Err.orders
  let _ ← (o.view.give id).mapError Err.orders
  let gc ← okOr (curOf d.give) .unsupportedTokenVersion
  let u ← insertOrIncrease s.acc.unc gc filled
  let ac ← okOr (curOf d.ask) .unsupportedTokenVersion
  pure ({ s with orders := o, acc := { s.acc with unc := u } }, ac)

/-- one iteration of the loop of `from_inputs` – constraints_accumulator.rs 85-127 -/
def inputStep (cfg : Config) (s : St) : TxInput × Option TxOutput → Except Err St
  | (.utxo, u) => do
    let o ← okOr u .missingOutputOrSpent
    let a ← inputUtxo cfg s.pos.view s.acc o
    pure { s with acc := a }
  | (.delegation d n, _) => inputDelegation cfg s d n
  | (.mint id n, _) => do
    let s ← inputMint s id n
    addDeduct s coin cfg.supplyChangeFee
  | (.unmint _, _) => addDeduct s coin cfg.supplyChangeFee
  | (.lockSupply _, _) => addDeduct s coin cfg.supplyChangeFee
  | (.freezeToken _, _) => addDeduct s coin cfg.freezeFee
  | (.unfreezeToken _, _) => addDeduct s coin cfg.freezeFee
  | (.changeAuthority _, _) => addDeduct s coin cfg.changeAuthorityFee
  | (.changeMetadataUri _, _) => addDeduct s coin cfg.changeMetadataFee
  | (.concludeOrder id, _) => do
    let s ← inputConclude s id
    addDeduct s coin 0
  | (.fillOrder id n, _) => do
    let (s, c) ← inputFill cfg s id n
    addDeduct s c n
  | (.freezeOrder _, _) => pure s

/-- the loop of `from_inputs` – constraints_accumulator.rs 85-127 -/
def inputLoop (cfg : Config) (s : St) (ins : List (TxInput × Option TxOutput)) : Except Err St :=
  ins.foldlM (inputStep cfg) s

/-- `from_inputs` – constraints_accumulator.rs 59-138 -/
def fromInputs (cfg : Config) (orders : Orders.View) (pos : Pos.View) (tokens : Tokens.View) (inputs : List TxInput)
    (utxos : List (Option TxOutput)) : Except Err Acc := do
  ensure (inputs.length = utxos.length) .lengthMismatch
  let s ← inputLoop cfg ⟨Acc.empty, BMap.empty, Pos.Cache.new pos, Tokens.Cache.new tokens, ⟨orders, Orders.Delta.empty⟩⟩
    (inputs.zip utxos)
  let unc ← s.deduct.entries.foldlM (fun m kv => decreaseOr m kv.1 kv.2 .attemptToViolateFeeRequirements) s.acc.unc
  pure { s.acc with unc := unc }

/-- `process_output_timelock` – constraints_accumulator.rs 514-544 -/
def addLocked (a : Acc) (n : Nat) : TimeLock → Except Err Acc
  | .forBlockCount c =>
    if c ≠ 0 then do
      let l ← insertOrIncrease a.locked c n
      pure { a with locked := l }
    else addValue a (.coin n)
  | .untilHeight _ => addValue a (.coin n)
  | .untilTime _ => addValue a (.coin n)
  | .forSeconds _ => addValue a (.coin n)

/-- one iteration of `from_outputs` – constraints_accumulator.rs 443-508 -/
def outputStep (cfg : Config) (a : Acc) : TxOutput → Except Err Acc
  | .transfer v => addValue a v
  | .burn v => addValue a v
  | .htlc v => addValue a v
  | .delegateStaking n => addValue a (.coin n)
  | .createStakePool _ pledge => addValue a (.coin pledge)
  | .produceBlockFromStake _ => pure a
  | .createDelegationId => pure a
  | .lockThenTransfer v l =>
    match v with
    | .coin n => addLocked a n l
    | .tokenV0 => pure a
    | .tokenV1 id n => addValue a (.tokenV1 id n)
  | .dataDeposit => addValue a (.coin cfg.dataDepositFee)
  | .issueFungibleToken => addValue a (.coin cfg.ftIssuanceFee)
  | .issueNft _ => addValue a (.coin cfg.nftIssuanceFee)
  | .createOrder d => do
    let c ← okOr (curOf d.give) .unsupportedTokenVersion
    let n ← valueAmount d.give
    let u ← insertOrIncrease a.unc c n
    pure { a with unc := u }

/-- `from_outputs` – constraints_accumulator.rs 436-512 -/
def fromOutputs (cfg : Config) (outs : List TxOutput) : Except Err Acc := outs.foldlM (outputStep cfg) Acc.empty

end Verif.Accumulator
