import Verif.Select.Model
import Verif.FeeRate.Model
import Verif.Accumulator.Model

/-!
# Transactions a wallet builds

Model of `select_inputs_for_send_request` (wallet/src/account/mod.rs) and the functions it uses: a request for a transaction – outputs, and inputs that have to be in it – is completed by
further inputs and by change outputs.

Inputs, outputs and currencies are those of `Accumulator.Model` (currency 0: coins).  Outputs come with a number that stands for the destination and all else that does not matter for
amounts.  Sizes are parameters (`usize` is unbounded here), and so are the change addresses and the random choices.
-/

namespace Verif.Send
open Verif Verif.Accumulator

/-- an unspent output: its outpoint and the output -/
abbrev Utxo := Nat × TxOutput

/-- an output with its destination -/
abbrev Out := TxOutput × Nat

/-- errors: `WalletError` (the variants that occur here), `UtxoSelectorError` -/
inductive Err
  | outputOverflow | feeOverflow | unsupported | tooManyElements | orderInfoMissing | filledAmount | noAddress
  | utxoMissing
  | sel (e : Select.SelErr)
  deriving DecidableEq, Repr

/-- an input that is in the request: the input, the output spent, and the size of the input with its signature (`total_input_size` – account/mod.rs 2770-2773) -/
structure PreIn where
  input : TxInput
  utxo : Option TxOutput
  weight : Nat

/-- `RpcOrderInfo`: what the node told about an order; currencies and amounts of the original order and the present balances -/
structure OrderInfo where
  askCur : Cur
  asked : Nat
  giveCur : Cur
  given : Nat
  ask : Nat
  give : Nat

/-- everything that is looked up; `cfg` are the fees at the best block of the wallet -/
structure Ctx where
  cfg : Config
  rate : Nat
  longRate : Nat
  info : Nat → Option OrderInfo
  emptySize : Nat
  outSize : Out → Nat
  inWeight : Utxo → Nat
  dest : Cur → Option Nat
  rand : Cur → Select.Rand Utxo
  algo : Select.Algo
  max : Nat

/-- `FeeRate::compute_fee` with the error of the wallet -/
def fee (rate size : Nat) : Except Err Nat := (FeeRate.computeFee rate size).mapError fun _ => .sel .arithmetic

/-- `serialization::Compact::<u32>::compact_len`, the length of a compactly encoded number; numbers of 2^32 or more are refused -/
def compactLen (n : Nat) : Except Err Nat :=
  if n < 64 then .ok 1 else if n < 2 ^ 14 then .ok 2 else if n < 2 ^ 30 then .ok 4 else if n < 2 ^ 32 then .ok 5 else .error .tooManyElements

/-- `tx_size_with_num_inputs_and_outputs` – common/src/size_estimation/mod.rs 246-280: a transaction without inputs and outputs, and what longer counts add to it (the number of inputs is
also that of the signatures) -/
def txSize (ctx : Ctx) (outs ins : Nat) : Except Err Nat := do
  let i ← compactLen ins
  let o ← compactLen outs
  pure (ctx.emptySize + (o - 1) + (i - 1) * 2)

/-- `outputs_encoded_size` – common/src/size_estimation/mod.rs 282-284 -/
def outsSize (ctx : Ctx) (outs : List Out) : Nat := (outs.map ctx.outSize).sum

/-! ### inputs of the request -/

/-- `PreselectedInputAmounts` – account/mod.rs 2602-2623 -/
structure Pre where
  amount : Nat := 0
  burn : Nat := 0

/-- `update_preselected_inputs` – account/mod.rs 2784-2812 -/
def updatePre (m : BMap Cur Pre) (c : Cur) (amount : Nat) (bc : Cur) (burn : Nat) : Except Err (BMap Cur Pre) := do
  let p := (m.get c).getD {}
  let a ← okOr (Amt.add p.amount amount) .outputOverflow
  let m := m.insert c { p with amount := a }
  let q := (m.get bc).getD {}
  let b ← okOr (Amt.add q.burn burn) .outputOverflow
  pure (m.insert bc { q with burn := b })

/-- the currency and amount of an output that can be spent like this – account/mod.rs 2817-2847, currency_grouper/mod.rs 136-168 -/
def spendable : TxOutput → Except Err (Cur × Nat)
  | .transfer v => value v
  | .lockThenTransfer v _ => value v
  | .htlc v => value v
  | .issueNft id => .ok (token id, 1)
  | _ => .error .unsupported
where
  /-- the match on the output value -/
  value : Orders.OutputValue → Except Err (Cur × Nat)
    | .coin n => .ok (coin, n)
    | .tokenV0 => .error .unsupported
    | .tokenV1 id n => .ok (token id, n)

/-- `handle_fill_order_op` – account/mod.rs 2947-2983.  The version follows from the kind of the command in the code; here it is the one in force, the wallet makes commands of that kind. -/
def fillPre (ctx : Ctx) (m : BMap Cur Pre) (id n : Nat) : Except Err (BMap Cur Pre) := do
  let o ← okOr (ctx.info id) .orderInfoMissing
  let filled ← okOr (match ctx.cfg.ordersVersion with
    | .v0 => Orders.calculateFilledAmount o.ask o.give n
    | .v1 => Orders.calculateFilledAmount o.asked o.given n) .filledAmount
  updatePre m o.giveCur filled o.askCur n

/-- `handle_conclude_order` – account/mod.rs 2985-3009 -/
def concludePre (ctx : Ctx) (m : BMap Cur Pre) (id : Nat) : Except Err (BMap Cur Pre) := do
  let o ← okOr (ctx.info id) .orderInfoMissing
  let m ← updatePre m o.giveCur o.give coin 0
  let filled ← okOr (Amt.sub o.asked o.ask) .outputOverflow
  updatePre m o.askCur filled coin 0

/-- what an input brings and burns – account/mod.rs 2814-2936; a missing output is the failed `expect` -/
def inputPre (ctx : Ctx) (m : BMap Cur Pre) (x : PreIn) : Except Err (BMap Cur Pre) :=
  match x.input with
  | .utxo => do
    let o ← okOr x.utxo .utxoMissing
    let (c, n) ← spendable o
    updatePre m c n coin 0
  | .delegation _ n => updatePre m coin n coin 0
  | .mint id n => updatePre m (token id) n coin ctx.cfg.supplyChangeFee
  | .unmint id => updatePre m (token id) 0 coin ctx.cfg.supplyChangeFee
  | .lockSupply id => updatePre m (token id) 0 coin ctx.cfg.supplyChangeFee
  | .freezeToken id => updatePre m (token id) 0 coin ctx.cfg.freezeFee
  | .unfreezeToken id => updatePre m (token id) 0 coin ctx.cfg.freezeFee
  | .changeAuthority id => updatePre m (token id) 0 coin ctx.cfg.changeAuthorityFee
  | .changeMetadataUri id => updatePre m (token id) 0 coin ctx.cfg.changeMetadataFee
  | .concludeOrder id => concludePre ctx m id
  | .fillOrder id n => fillPre ctx m id n
  | .freezeOrder _ => .ok m

/-- `PreselectedInputs` – account/mod.rs 2625-2629 -/
structure Pres where
  amounts : BMap Cur Pre := BMap.empty
  sizes : Nat := 0
  fees : Nat := 0

/-- one input of `group_preselected_inputs` – account/mod.rs 2740-2937 -/
def presStep (ctx : Ctx) (p : Pres) (x : PreIn) : Except Err Pres := do
  let f ← fee ctx.rate x.weight
  let fees ← okOr (Amt.add p.fees f) .outputOverflow
  let m ← inputPre ctx p.amounts x
  pure ⟨m, p.sizes + x.weight, fees⟩

/-- `group_preselected_inputs` – account/mod.rs 2727-2945 -/
def groupPres (ctx : Ctx) (l : List PreIn) : Except Err Pres := l.foldlM (presStep ctx) {}

/-! ### outputs of the request -/

/-- the value of an output – currency_grouper/mod.rs 92-118 -/
def outValue (cfg : Config) : TxOutput → Except Err (Option Orders.OutputValue)
  | .transfer v => .ok (some v)
  | .lockThenTransfer v _ => .ok (some v)
  | .burn v => .ok (some v)
  | .htlc v => .ok (some v)
  | .createStakePool _ pledge => .ok (some (.coin pledge))
  | .delegateStaking n => .ok (some (.coin n))
  | .issueFungibleToken => .ok (some (.coin cfg.ftIssuanceFee))
  | .issueNft _ => .ok (some (.coin cfg.nftIssuanceFee))
  | .dataDeposit => .ok (some (.coin cfg.dataDepositFee))
  | .createDelegationId => .ok none
  | .produceBlockFromStake _ => .error .unsupported
  | .createOrder d => .ok (some d.give)

/-- an amount is added to that of a currency -/
def addAmount (m : BMap Cur Nat) (c : Cur) (n : Nat) : Except Err (BMap Cur Nat) := do
  let a ← okOr (Amt.add ((m.get c).getD 0) n) .outputOverflow
  pure (m.insert c a)

/-- one output of `group_outputs_with_issuance_fee` – currency_grouper/mod.rs 91-131 -/
def outStep (cfg : Config) (m : BMap Cur Nat) (o : Out) : Except Err (BMap Cur Nat) := do
  match ← outValue cfg o.1 with
  | some (.coin n) => addAmount m coin n
  | some (.tokenV1 id n) => addAmount m (token id) n
  | some .tokenV0 => pure m
  | none => pure m

/-- `group_outputs_with_issuance_fee` – currency_grouper/mod.rs 79-134; the amount of coins, kept apart in the code and inserted at the end, is there from the start -/
def groupOutputs (cfg : Config) (outs : List Out) : Except Err (BMap Cur Nat) :=
  outs.foldlM (outStep cfg) (BMap.empty.insert coin 0)

/-- what inputs of the request burn is to be paid as well – account/mod.rs 268-280 -/
def burnStep (m : BMap Cur Nat) (x : Cur × Pre) : Except Err (BMap Cur Nat) :=
  if 0 < x.2.burn then addAmount m x.1 x.2.burn else .ok m

/-! ### unspent outputs -/

/-- an unspent output as a group – account/mod.rs 522-543, output_group.rs 55-97 -/
def groupOf (ctx : Ctx) (u : Utxo) : Except Err (Cur × Select.Group Utxo) := do
  let (c, n) ← spendable u.2
  let f ← fee ctx.rate (ctx.inWeight u)
  let l ← fee ctx.longRate (ctx.inWeight u)
  pure (c, ⟨[u], n, f, l, ctx.inWeight u⟩)

/-- all groups with their currencies -/
def groupsAll (ctx : Ctx) : List Utxo → Except Err (List (Cur × Select.Group Utxo))
  | [] => .ok []
  | u :: us => do
    let g ← groupOf ctx u
    let gs ← groupsAll ctx us
    pure (g :: gs)

/-- `utxo_output_groups_by_currency` – account/mod.rs 515-573: the groups of one currency; outputs of coins are left out unless they are worth more than the fee for spending them -/
def groupsOf (l : List (Cur × Select.Group Utxo)) (c : Cur) : List (Select.Group Utxo) :=
  (l.filter fun x => decide (x.1 = c) && (decide (c ≠ coin) || decide (x.2.fee < x.2.value))).map (·.2)

/-! ### the transaction -/

/-- a change output – account/mod.rs 378-384, 482-488 -/
def changeOut (c : Cur) (n d : Nat) : Out :=
  (.transfer (match c with | 0 => .coin n | id + 1 => .tokenV1 id n), d)

/-- `output_change_size_and_fees` – account/mod.rs 3012-3042: the size of a change output with the greatest amount, and the fee for it; the identifier of the token is replaced by zero,
identifiers have the same size -/
def changeCost (ctx : Ctx) (c : Cur) (d : Nat) : Except Err (Nat × Nat) := do
  let size := ctx.outSize (changeOut (min c 1) (U128 - 1) d)
  let f ← fee ctx.rate size
  pure (size, f)

/-- `SelectionResult::add_change` – utxo_selector/mod.rs 66-69 -/
def addChange (r : Select.Result Utxo) (n : Nat) : Except Err (Select.Result Utxo) := do
  let c ← okOr (Amt.add r.change n) (.sel .arithmetic)
  pure { r with change := c }

/-- `select_coins` with the error of the wallet -/
def select (ctx : Ctx) (c : Cur) (pool : List (Select.Group Utxo)) (target cost : Nat) : Except Err (Select.Result Utxo) :=
  (Select.selectCoins (ctx.rand c) pool target (decide (c = coin)) cost ctx.algo ctx.max).mapError .sel

/-- the variables of `select_inputs_for_send_request`: the fees to be paid so far, the size so far, the outputs of the transaction, the selections made -/
structure St where
  fees : Nat := 0
  size : Nat := 0
  outs : List Out
  sel : List (Cur × Select.Result Utxo) := []

/-- the change of a token is added – account/mod.rs 373-386 -/
def tokenChange (st : St) (c change size cost d : Nat) : Except Err St :=
  if 0 < change then do
    let fees ← okOr (Amt.add st.fees cost) .outputOverflow
    pure { st with fees := fees, size := st.size + size, outs := st.outs ++ [changeOut c change d] }
  else .ok st

/-- the amount of a currency that inputs of the request bring -/
def preAmount (p : Pres) (c : Cur) : Nat := ((p.amounts.get c).getD {}).amount

/-- inputs for one token – account/mod.rs 334-390 -/
def tokenStep (ctx : Ctx) (groups : List (Cur × Select.Group Utxo)) (pres : Pres) (st : St) (x : Cur × Nat) : Except Err St := do
  let p := preAmount pres x.1
  let d ← okOr (ctx.dest x.1) .noAddress
  let (size, cost) ← changeCost ctx x.1 d
  let r ← select ctx x.1 (groupsOf groups x.1) (x.2 - p) 0
  let fees ← okOr (Amt.add st.fees r.fees) .outputOverflow
  let r ← addChange r (p - x.2)
  let st' ← tokenChange { st with fees := fees, size := st.size + r.weight } x.1 r.change size cost d
  pure { st' with sel := st'.sel ++ [(x.1, r)] }

/-- the number of outputs selected -/
def numSelected (l : List (Cur × Select.Result Utxo)) : Nat := (l.map fun x => x.2.outputs.length).sum

/-- the number of selections with change -/
def numChange (l : List (Cur × Select.Result Utxo)) : Nat := (l.filter fun x => decide (0 < x.2.change)).length

/-- the transaction: the inputs selected (in addition to those of the request), the outputs, and the fee the user is told -/
structure Built where
  sel : List Utxo
  outs : List Out
  fee : Nat

/-- the end: the number of inputs and outputs is known, the fee is computed anew from the size, and what is saved is added to the change – account/mod.rs 452-502.
`st.fees` and `st.size` are those with the coins selected; `oldSize` is `tx_outputs_size`. -/
def finish (ctx : Ctx) (st : St) (r : Select.Result Utxo) (preIns oldSize size cost d : Nat) : Except Err Built := do
  let nc := numChange st.sel + if 0 < r.change then 1 else 0
  let n ← txSize ctx (st.outs.length + nc) (numSelected st.sel + preIns + r.outputs.length)
  let total := st.size - oldSize + (n + outsSize ctx st.outs)
  let sel := r.outputs ++ st.sel.flatMap fun x => x.2.outputs
  if 0 < r.change then do
    let fees ← okOr (Amt.add st.fees cost) .outputOverflow
    let new ← fee ctx.rate (total + size)
    let r' ← addChange r (fees - new)
    pure ⟨sel, st.outs ++ [changeOut coin r'.change d], new⟩
  else do
    let new ← fee ctx.rate total
    pure ⟨sel, st.outs, new⟩

/-- the coins – account/mod.rs 392-461; `amount` is the amount of coins to be paid without fees -/
def coinPart (ctx : Ctx) (groups : List (Cur × Select.Group Utxo)) (pres : Pres) (preIns amount : Nat) (st : St) : Except Err Built := do
  let pool := groupsOf groups coin
  let maxIns := numSelected st.sel + preIns + (pool.map fun g => g.outputs.length).sum
  let n ← txSize ctx (st.outs.length + numChange st.sel + 1) maxIns
  let outsSz := n + outsSize ctx st.outs
  let f ← fee ctx.rate outsSz
  let p := preAmount pres coin
  let fees ← okOr (Amt.add st.fees f) .outputOverflow
  let fees ← okOr (Amt.add fees pres.fees) .outputOverflow
  let amount ← okOr (Amt.add amount fees) .outputOverflow
  let d ← okOr (ctx.dest coin) .noAddress
  let (size, cost) ← changeCost ctx coin d
  let r ← select ctx coin pool (amount - p) cost
  let r ← addChange r (p - amount)
  let fees ← okOr (Amt.add fees r.fees) .outputOverflow
  finish ctx { st with fees := fees, size := st.size + (outsSz + pres.sizes) + r.weight } r preIns outsSz size cost d

/-- `select_inputs_for_send_request` – account/mod.rs 232-513; `utxos` are the unspent outputs that may be used (all that can be spent, or those the user chose).
A request carries no fee at the beginning; that `with_inputs` finds a destination for every input is not modelled (it does for all outputs that are `spendable`). -/
def build (ctx : Ctx) (pre : List PreIn) (outs : List Out) (utxos : List Utxo) : Except Err Built := do
  let pres ← groupPres ctx pre
  let amounts ← groupOutputs ctx.cfg outs
  let amounts ← pres.amounts.entries.foldlM burnStep amounts
  let groups ← groupsAll ctx utxos
  let st ← (amounts.erase coin).entries.foldlM (tokenStep ctx groups pres) { outs := outs }
  coinPart ctx groups pres pre.length ((amounts.get coin).getD 0) st

end Verif.Send
