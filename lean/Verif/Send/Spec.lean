import Verif.Send.Model
import Verif.Accumulator.Spec
import Verif.Select.Spec

/-!
# What a transaction built for a request has to be

What inputs bring and outputs take is defined in `Accumulator.Spec`, independently of wallets.
-/

namespace Verif.Send
open Verif Verif.Accumulator

/-- what a fill of `n` brings, at the price of the order; up to version 0 the price is that of the balances -/
def fillValue (ctx : Ctx) (o : OrderInfo) (n : Nat) : Nat :=
  match ctx.cfg.ordersVersion with
  | .v0 => o.give * n / o.ask
  | .v1 => o.given * n / o.asked

/-- the amount of currency `c` that an order command brings, according to what is known about the order -/
def orderGives (ctx : Ctx) (c : Cur) : TxInput → Nat
  | .concludeOrder id =>
    match ctx.info id with
    | some o => (if c = o.giveCur then o.give else 0) + if c = o.askCur then o.asked - o.ask else 0
    | none => 0
  | .fillOrder id n =>
    match ctx.info id with
    | some o => if c = o.giveCur then fillValue ctx o n else 0
    | none => 0
  | _ => 0

/-- the amount of currency `c` that is paid into an order -/
def orderTakes (ctx : Ctx) (c : Cur) : TxInput → Nat
  | .fillOrder id n =>
    match ctx.info id with
    | some o => if c = o.askCur then n else 0
    | none => 0
  | _ => 0

/-- the amount of currency `c` that inputs of the request bring -/
def given (ctx : Ctx) (pv : Pos.View) (pre : List PreIn) (c : Cur) : Nat :=
  (pre.map fun x => brought pv c (x.input, x.utxo) + orderGives ctx c x.input).sum

/-- the amount of currency `c` that commands among the inputs cost -/
def taken (ctx : Ctx) (pre : List PreIn) (c : Cur) : Nat := (pre.map fun x => commandFee ctx.cfg c x.input + orderTakes ctx c x.input).sum

/-- the amount of currency `c` in outputs -/
def paidOut (ctx : Ctx) (outs : List Out) (c : Cur) : Nat := (outs.map fun o => placed ctx.cfg c o.1).sum

/-- the amount of currency `c` in unspent outputs -/
def valueOf (c : Cur) (us : List Utxo) : Nat := (us.map fun u => match u.2 with
  | .transfer v => val c v
  | .lockThenTransfer v _ => val c v
  | .htlc v => val c v
  | .issueNft id => if c = id + 1 then 1 else 0
  | _ => 0).sum

/-- the token an output is denominated in -/
def outCur : TxOutput → Option Cur
  | .transfer v => curOf v
  | .lockThenTransfer v _ => curOf v
  | .burn v => curOf v
  | .htlc v => curOf v
  | .createOrder d => curOf d.give
  | _ => none

/-- the request is about this token: some output is in it (be it of amount zero), or some of it is paid into an order -/
def Requested (ctx : Ctx) (pre : List PreIn) (outs : List Out) (c : Cur) : Prop :=
  (∃ o ∈ outs, outCur o.1 = some c) ∨ 0 < taken ctx pre c

/-- the length of a compactly encoded number below 2^32 -/
def lenOf (n : Nat) : Nat := if n < 64 then 1 else if n < 2 ^ 14 then 2 else if n < 2 ^ 30 then 4 else 5

/-- the size of the signed transaction: its fixed part, the counts of inputs, of signatures and of outputs beyond their first byte, the inputs with their signatures, the outputs -/
def realSize (ctx : Ctx) (pre : List PreIn) (b : Built) : Nat :=
  ctx.emptySize + 2 * (lenOf (pre.length + b.sel.length) - 1) + (lenOf b.outs.length - 1) +
    (pre.map (·.weight)).sum + (b.sel.map ctx.inWeight).sum + (b.outs.map ctx.outSize).sum

/-- an output with the greatest amount is the largest; identifiers of tokens have the same size -/
def Sized (ctx : Ctx) : Prop := ∀ c n d, n < U128 → ctx.outSize (changeOut c n d) ≤ ctx.outSize (changeOut (min c 1) (U128 - 1) d)

/-- a change output: for currency `c`, of a positive amount, to the change address -/
def ChangeOk (ctx : Ctx) (c : Cur) (o : Out) : Prop := ∃ n d, o = changeOut c n d ∧ 0 < n ∧ n < U128 ∧ ctx.dest c = some d

/-- what is known about the order of a command is what the chain says -/
def Known (ctx : Ctx) (ov : Orders.View) (id : Nat) : Prop :=
  ∃ o d, ctx.info id = some o ∧ ov.data id = .ok (some d) ∧ ov.ask id = .ok o.ask ∧ ov.give id = .ok o.give ∧
    curOf d.ask = some o.askCur ∧ Orders.amountOf d.ask = some o.asked ∧ curOf d.give = some o.giveCur ∧ Orders.amountOf d.give = some o.given

/-- a command about an order that moves amounts -/
def isOrder : TxInput → Bool
  | .concludeOrder _ => true
  | .fillOrder _ _ => true
  | _ => false

/-- the inputs of the transaction -/
def inputsOf (pre : List PreIn) (b : Built) : List TxInput := pre.map (·.input) ++ b.sel.map fun _ => .utxo

/-- the outputs they spend -/
def spentOf (pre : List PreIn) (b : Built) : List (Option TxOutput) := pre.map (·.utxo) ++ b.sel.map fun u => some u.2

/-- coins withdrawn from delegations -/
def withdrawn (pre : List PreIn) : Nat := (pre.map fun x => match x.input with | .delegation _ n => n | _ => 0).sum

/-- shuffles are permutations and heaps are heaps in all selections -/
def Ctx.Fair (ctx : Ctx) : Prop := ∀ c, (ctx.rand c).Fair (decide (c = coin))

end Verif.Send
