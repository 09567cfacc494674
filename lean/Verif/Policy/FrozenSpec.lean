import Verif.Policy.Node
import Verif.Verifier.LedgerLemmas

/-!
# Frozen tokens: what it means that nothing of a token moves
-/

namespace Verif.Policy
open Verif
open Verif.Verifier (Ledger St Block Tx Input TokenCmd)
open Verif.Utxo (OutPoint Coin)

/-- units of a token in a value -/
def unitsIn (id : Nat) : Orders.OutputValue → Nat
  | .tokenV1 i n => if i = id then n else 0
  | _ => 0

/-- units of a token that an output holds -/
def units (id : Nat) : Accumulator.TxOutput → Nat
  | .transfer v => unitsIn id v
  | .lockThenTransfer v _ => unitsIn id v
  | .htlc v => unitsIn id v
  | _ => 0

/-- a value is in units of the token -/
def isIn (id : Nat) : Orders.OutputValue → Prop
  | .tokenV1 i _ => i = id
  | _ => False

/-- an order trades the token -/
def Trades (id : Nat) (d : Orders.OrderData) : Prop := isIn id d.ask ∨ isIn id d.give

/-- Between two states nothing of a token moved: what is recorded about it and its supply are the same, the same unspent outputs hold units
of it, the same orders trade it, and these have the same balances.  Orders themselves may have been frozen.  Without `V`, outputs holding
units of it may be gone. -/
structure Untouched (read : Nat → Accumulator.TxOutput) (V : Prop) (id : Nat) (s s' : St) : Prop where
  data : s'.tokens.data id = s.tokens.data id
  supply : s'.tokens.supply id = s.tokens.supply id
  noOutput : ∀ o x, 0 < units id (read x.output.content) → s'.utxo o = some x → s.utxo o = some x
  output : V → ∀ o x, 0 < units id (read x.output.content) → s.utxo o = some x → s'.utxo o = some x
  order : ∀ i d, s.orders.data i = some d → Trades id d → (∃ f, s'.orders.data i = some { d with isFrozen := f }) ∧
    s'.orders.ask i = s.orders.ask i ∧ s'.orders.give i = s.orders.give i
  noOrder : ∀ i d, s'.orders.data i = some d → Trades id d → ∃ d, s.orders.data i = some d ∧ Trades id d

/-- a block has an input that unfreezes the token -/
def Unfreezes (id : Nat) (b : Block) : Prop := ∃ t ∈ b.txs, ∃ n, Input.token n (TokenCmd.unfreeze id) ∈ t.inputs

end Verif.Policy
