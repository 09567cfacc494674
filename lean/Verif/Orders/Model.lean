import Verif.Accounting.Layer
import Verif.Base.History

/-!
# Model of `orders-accounting`
-/

namespace Verif.Orders
open Verif Verif.Accounting

/-- `orders_accounting::Error` – orders-accounting/src/error.rs 18-69.  Order ids and amounts carried by the
variants are dropped. -/
inductive Err
  | accounting (e : Accounting.Err)
  | orderAlreadyExists
  | orderDataNotFound
  | orderWithZeroValue
  | dataNotFoundForUndo
  | askBalanceChangedForUndo
  | giveBalanceChangedForUndo
  | dataExistForConcludeUndo
  | dataNotExistForFreezeUndo
  | askBalanceExistForConcludeUndo
  | giveBalanceExistForConcludeUndo
  | orderOverflow
  | orderOverbid
  | orderUnderbid
  | concludeNonexisting
  | freezeNonexisting
  | freezeAlreadyFrozen
  | fillFrozen
  | unsupportedTokenVersion
  | viewFail
  deriving DecidableEq, Repr

/-- `OrderId` is a hash; modelled as a natural number -/
abbrev OrderId := Nat

/-- `OutputValue` – common/src/chain/transaction/output/output_value.rs 40-47.  The payload of `TokenV0` is
irrelevant here. -/
inductive OutputValue
  | coin (amount : Nat)
  | tokenV0
  | tokenV1 (id : Nat) (amount : Nat)
  deriving DecidableEq, Repr

/-- `OrderData` – orders-accounting/src/data.rs 25-31.  `Destination` is a number. -/
structure OrderData where
  concludeKey : Nat
  ask : OutputValue
  give : OutputValue
  isFrozen : Bool
  deriving DecidableEq, Repr

/-- `OrderData::try_freeze` – data.rs 73-84 -/
def OrderData.tryFreeze (d : OrderData) : Option OrderData :=
  if d.isFrozen then none else some { d with isFrozen := true }

/-- `output_value_amount` – orders-accounting/src/lib.rs 41-46 -/
def outputValueAmount : OutputValue → Except Err Nat
  | .coin a => .ok a
  | .tokenV1 _ a => .ok a
  | .tokenV0 => .error .unsupportedTokenVersion

/-- `OrdersVersion` (V0: before, V1: after the orders v1 upgrade) -/
inductive Version
  | v0
  | v1
  deriving DecidableEq, Repr

/-- `OrdersAccountingView` – orders-accounting/src/view.rs 22-30 (without `get_all_order_ids`) -/
structure View where
  data : OrderId → Except Err (Option OrderData)
  ask : OrderId → Except Err Nat
  give : OrderId → Except Err Nat

/-- `OrdersAccountingDeltaData` – data.rs 112-116 -/
structure Delta where
  data : DataColl OrderId OrderData
  ask : AmountColl OrderId
  give : AmountColl OrderId
  deriving DecidableEq

/-- `OrdersAccountingDeltaData::new` – data.rs 140-146 -/
def Delta.empty : Delta := ⟨BMap.empty, BMap.empty, BMap.empty⟩

/-- `OrdersAccountingCache` – cache.rs 37-40 -/
structure Cache where
  parent : View
  delta : Delta

/-- `impl OrdersAccountingView for OrdersAccountingCache` – cache.rs 123-143 -/
def Cache.view (c : Cache) : View where
  data := getVal c.parent.data c.delta.data
  ask := getBal .accounting c.parent.ask c.delta.ask
  give := getBal .accounting c.parent.give c.delta.give

/-- `calculate_filled_amount` – price_calculation.rs 96-109; the product is computed in 256 bits and cannot
overflow, `checked_div` refuses a zero divisor, the result must fit u128 -/
def calculateFilledAmount (ask give fill : Nat) : Option Nat :=
  if ask = 0 then none
  else if give * fill / ask < U128 then some (give * fill / ask) else none

/-- `calculate_fill_order_based_on_remaining_balances` – price_calculation.rs 45-61 -/
def fillV0 (v : View) (id : OrderId) (fill : Nat) : Except Err Nat := do
  let ask ← v.ask id
  let give ← v.give id
  ensure (ask ≥ fill) .orderOverbid
  okOr (calculateFilledAmount ask give fill) .orderOverflow

/-- `calculate_fill_order_based_on_original_price` – price_calculation.rs 63-94 -/
def fillV1 (v : View) (id : OrderId) (fill : Nat) : Except Err Nat := do
  let od ← v.data id
  let data ← okOr od .orderDataNotFound
  let origAsk ← outputValueAmount data.ask
  let origGive ← outputValueAmount data.give
  let cur ← v.ask id
  ensure (cur ≥ fill) .orderOverbid
  let r ← okOr (calculateFilledAmount origAsk origGive fill) .orderOverflow
  ensure (r > 0) .orderUnderbid
  pure r

/-- `calculate_fill_order` – price_calculation.rs 25-43 -/
def calculateFillOrder (v : View) (id : OrderId) (fill : Nat) : Version → Except Err Nat
  | .v0 => fillV0 v id fill
  | .v1 => fillV1 v id fill

/-- `OrdersAccountingUndo` – operations.rs 26-62 -/
inductive Undo
  | create (id : OrderId) (undo : DataDelta OrderData) (ask give : Nat)
  | conclude (id : OrderId) (undo : DataDelta OrderData) (ask give : Nat)
  | fill (id : OrderId) (ask give : Nat)
  | freeze (id : OrderId) (undo : DataDelta OrderData)
  deriving DecidableEq

/-- lift an `accounting::Error` (`#[from]`) -/
def lift {A : Type} (x : Except Accounting.Err A) : Except Err A := x.mapError .accounting

/-- `create_order` – cache.rs 182-217 -/
def createOrder (c : Cache) (id : OrderId) (d : OrderData) : Except Err (Cache × Undo) := do
  let od ← c.view.data id
  ensure (od.isNone = true) .orderAlreadyExists
  let ab ← c.view.ask id
  ensure (ab = 0) .orderAlreadyExists
  let askAmount ← outputValueAmount d.ask
  let giveAmount ← outputValueAmount d.give
  ensure (askAmount > 0 ∧ giveAmount > 0) .orderWithZeroValue
  let (data, undo) ← lift (mergeDeltaDataElement c.delta.data id ⟨none, some d⟩)
  let ask ← lift (addUnsigned c.delta.ask id askAmount)
  let give ← lift (addUnsigned c.delta.give id giveAmount)
  pure ({ c with delta := ⟨data, ask, give⟩ }, .create id undo askAmount giveAmount)

/-- `conclude_order` – cache.rs 219-242 -/
def concludeOrder (c : Cache) (id : OrderId) : Except Err (Cache × Undo) := do
  let od ← c.view.data id
  let d ← okOr od .concludeNonexisting
  let askBalance ← c.view.ask id
  let giveBalance ← c.view.give id
  let (data, undo) ← lift (mergeDeltaDataElement c.delta.data id ⟨some d, none⟩)
  let ask ← lift (subUnsigned c.delta.ask id askBalance)
  let give ← lift (subUnsigned c.delta.give id giveBalance)
  pure ({ c with delta := ⟨data, ask, give⟩ }, .conclude id undo askBalance giveBalance)

/-- `fill_order` – cache.rs 244-270 -/
def fillOrder (c : Cache) (id : OrderId) (fill : Nat) (ver : Version) : Except Err (Cache × Undo) := do
  let od ← c.view.data id
  let d ← okOr od .orderDataNotFound
  ensure (d.isFrozen = false) .fillFrozen
  let filled ← calculateFillOrder c.view id fill ver
  let give ← lift (subUnsigned c.delta.give id filled)
  let ask ← lift (subUnsigned c.delta.ask id fill)
  pure ({ c with delta := { c.delta with ask := ask, give := give } }, .fill id fill filled)

/-- `freeze_order` – cache.rs 282-303 -/
def freezeOrder (c : Cache) (id : OrderId) : Except Err (Cache × Undo) := do
  let od ← c.view.data id
  let old ← okOr od .freezeNonexisting
  let new ← okOr old.tryFreeze .freezeAlreadyFrozen
  let (data, undo) ← lift (mergeDeltaDataElement c.delta.data id ⟨some old, some new⟩)
  pure ({ c with delta := { c.delta with data := data } }, .freeze id undo)

/-- `undo` – cache.rs 272-280 with `undo_create_order` 58-78, `undo_conclude_order` 80-100,
`undo_freeze_order` 102-110, `undo_fill_order` 112-117 -/
def undo (c : Cache) : Undo → Except Err Cache
  | .create id u ask give => do
    let ab ← c.view.ask id
    ensure (ab = ask) .askBalanceChangedForUndo
    let a ← lift (subUnsigned c.delta.ask id ask)
    let gb ← c.view.give id
    ensure (gb = give) .giveBalanceChangedForUndo
    let g ← lift (subUnsigned c.delta.give id give)
    let od ← c.view.data id
    ensure (od.isSome = true) .dataNotFoundForUndo
    let data ← lift (undoMergeDeltaDataElement c.delta.data id u)
    pure { c with delta := ⟨data, a, g⟩ }
  | .conclude id u ask give => do
    let od ← c.view.data id
    ensure (od.isNone = true) .dataExistForConcludeUndo
    let data ← lift (undoMergeDeltaDataElement c.delta.data id u)
    let ab ← c.view.ask id
    ensure (ab = 0) .askBalanceExistForConcludeUndo
    let a ← lift (addUnsigned c.delta.ask id ask)
    let gb ← c.view.give id
    ensure (gb = 0) .giveBalanceExistForConcludeUndo
    let g ← lift (addUnsigned c.delta.give id give)
    pure { c with delta := ⟨data, a, g⟩ }
  | .freeze id u => do
    let od ← c.view.data id
    ensure (od.isSome = true) .dataNotExistForFreezeUndo
    let data ← lift (undoMergeDeltaDataElement c.delta.data id u)
    pure { c with delta := { c.delta with data := data } }
  | .fill id ask give => do
    let a ← lift (addUnsigned c.delta.ask id ask)
    let g ← lift (addUnsigned c.delta.give id give)
    pure { c with delta := { c.delta with ask := a, give := g } }

/-- operations of `OrdersAccountingOperations` – operations.rs 64-76 -/
inductive Op
  | create (id : OrderId) (d : OrderData)
  | conclude (id : OrderId)
  | fill (id : OrderId) (amount : Nat) (ver : Version)
  | freeze (id : OrderId)
  deriving DecidableEq

/-- dispatch -/
def step (c : Cache) : Op → Except Err (Cache × Undo)
  | .create id d => createOrder c id d
  | .conclude id => concludeOrder c id
  | .fill id a v => fillOrder c id a v
  | .freeze id => freezeOrder c id

/-- run a list of operations, collecting the undos (oldest first) -/
abbrev run (c : Cache) (ops : List Op) : Except Err (Cache × List Undo) := History.run step c ops

/-- apply undos, newest first (the caller passes the list oldest first; cf.
chainstate/tx-verifier/src/transaction_verifier/mod.rs 926-951, `undos.into_iter().rev()`) -/
abbrev undoAll (c : Cache) (us : List Undo) : Except Err Cache := History.undoAll undo c us

/-! ### Database -/

/-- `OrdersAccountingDB` over a key-value store – storage/db.rs 36-43; storage failures are not modelled -/
structure DB where
  data : BMap OrderId OrderData
  ask : BMap OrderId Nat
  give : BMap OrderId Nat
  deriving DecidableEq

/-- `impl OrdersAccountingView for OrdersAccountingDB` – storage/db.rs 129-147 -/
def DB.view (db : DB) : View where
  data := fun id => .ok (db.data.get id)
  ask := fun id => .ok (bal db.ask id)
  give := fun id => .ok (bal db.give id)

/-- `OrdersAccountingDB::merge_with_delta` – storage/db.rs 46-126 -/
def DB.mergeWithDelta (db : DB) (d : Delta) : Except Err (DB × Delta) := do
  let (data, du) ← lift (dbMergeData db.data d.data)
  let (ask, au) ← lift (dbMergeBalances db.ask d.ask)
  let (give, gu) ← lift (dbMergeBalances db.give d.give)
  pure (⟨data, ask, give⟩, ⟨du, au, gu⟩)

/-- `OrdersAccountingDeltaData::merge_with_delta` – data.rs 119-136 (flushing a cache into its parent cache,
cache.rs 309-314) -/
def Delta.mergeWithDelta (d other : Delta) : Except Err (Delta × Delta) := do
  let (data, du) ← lift (mergeDeltaData d.data other.data)
  let ask ← lift (mergeAmounts d.ask other.ask)
  let give ← lift (mergeAmounts d.give other.give)
  pure (⟨data, ask, give⟩, ⟨du, other.ask, other.give⟩)

end Verif.Orders
