import Verif.Base.BMap
import Verif.Base.Amount

/-!
# Model of `accounting/src/delta`
-/

namespace Verif.Accounting

/-- `accounting::Error` – accounting/src/error.rs 16-46 (only the variants the delta code can return) -/
inductive Err
  | toSignedFailed
  | deltaAdditionFailed
  | sumToUnsignedFailed
  | dataCreatedMultipleTimes
  | modifyNonexistingData
  | removeNonexistingData
  | deltaUndoNegation
  | deltaDataMismatch
  /-- not an error value of the code: marks a place where the code would panic -/
  | panicked
  deriving DecidableEq, Repr

/-- `DataDelta<T>` – delta_data_collection/mod.rs 39-43.
`DataDeltaUndo<T>` (undo.rs 22-23) is a newtype around it and is modelled by the same type. -/
structure DataDelta (T : Type) where
  old : Option T
  new : Option T
  deriving DecidableEq, Repr

/-- `DataDelta::invert` – delta_data_collection/mod.rs 52-54 -/
def DataDelta.invert {T : Type} (d : DataDelta T) : DataDelta T := ⟨d.new, d.old⟩

section data
variable {K T : Type} [LinearOrder K] [DecidableEq T]

/-- `combine_data_with_delta` – accounting/src/delta/combine.rs 22-48 -/
def combineDataWithDelta (lhs : Option T) (rhs : Option (DataDelta T)) : Except Err (Option T) :=
  match lhs, rhs with
  | lhs, none => .ok lhs
  | none, some d =>
    match d.old, d.new with
    | none, next => .ok next
    | some _, none => .error .removeNonexistingData
    | some _, some _ => .error .modifyNonexistingData
  | some data, some d =>
    match d.old, d.new with
    | none, none => .error .deltaDataMismatch
    | none, some _ => .error .dataCreatedMultipleTimes
    | some old, new => do
      ensure (data = old) .deltaDataMismatch
      .ok new

/-- `combine_delta_data` – delta_data_collection/mod.rs 162-168 -/
def combineDeltaData (lhs rhs : DataDelta T) : Except Err (DataDelta T) := do
  ensure (lhs.new = rhs.old) .deltaDataMismatch
  .ok ⟨lhs.old, rhs.new⟩

/-- `DeltaDataCollection<K, T>` – delta_data_collection/mod.rs 73-75; also `DeltaDataUndoCollection`
(undo.rs 41-43), a map of the newtype. -/
abbrev DataColl (K T : Type) [LinearOrder K] := BMap K (DataDelta T)

/-- `GetDataResult` – delta_data_collection/mod.rs 64-68 -/
inductive GetDataResult (T : Type)
  | present (t : T)
  | deleted
  | missing
  deriving DecidableEq, Repr

/-- `DeltaDataCollection::get_data` – delta_data_collection/mod.rs 92-100 -/
def getData (c : DataColl K T) (k : K) : GetDataResult T :=
  match c.get k with
  | some d => match d.new with
    | none => .deleted
    | some x => .present x
  | none => .missing

/-- new content of an entry in `merge_delta_data_element` – delta_data_collection/mod.rs 124-127 -/
def mergeEntry (cur : Option (DataDelta T)) (other : DataDelta T) : Except Err (DataDelta T) :=
  match cur with
  | some e => combineDeltaData e other
  | none => .ok other

/-- `DeltaDataCollection::merge_delta_data_element` – delta_data_collection/mod.rs 117-132.
Returns the new collection and the undo.  On error the Rust code has already removed the entry
(`e.remove()` on line 125 before the `?`); the model drops the collection on error, callers do too. -/
def mergeDeltaDataElement (c : DataColl K T) (k : K) (other : DataDelta T) :
    Except Err (DataColl K T × DataDelta T) := do
  let undo := other.invert
  let el ← mergeEntry (c.get k) other
  .ok (c.insert k el, undo)

/-- `DeltaDataCollection::merge_delta_data` – delta_data_collection/mod.rs 102-115 -/
def mergeDeltaData (c other : DataColl K T) : Except Err (DataColl K T × DataColl K T) :=
  other.entries.foldlM (fun (s : DataColl K T × DataColl K T) kd => do
    let r ← mergeDeltaDataElement s.1 kd.1 kd.2
    pure (r.1, s.2.insert kd.1 r.2)) (c, BMap.empty)

/-- `undo_merge_delta_data_element` – delta_data_collection/mod.rs 144-150 -/
def undoMergeDeltaDataElement (c : DataColl K T) (k : K) (undo : DataDelta T) :
    Except Err (DataColl K T) := do
  let r ← mergeDeltaDataElement c k undo
  pure r.1

/-- `undo_merge_delta_data` – delta_data_collection/mod.rs 134-142 -/
def undoMergeDeltaData (c undo : DataColl K T) : Except Err (DataColl K T) :=
  undo.entries.foldlM (fun c kd => undoMergeDeltaDataElement c kd.1 kd.2) c

end data

section amounts
variable {K : Type} [LinearOrder K]

/-- `combine_amount_delta` – accounting/src/delta/combine.rs 52-62 -/
def combineAmountDelta (lhs : Nat) (rhs : Option Int) : Except Err Nat :=
  match rhs with
  | none => .ok lhs
  | some v2 => do
    let v1 ← okOr (Amt.intoSigned lhs) .toSignedFailed
    let sum ← okOr (SAmt.add v1 v2) .deltaAdditionFailed
    okOr (SAmt.intoUnsigned sum) .sumToUnsignedFailed

/-- `DeltaAmountCollection<K>` – delta_amount_collection.rs 25-27 -/
abbrev AmountColl (K : Type) [LinearOrder K] := BMap K Int

/-- `combine_signed_amount_delta` – delta_amount_collection.rs 72-83 -/
def combineSigned (lhs : Option Int) (rhs : Int) : Except Err Int :=
  match lhs with
  | none => .ok rhs
  | some v1 => okOr (SAmt.add v1 rhs) .deltaAdditionFailed

/-- `merge_delta_amount_element` – delta_amount_collection.rs 56-70 -/
def mergeAmountElement (c : AmountColl K) (k : K) (x : Int) : Except Err (AmountColl K) := do
  let newBal ← combineSigned (c.get k) x
  if newBal = 0 then pure (c.erase k) else pure (c.insert k newBal)

/-- `merge_delta_amounts` – delta_amount_collection.rs 36-42 -/
def mergeAmounts (c other : AmountColl K) : Except Err (AmountColl K) :=
  other.entries.foldlM (fun c kx => mergeAmountElement c kx.1 kx.2) c

/-- `undo_merge_delta_amounts` – delta_amount_collection.rs 45-54 -/
def undoMergeAmounts (c other : AmountColl K) : Except Err (AmountColl K) :=
  other.entries.foldlM (fun c kx => do
    let n ← okOr (SAmt.neg kx.2) .deltaUndoNegation
    mergeAmountElement c kx.1 n) c

/-- `add_unsigned` – delta_amount_collection.rs 85-89 -/
def addUnsigned (c : AmountColl K) (k : K) (a : Nat) : Except Err (AmountColl K) := do
  let s ← okOr (Amt.intoSigned a) .toSignedFailed
  mergeAmountElement c k s

/-- `sub_unsigned` – delta_amount_collection.rs 91-98 -/
def subUnsigned (c : AmountColl K) (k : K) (a : Nat) : Except Err (AmountColl K) := do
  let s ← okOr (Amt.intoSigned a) .toSignedFailed
  let n ← okOr (SAmt.neg s) .toSignedFailed
  mergeAmountElement c k n

end amounts
end Verif.Accounting
