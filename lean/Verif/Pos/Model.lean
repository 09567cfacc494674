import Verif.Accounting.Layer
import Verif.Base.History

/-!
# Model of `pos-accounting`
-/

namespace Verif

/-- The part of a `BTreeMap<(A, B), V>` with first key component `a`, keyed by the second component: what
`range((a, 0x00..)..=(a, 0xFF..))` followed by `map(|((_, b), v)| (b, v)).collect()` produces.
pos-accounting/src/pool/delta/mod.rs 82-95, pos-accounting/src/storage/in_memory.rs 153-166,
chainstate/storage/src/internal/store_tx/read_impls.rs 69-85. -/
def BMap.slice {V : Type} (m : BMap (Nat ×ₗ Nat) V) (a : Nat) : BMap Nat V :=
  ⟨m.entries.filterMap (fun kv => if (ofLex kv.1).1 = a then some ((ofLex kv.1).2, kv.2) else none), by
    rw [List.pairwise_filterMap]
    refine m.sorted.imp ?_
    intro x y hxy x' hx' y' hy'
    split at hx'
    · split at hy'
      · cases hx'; cases hy'
        rename_i h1 h2
        simp only
        rcases (Prod.Lex.lt_iff).1 hxy with h | ⟨_, h⟩
        · omega
        · exact h
      · cases hy'
    · cases hx'⟩

end Verif

namespace Verif.Pos
open Verif Verif.Accounting

/-- `pos_accounting::Error` – pos-accounting/src/error.rs 19-107 (variants the modelled code returns; ids dropped) -/
inductive Err
  | accounting (e : Accounting.Err)
  | poolBalanceAlreadyExists
  | poolDataAlreadyExists
  | attemptedDecommissionNonexistingPoolData
  | delegationCreationFailedPoolDoesNotExist
  | delegationDeletionFailedIdDoesNotExist
  | delegationDeletionFailedBalanceNonZero
  | delegationDeletionFailedPoolsShareNonZero
  | delegationDeletionFailedPoolStillExists
  | delegationCreationFailedIdAlreadyExists
  | delegateToNonexistingId
  | spendingShareOfNonexistingDelegation
  | poolCreationReversalFailedDataNotFound
  | poolCreationReversalFailedAmountChanged
  | decommissionUndoFailedPoolBalanceAlreadyExists
  | decommissionUndoFailedPoolDataAlreadyExists
  | delegationIdUndoFailedNotFound
  | delegationUndoFailedDataNotFound
  | increaseStakerRewardsOfNonexistingPool
  | stakerBalanceOverflow
  | viewFail
  deriving DecidableEq, Repr

/-- `PoolId`, `DelegationId` are hashes; modelled as natural numbers -/
abbrev PoolId := Nat
abbrev DelegationId := Nat

/-- key of the share map, ordered lexicographically as Rust tuples are -/
abbrev ShareKey := Nat ×ₗ Nat

/-- key of the share of delegation `d` in pool `p` -/
def key (p d : Nat) : ShareKey := toLex (p, d)

/-- `PoolData` – pos-accounting/src/pool/pool_data.rs 26-33; destination and VRF key are opaque numbers -/
structure PoolData where
  decommissionDest : Nat
  pledge : Nat
  rewards : Nat
  vrf : Nat
  margin : Nat
  costPerBlock : Nat
  deriving DecidableEq, Repr

/-- `PoolData::staker_balance` – pool_data.rs 66-68 -/
def PoolData.stakerBalance (d : PoolData) : Except Err Nat := okOr (Amt.add d.pledge d.rewards) .stakerBalanceOverflow

/-- `PoolData::increase_staker_rewards` – pool_data.rs 88-91 -/
def PoolData.increase (d : PoolData) (a : Nat) : Except Err PoolData := do
  let r ← okOr (Amt.add d.rewards a) .stakerBalanceOverflow
  pure { d with rewards := r }

/-- `DelegationData` – delegation.rs 19-23 -/
structure DelegationData where
  spendDest : Nat
  sourcePool : PoolId
  deriving DecidableEq, Repr

/-- `PoSAccountingView` – view.rs 27-53 (`pool_exists` is derived, see `View.poolExists`) -/
structure View where
  poolBalance : PoolId → Except Err Nat
  poolData : PoolId → Except Err (Option PoolData)
  shares : PoolId → Except Err (Option (BMap Nat Nat))
  delegationBalance : DelegationId → Except Err Nat
  delegationData : DelegationId → Except Err (Option DelegationData)
  /-- argument `key pool delegation` -/
  share : ShareKey → Except Err Nat

/-- `pool_exists` – view_impl.rs 70-72, storage/view_impls.rs 37-39 -/
def View.poolExists (v : View) (p : PoolId) : Except Err Bool := do
  let d ← v.poolData p
  pure d.isSome

/-- `PoSAccountingDeltaData` – delta/data.rs 27-34; also the shape of `DeltaMergeUndo` (delta/mod.rs 41-48) -/
structure Delta where
  poolData : DataColl Nat PoolData
  poolBalances : AmountColl Nat
  shares : AmountColl ShareKey
  delegationBalances : AmountColl Nat
  delegationData : DataColl Nat DelegationData
  deriving DecidableEq

/-- `PoSAccountingDeltaData::new` – delta/data.rs 36-44 -/
def Delta.empty : Delta := ⟨BMap.empty, BMap.empty, BMap.empty, BMap.empty, BMap.empty⟩

/-- `PoSAccountingDelta` – delta/mod.rs 35-38 -/
structure Cache where
  parent : View
  delta : Delta

/-- `PoSAccountingDelta::new` – delta/mod.rs 63-68 -/
def Cache.new (parent : View) : Cache := ⟨parent, Delta.empty⟩

/-- turn an empty map into `None` – delta/mod.rs 90-94, in_memory.rs 161-165 -/
def nonEmpty {V : Type} (m : BMap Nat V) : Option (BMap Nat V) :=
  if m.entries.isEmpty then none else some m

/-- `get_cached_delegations_shares` – delta/mod.rs 82-95 -/
def cachedShares (shares : AmountColl ShareKey) (p : PoolId) : Option (BMap Nat Int) := nonEmpty (shares.slice p)

/-- `signed_to_unsigned_pair` collected over a map – view_impl.rs 37-42, 104-108 -/
def toUnsignedMap (m : BMap Nat Int) : Except Err (BMap Nat Nat) :=
  BMap.mergeM (fun _ _ v => do
    let r ← okOr (SAmt.intoUnsigned v) (.accounting .sumToUnsignedFailed)
    pure (some r)) BMap.empty m

/-- `sum_maps` – view_impl.rs 44-65 -/
def sumMaps (m1 : BMap Nat Nat) (m2 : BMap Nat Int) : Except Err (BMap Nat Nat) :=
  BMap.mergeM (fun _ cur v => do
    let base := cur.getD 0
    let b ← okOr (Amt.intoSigned base) (.accounting .toSignedFailed)
    let s ← okOr (SAmt.add b v) (.accounting .deltaAdditionFailed)
    let r ← okOr (SAmt.intoUnsigned s) (.accounting .sumToUnsignedFailed)
    pure (some r)) m1 m2

/-- `get_pool_delegations_shares` of a layer – view_impl.rs 91-112 -/
def getShares (parent : PoolId → Except Err (Option (BMap Nat Nat))) (shares : AmountColl ShareKey) (p : PoolId) :
    Except Err (Option (BMap Nat Nat)) := do
  let ps ← parent p
  match ps, cachedShares shares p with
  | none, none => pure none
  | none, some m => do let r ← toUnsignedMap m; pure (some r)
  | some m, none => pure (some m)
  | some m1, some m2 => do let r ← sumMaps m1 m2; pure (some r)

/-- `impl PoSAccountingView for PoSAccountingDelta` – view_impl.rs 67-153 -/
def Cache.view (c : Cache) : View where
  poolBalance := getBal .accounting c.parent.poolBalance c.delta.poolBalances
  poolData := getVal c.parent.poolData c.delta.poolData
  shares := getShares c.parent.shares c.delta.shares
  delegationBalance := getBal .accounting c.parent.delegationBalance c.delta.delegationBalances
  delegationData := getVal c.parent.delegationData c.delta.delegationData
  share := getBal .accounting c.parent.share c.delta.shares

/-- `PoSAccountingUndo` – operations.rs 26-88 -/
inductive Undo
  | createPool (p : PoolId) (pledge : Nat) (u : DataDelta PoolData)
  | decommissionPool (p : PoolId) (balance : Nat) (u : DataDelta PoolData)
  | createDelegationId (d : DelegationId) (u : DataDelta DelegationData)
  | deleteDelegationId (d : DelegationId) (u : DataDelta DelegationData)
  | delegateStaking (d : DelegationId) (a : Nat)
  | spendFromShare (d : DelegationId) (a : Nat)
  | increaseStakerRewards (p : PoolId) (a : Nat) (u : DataDelta PoolData)
  deriving DecidableEq

/-- lift an `accounting::Error` (`#[from]`) -/
def lift {A : Type} (x : Except Accounting.Err A) : Except Err A := x.mapError .accounting

/-- `create_pool` – operator_impls.rs 40-69 -/
def createPool (c : Cache) (p : PoolId) (d : PoolData) : Except Err (Cache × Undo) := do
  let od ← c.view.poolData p
  ensure (od.isNone = true) .poolDataAlreadyExists
  let b ← (c.view.poolBalance p).mapError (fun _ => .viewFail)
  ensure (¬ b > 0) .poolBalanceAlreadyExists
  let bs ← lift (addUnsigned c.delta.poolBalances p d.pledge)
  let (pd, undo) ← lift (mergeDeltaDataElement c.delta.poolData p ⟨none, some d⟩)
  pure ({ c with delta := { c.delta with poolBalances := bs, poolData := pd } }, .createPool p d.pledge undo)

/-- `decommission_pool` – operator_impls.rs 71-89 -/
def decommissionPool (c : Cache) (p : PoolId) : Except Err (Cache × Undo) := do
  let od ← c.view.poolData p
  let d ← okOr od .attemptedDecommissionNonexistingPoolData
  let b ← c.view.poolBalance p
  let bs ← lift (subUnsigned c.delta.poolBalances p b)
  let (pd, undo) ← lift (mergeDeltaDataElement c.delta.poolData p ⟨some d, none⟩)
  pure ({ c with delta := { c.delta with poolBalances := bs, poolData := pd } }, .decommissionPool p b undo)

/-- `increase_staker_rewards` – operator_impls.rs 91-115 -/
def increaseStakerRewards (c : Cache) (p : PoolId) (a : Nat) : Except Err (Cache × Undo) := do
  let od ← c.view.poolData p
  let d ← okOr od .increaseStakerRewardsOfNonexistingPool
  let bs ← lift (addUnsigned c.delta.poolBalances p a)
  let new ← d.increase a
  let (pd, undo) ← lift (mergeDeltaDataElement c.delta.poolData p ⟨some d, some new⟩)
  pure ({ c with delta := { c.delta with poolBalances := bs, poolData := pd } }, .increaseStakerRewards p a undo)

/-- `create_delegation_id` – operator_impls.rs 117-145 -/
def createDelegationId (c : Cache) (target : PoolId) (d : DelegationId) (dest : Nat) : Except Err (Cache × Undo) := do
  let ex ← c.view.poolExists target
  ensure (ex = true) .delegationCreationFailedPoolDoesNotExist
  let od ← c.view.delegationData d
  ensure (od.isNone = true) .delegationCreationFailedIdAlreadyExists
  let (dd, undo) ← lift (mergeDeltaDataElement c.delta.delegationData d ⟨none, some ⟨dest, target⟩⟩)
  pure ({ c with delta := { c.delta with delegationData := dd } }, .createDelegationId d undo)

/-- `delete_delegation_id` – operator_impls.rs 147-180 -/
def deleteDelegationId (c : Cache) (d : DelegationId) : Except Err (Cache × Undo) := do
  let od ← c.view.delegationData d
  let data ← okOr od .delegationDeletionFailedIdDoesNotExist
  let b ← c.view.delegationBalance d
  ensure (¬ b > 0) .delegationDeletionFailedBalanceNonZero
  let s ← c.view.share (key data.sourcePool d)
  ensure (¬ s > 0) .delegationDeletionFailedPoolsShareNonZero
  let ex ← c.view.poolExists data.sourcePool
  ensure (ex = false) .delegationDeletionFailedPoolStillExists
  let (dd, undo) ← lift (mergeDeltaDataElement c.delta.delegationData d ⟨some data, none⟩)
  pure ({ c with delta := { c.delta with delegationData := dd } }, .deleteDelegationId d undo)

/-- `delegate_staking` – operator_impls.rs 182-202 -/
def delegateStaking (c : Cache) (d : DelegationId) (a : Nat) : Except Err (Cache × Undo) := do
  let od ← c.view.delegationData d
  let data ← okOr od .delegateToNonexistingId
  let db ← lift (addUnsigned c.delta.delegationBalances d a)
  let pb ← lift (addUnsigned c.delta.poolBalances data.sourcePool a)
  let sh ← lift (addUnsigned c.delta.shares (key data.sourcePool d) a)
  pure ({ c with delta := { c.delta with delegationBalances := db, poolBalances := pb, shares := sh } },
    .delegateStaking d a)

/-- `spend_share_from_delegation_id` – operator_impls.rs 204-227.  `pool_exists` reads only the pool data, which the
preceding subtraction does not touch. -/
def spendShare (c : Cache) (d : DelegationId) (a : Nat) : Except Err (Cache × Undo) := do
  let od ← c.view.delegationData d
  let data ← okOr od .spendingShareOfNonexistingDelegation
  let sh ← lift (subUnsigned c.delta.shares (key data.sourcePool d) a)
  let ex ← c.view.poolExists data.sourcePool
  let pb ← if ex then lift (subUnsigned c.delta.poolBalances data.sourcePool a) else pure c.delta.poolBalances
  let db ← lift (subUnsigned c.delta.delegationBalances d a)
  pure ({ c with delta := { c.delta with delegationBalances := db, poolBalances := pb, shares := sh } },
    .spendFromShare d a)

/-- `undo` – operator_impls.rs 229-243 and 246-361 -/
def undo (c : Cache) : Undo → Except Err Cache
  -- undo_create_pool 247-263
  | .createPool p pledge u => do
    let b ← c.view.poolBalance p
    ensure (b = pledge) .poolCreationReversalFailedAmountChanged
    let pb ← lift (subUnsigned c.delta.poolBalances p pledge)
    let od ← c.view.poolData p
    let _ ← okOr od .poolCreationReversalFailedDataNotFound
    let pd ← lift (undoMergeDeltaDataElement c.delta.poolData p u)
    pure { c with delta := { c.delta with poolBalances := pb, poolData := pd } }
  -- undo_decommission_pool 265-280
  | .decommissionPool p balance u => do
    let od ← c.view.poolData p
    ensure (od.isNone = true) .decommissionUndoFailedPoolDataAlreadyExists
    let b ← c.view.poolBalance p
    ensure (¬ b > 0) .decommissionUndoFailedPoolBalanceAlreadyExists
    let pb ← lift (addUnsigned c.delta.poolBalances p balance)
    let pd ← lift (undoMergeDeltaDataElement c.delta.poolData p u)
    pure { c with delta := { c.delta with poolBalances := pb, poolData := pd } }
  -- undo_create_delegation_id 282-291
  | .createDelegationId d u => do
    let od ← c.view.delegationData d
    let _ ← okOr od .delegationIdUndoFailedNotFound
    let dd ← lift (undoMergeDeltaDataElement c.delta.delegationData d u)
    pure { c with delta := { c.delta with delegationData := dd } }
  -- undo_delete_delegation_id 293-303
  | .deleteDelegationId d u => do
    let b ← c.view.delegationBalance d
    ensure (¬ b > 0) .delegationDeletionFailedBalanceNonZero
    let dd ← lift (undoMergeDeltaDataElement c.delta.delegationData d u)
    pure { c with delta := { c.delta with delegationData := dd } }
  -- undo_delegate_staking 305-327
  | .delegateStaking d a => do
    let od ← c.view.delegationData d
    let data ← okOr od .delegationUndoFailedDataNotFound
    let sh ← lift (subUnsigned c.delta.shares (key data.sourcePool d) a)
    let pb ← lift (subUnsigned c.delta.poolBalances data.sourcePool a)
    let db ← lift (subUnsigned c.delta.delegationBalances d a)
    pure { c with delta := { c.delta with delegationBalances := db, poolBalances := pb, shares := sh } }
  -- undo_spend_share_from_delegation_id 329-348
  | .spendFromShare d a => do
    let od ← c.view.delegationData d
    let data ← okOr od .delegationCreationFailedPoolDoesNotExist
    let db ← lift (addUnsigned c.delta.delegationBalances d a)
    let ex ← c.view.poolExists data.sourcePool
    let pb ← if ex then lift (addUnsigned c.delta.poolBalances data.sourcePool a) else pure c.delta.poolBalances
    let sh ← lift (addUnsigned c.delta.shares (key data.sourcePool d) a)
    pure { c with delta := { c.delta with delegationBalances := db, poolBalances := pb, shares := sh } }
  -- undo_increase_staker_balance 350-360
  | .increaseStakerRewards p a u => do
    let pd ← lift (undoMergeDeltaDataElement c.delta.poolData p u)
    let pb ← lift (subUnsigned c.delta.poolBalances p a)
    pure { c with delta := { c.delta with poolBalances := pb, poolData := pd } }

/-- operations of `PoSAccountingOperations` – operations.rs 92-125 -/
inductive Op
  | createPool (p : PoolId) (d : PoolData)
  | decommissionPool (p : PoolId)
  | increaseStakerRewards (p : PoolId) (a : Nat)
  | createDelegationId (target : PoolId) (d : DelegationId) (dest : Nat)
  | deleteDelegationId (d : DelegationId)
  | delegateStaking (d : DelegationId) (a : Nat)
  | spendShare (d : DelegationId) (a : Nat)
  deriving DecidableEq

/-- dispatch -/
def step (c : Cache) : Op → Except Err (Cache × Undo)
  | .createPool p d => createPool c p d
  | .decommissionPool p => decommissionPool c p
  | .increaseStakerRewards p a => increaseStakerRewards c p a
  | .createDelegationId t d k => createDelegationId c t d k
  | .deleteDelegationId d => deleteDelegationId c d
  | .delegateStaking d a => delegateStaking c d a
  | .spendShare d a => spendShare c d a

/-- a database: the five maps of `PoSAccountingStorageRead`/`Write` (storage/mod.rs 36-107);
`InMemoryPoSAccounting` – storage/in_memory.rs 31-38 -/
structure DB where
  poolData : BMap Nat PoolData
  poolBalances : BMap Nat Nat
  shares : BMap ShareKey Nat
  delegationBalances : BMap Nat Nat
  delegationData : BMap Nat DelegationData
  deriving DecidableEq

/-- `impl PoSAccountingView for PoSAccountingDB` – pool/storage/view_impls.rs 34-78 -/
def DB.view (db : DB) : View where
  poolBalance := fun p => .ok (bal db.poolBalances p)
  poolData := fun p => .ok (db.poolData.get p)
  shares := fun p => .ok (nonEmpty (db.shares.slice p))
  delegationBalance := fun d => .ok (bal db.delegationBalances d)
  delegationData := fun d => .ok (db.delegationData.get d)
  share := fun k => .ok (bal db.shares k)

/-- `PoSAccountingDB::merge_with_delta` – pool/storage/mod.rs 49-97 -/
def DB.mergeWithDelta (db : DB) (d : Delta) : Except Err (DB × Delta) := do
  let (pd, pdu) ← lift (dbMergeData db.poolData d.poolData)
  let (dd, ddu) ← lift (dbMergeData db.delegationData d.delegationData)
  let (pb, pbu) ← lift (dbMergeBalances db.poolBalances d.poolBalances)
  let (dlb, dlbu) ← lift (dbMergeBalances db.delegationBalances d.delegationBalances)
  let (sh, shu) ← lift (dbMergeBalances db.shares d.shares)
  pure (⟨pd, pb, sh, dlb, dd⟩, ⟨pdu, pbu, shu, dlbu, ddu⟩)

/-- `PoSAccountingDB::undo_merge_with_delta` – pool/storage/mod.rs 99-138; `undo_merge_data_generic` 199-221 performs
the same steps as `merge_data_generic` without collecting an undo -/
def DB.undoMergeWithDelta (db : DB) (u : Delta) : Except Err DB := do
  let (pd, _) ← lift (dbMergeData db.poolData u.poolData)
  let (dd, _) ← lift (dbMergeData db.delegationData u.delegationData)
  let (pb, _) ← lift (dbMergeBalances db.poolBalances u.poolBalances)
  let (dlb, _) ← lift (dbMergeBalances db.delegationBalances u.delegationBalances)
  let (sh, _) ← lift (dbMergeBalances db.shares u.shares)
  pure ⟨pd, pb, sh, dlb, dd⟩

/-- `PoSAccountingDeltaData::merge_with_delta` – delta/data.rs 46-69 -/
def Delta.mergeWithDelta (d other : Delta) : Except Err (Delta × Delta) := do
  let pb ← lift (mergeAmounts d.poolBalances other.poolBalances)
  let sh ← lift (mergeAmounts d.shares other.shares)
  let db ← lift (mergeAmounts d.delegationBalances other.delegationBalances)
  let (pd, pdu) ← lift (mergeDeltaData d.poolData other.poolData)
  let (dd, ddu) ← lift (mergeDeltaData d.delegationData other.delegationData)
  pure (⟨pd, pb, sh, db, dd⟩, ⟨pdu, other.poolBalances, other.shares, other.delegationBalances, ddu⟩)

/-- `PoSAccountingDeltaData::undo_delta_merge` – delta/data.rs 71-85 -/
def Delta.undoDeltaMerge (d u : Delta) : Except Err Delta := do
  let pb ← lift (undoMergeAmounts d.poolBalances u.poolBalances)
  let sh ← lift (undoMergeAmounts d.shares u.shares)
  let db ← lift (undoMergeAmounts d.delegationBalances u.delegationBalances)
  let pd ← lift (undoMergeDeltaData d.poolData u.poolData)
  let dd ← lift (undoMergeDeltaData d.delegationData u.delegationData)
  pure ⟨pd, pb, sh, db, dd⟩

/-- one account input of a transaction on the scratch layer used to total the inputs:
spend, then read the balance back so that a negative balance is an error –
chainstate/constraints-value-accumulator/src/constraints_accumulator.rs 229-236 (`process_input_account`; the
bookkeeping of lines 238-259 is in the accumulator model) -/
def spendInput (c : Cache) (d : DelegationId) (a : Nat) : Except Err Cache := do
  let (c', _) ← spendShare c d a
  let _ ← c'.view.delegationBalance d
  pure c'

/-- all delegation-spending inputs of a transaction in order – constraints_accumulator.rs 78-137 restricted to
`TxInput::Account` -/
def spendInputs (c : Cache) : List (DelegationId × Nat) → Except Err Cache
  | [] => .ok c
  | (d, a) :: t => do
    let c' ← spendInput c d a
    spendInputs c' t

end Verif.Pos
