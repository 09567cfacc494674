import Verif.Accounting.Layer
import Verif.Base.History

/-!
# Model of `tokens-accounting`
-/

namespace Verif.Tokens
open Verif Verif.Accounting

/-- `tokens_accounting::Error` – tokens-accounting/src/error.rs 19-88; token ids and amounts carried by the variants
are dropped, storage errors are not modelled -/
inductive Err
  | accounting (e : Accounting.Err)
  | tokenAlreadyExists
  | tokenDataNotFound
  | tokenDataNotFoundOnReversal
  | mintExceedsSupplyLimit
  | amountOverflow
  | cannotMintFromLockedSupply
  | cannotMintFrozenToken
  | cannotUnmintFromLockedSupply
  | cannotUnmintFrozenToken
  | notEnoughCirculatingSupplyToUnmint
  | supplyIsAlreadyLocked
  | cannotLockNotLockableSupply
  | cannotLockFrozenToken
  | cannotUnlockNotLockedSupplyOnReversal
  | cannotUndoMintForLockedSupplyOnReversal
  | cannotUndoUnmintForLockedSupplyOnReversal
  | tokenIsAlreadyFrozen
  | cannotFreezeNotFreezableToken
  | cannotUnfreezeNotUnfreezableToken
  | cannotUnfreezeTokenThatIsNotFrozen
  | cannotUndoFreezeTokenThatIsNotFrozen
  | cannotUndoUnfreezeTokenThatIsFrozen
  | cannotChangeAuthorityForFrozenToken
  | cannotUndoChangeAuthorityForFrozenToken
  | cannotChangeMetadataUriForFrozenToken
  | cannotUndoChangeMetadataUriForFrozenToken
  | viewFail
  deriving DecidableEq, Repr

/-- `TokenId` is a hash; modelled as a natural number -/
abbrev TokenId := Nat

/-- `TokenTotalSupply` – common/src/chain/tokens/issuance.rs 35-42 -/
inductive TotalSupply
  | fixed (limit : Nat)
  | lockable
  | unlimited
  deriving DecidableEq, Repr

/-- `IsTokenFrozen` – issuance.rs 122-127; `IsTokenFreezable`/`IsTokenUnfreezable` (59-64, 90-95) are booleans -/
inductive Frozen
  | no (freezable : Bool)
  | yes (unfreezable : Bool)
  deriving DecidableEq, Repr

/-- `TokenData::FungibleToken(FungibleTokenData)` – tokens-accounting/src/data.rs 92-106.  `Destination`, ticker and
uri are opaque numbers. -/
structure TokenData where
  ticker : Nat
  decimals : Nat
  metadataUri : Nat
  totalSupply : TotalSupply
  locked : Bool
  frozen : Frozen
  authority : Nat
  deriving DecidableEq, Repr

/-- `TokenIssuanceV1` – issuance.rs 160-167 -/
structure Issuance where
  ticker : Nat
  decimals : Nat
  metadataUri : Nat
  totalSupply : TotalSupply
  authority : Nat
  isFreezable : Bool
  deriving DecidableEq, Repr

/-- `impl From<TokenIssuance> for FungibleTokenData` – data.rs 256-271 -/
def TokenData.ofIssuance (i : Issuance) : TokenData :=
  { ticker := i.ticker, decimals := i.decimals, metadataUri := i.metadataUri, totalSupply := i.totalSupply,
    locked := false, frozen := .no i.isFreezable, authority := i.authority }

/-- `try_lock` – data.rs 152-165 -/
def TokenData.tryLock (d : TokenData) : Option TokenData :=
  match d.totalSupply with
  | .fixed _ => none
  | .unlimited => none
  | .lockable => some { d with locked := true }

/-- `is_frozen` – data.rs 171-176 -/
def TokenData.isFrozen (d : TokenData) : Bool :=
  match d.frozen with
  | .no _ => false
  | .yes _ => true

/-- `can_be_frozen` – data.rs 178-186 -/
def TokenData.canBeFrozen (d : TokenData) : Bool :=
  match d.frozen with
  | .no freezable => freezable
  | .yes _ => false

/-- `can_be_unfrozen` – data.rs 188-196 -/
def TokenData.canBeUnfrozen (d : TokenData) : Bool :=
  match d.frozen with
  | .no _ => false
  | .yes unfreezable => unfreezable

/-- `try_freeze` – data.rs 198-212 -/
def TokenData.tryFreeze (d : TokenData) (unfreezable : Bool) : Option TokenData :=
  if d.canBeFrozen then some { d with frozen := .yes unfreezable } else none

/-- `try_unfreeze` – data.rs 214-228 -/
def TokenData.tryUnfreeze (d : TokenData) : Option TokenData :=
  if d.canBeUnfrozen then some { d with frozen := .no true } else none

/-- `TokensAccountingView` – view.rs 22-31 -/
structure View where
  data : TokenId → Except Err (Option TokenData)
  supply : TokenId → Except Err Nat

/-- `TokensAccountingDeltaData` – data.rs 49-53 -/
structure Delta where
  data : DataColl TokenId TokenData
  supply : AmountColl TokenId
  deriving DecidableEq

/-- `TokensAccountingDeltaData::new` – data.rs 55-60 -/
def Delta.empty : Delta := ⟨BMap.empty, BMap.empty⟩

/-- `TokensAccountingCache` – cache.rs 39-42 -/
structure Cache where
  parent : View
  delta : Delta

/-- `TokensAccountingCache::new` – cache.rs 45-50 -/
def Cache.new (parent : View) : Cache := ⟨parent, Delta.empty⟩

/-- `impl TokensAccountingView for TokensAccountingCache` – cache.rs 61-78 -/
def Cache.view (c : Cache) : View where
  data := getVal c.parent.data c.delta.data
  supply := getBal .accounting c.parent.supply c.delta.supply

/-- `TokenAccountingUndo` – operations.rs 24-93 -/
inductive Undo
  | issue (id : TokenId) (undo : DataDelta TokenData)
  | mint (id : TokenId) (amount : Nat)
  | unmint (id : TokenId) (amount : Nat)
  | lock (id : TokenId) (undo : DataDelta TokenData)
  | freeze (id : TokenId) (undo : DataDelta TokenData)
  | unfreeze (id : TokenId) (undo : DataDelta TokenData)
  | changeAuthority (id : TokenId) (undo : DataDelta TokenData)
  | changeMetadataUri (id : TokenId) (undo : DataDelta TokenData)
  deriving DecidableEq

/-- lift an `accounting::Error` (`#[from]`) -/
def lift {A : Type} (x : Except Accounting.Err A) : Except Err A := x.mapError .accounting

/-- `issue_token` – cache.rs 92-112 -/
def issueToken (c : Cache) (id : TokenId) (d : TokenData) : Except Err (Cache × Undo) := do
  let od ← c.view.data id
  ensure (od.isNone = true) .tokenAlreadyExists
  let s ← c.view.supply id
  ensure (¬ s > 0) .tokenAlreadyExists
  let (data, undo) ← lift (mergeDeltaDataElement c.delta.data id ⟨none, some d⟩)
  pure ({ c with delta := { c.delta with data := data } }, .issue id undo)

/-- the supply policy check inside `mint_tokens` – cache.rs 130-147 -/
def mintPolicy (c : Cache) (id : TokenId) (d : TokenData) (amount : Nat) : Except Err Unit :=
  match d.totalSupply with
  | .fixed limit => do
    let s ← c.view.supply id
    let expected ← okOr (Amt.add s amount) .amountOverflow
    ensure (¬ expected > limit) .mintExceedsSupplyLimit
  | .lockable => ensure (d.locked = false) .cannotMintFromLockedSupply
  | .unlimited => .ok ()

/-- `mint_tokens` – cache.rs 114-154 -/
def mintTokens (c : Cache) (id : TokenId) (amount : Nat) : Except Err (Cache × Undo) := do
  let od ← c.view.data id
  let d ← okOr od .tokenDataNotFound
  ensure (d.isFrozen = false) .cannotMintFrozenToken
  mintPolicy c id d amount
  let supply ← lift (addUnsigned c.delta.supply id amount)
  pure ({ c with delta := { c.delta with supply := supply } }, .mint id amount)

/-- `unmint_tokens` – cache.rs 156-189 -/
def unmintTokens (c : Cache) (id : TokenId) (amount : Nat) : Except Err (Cache × Undo) := do
  let od ← c.view.data id
  let d ← okOr od .tokenDataNotFound
  ensure (d.locked = false) .cannotUnmintFromLockedSupply
  ensure (d.isFrozen = false) .cannotUnmintFrozenToken
  let s ← c.view.supply id
  ensure (¬ s < amount) .notEnoughCirculatingSupplyToUnmint
  let supply ← lift (subUnsigned c.delta.supply id amount)
  pure ({ c with delta := { c.delta with supply := supply } }, .unmint id amount)

/-- record the change of a token's data from `d` to `new`; shared tail of the five functions below -/
def putData (c : Cache) (id : TokenId) (d new : TokenData) (mk : DataDelta TokenData → Undo) :
    Except Err (Cache × Undo) := do
  let (data, undo) ← lift (mergeDeltaDataElement c.delta.data id ⟨some d, some new⟩)
  pure ({ c with delta := { c.delta with data := data } }, mk undo)

/-- `lock_circulating_supply` – cache.rs 191-221 -/
def lockSupply (c : Cache) (id : TokenId) : Except Err (Cache × Undo) := do
  let od ← c.view.data id
  let d ← okOr od .tokenDataNotFound
  ensure (d.locked = false) .supplyIsAlreadyLocked
  ensure (d.isFrozen = false) .cannotLockFrozenToken
  let new ← okOr d.tryLock .cannotLockNotLockableSupply
  putData c id d new (.lock id)

/-- `freeze_token` – cache.rs 223-253 -/
def freezeToken (c : Cache) (id : TokenId) (unfreezable : Bool) : Except Err (Cache × Undo) := do
  let od ← c.view.data id
  let d ← okOr od .tokenDataNotFound
  ensure (d.isFrozen = false) .tokenIsAlreadyFrozen
  let new ← okOr (d.tryFreeze unfreezable) .cannotFreezeNotFreezableToken
  putData c id d new (.freeze id)

/-- `unfreeze_token` – cache.rs 255-281 -/
def unfreezeToken (c : Cache) (id : TokenId) : Except Err (Cache × Undo) := do
  let od ← c.view.data id
  let d ← okOr od .tokenDataNotFound
  ensure (d.isFrozen = true) .cannotUnfreezeTokenThatIsNotFrozen
  let new ← okOr d.tryUnfreeze .cannotUnfreezeNotUnfreezableToken
  putData c id d new (.unfreeze id)

/-- `change_authority` – cache.rs 283-310 (`FungibleTokenData::change_authority` data.rs 230-240) -/
def changeAuthority (c : Cache) (id : TokenId) (a : Nat) : Except Err (Cache × Undo) := do
  let od ← c.view.data id
  let d ← okOr od .tokenDataNotFound
  ensure (d.isFrozen = false) .cannotChangeAuthorityForFrozenToken
  putData c id d { d with authority := a } (.changeAuthority id)

/-- `change_metadata_uri` – cache.rs 312-339 (`FungibleTokenData::change_metadata_uri` data.rs 242-252) -/
def changeMetadataUri (c : Cache) (id : TokenId) (uri : Nat) : Except Err (Cache × Undo) := do
  let od ← c.view.data id
  let d ← okOr od .tokenDataNotFound
  ensure (d.isFrozen = false) .cannotChangeMetadataUriForFrozenToken
  putData c id d { d with metadataUri := uri } (.changeMetadataUri id)

/-- shared tail of the data-undoing branches of `undo` -/
def undoData (c : Cache) (id : TokenId) (u : DataDelta TokenData) : Except Err Cache := do
  let data ← lift (undoMergeDeltaDataElement c.delta.data id u)
  pure { c with delta := { c.delta with data := data } }

/-- `undo` – cache.rs 341-456 -/
def undo (c : Cache) : Undo → Except Err Cache
  | .issue id u => do
    let od ← c.view.data id
    let _ ← okOr od .tokenDataNotFoundOnReversal
    undoData c id u
  | .mint id amount => do
    let od ← c.view.data id
    let d ← okOr od .tokenDataNotFoundOnReversal
    ensure (d.locked = false) .cannotUndoMintForLockedSupplyOnReversal
    let supply ← lift (subUnsigned c.delta.supply id amount)
    pure { c with delta := { c.delta with supply := supply } }
  | .unmint id amount => do
    let od ← c.view.data id
    let d ← okOr od .tokenDataNotFoundOnReversal
    ensure (d.locked = false) .cannotUndoUnmintForLockedSupplyOnReversal
    let supply ← lift (addUnsigned c.delta.supply id amount)
    pure { c with delta := { c.delta with supply := supply } }
  | .lock id u => do
    let od ← c.view.data id
    let d ← okOr od .tokenDataNotFoundOnReversal
    ensure (d.locked = true) .cannotUnlockNotLockedSupplyOnReversal
    undoData c id u
  | .freeze id u => do
    let od ← c.view.data id
    let d ← okOr od .tokenDataNotFoundOnReversal
    ensure (d.isFrozen = true) .cannotUndoFreezeTokenThatIsNotFrozen
    undoData c id u
  | .unfreeze id u => do
    let od ← c.view.data id
    let d ← okOr od .tokenDataNotFoundOnReversal
    ensure (d.isFrozen = false) .cannotUndoUnfreezeTokenThatIsFrozen
    undoData c id u
  | .changeAuthority id u => do
    let od ← c.view.data id
    let d ← okOr od .tokenDataNotFoundOnReversal
    ensure (d.isFrozen = false) .cannotUndoChangeAuthorityForFrozenToken
    undoData c id u
  | .changeMetadataUri id u => do
    let od ← c.view.data id
    let d ← okOr od .tokenDataNotFoundOnReversal
    ensure (d.isFrozen = false) .cannotUndoChangeMetadataUriForFrozenToken
    undoData c id u

/-- operations of `TokensAccountingOperations` – operations.rs 95-128.  Issuing takes the issuance data of the
output, converted as the only caller does (chainstate/tx-verifier/src/transaction_verifier/mod.rs 640-662). -/
inductive Op
  | issue (id : TokenId) (i : Issuance)
  | mint (id : TokenId) (amount : Nat)
  | unmint (id : TokenId) (amount : Nat)
  | lock (id : TokenId)
  | freeze (id : TokenId) (unfreezable : Bool)
  | unfreeze (id : TokenId)
  | changeAuthority (id : TokenId) (a : Nat)
  | changeMetadataUri (id : TokenId) (uri : Nat)
  deriving DecidableEq

/-- dispatch -/
def step (c : Cache) : Op → Except Err (Cache × Undo)
  | .issue id i => issueToken c id (.ofIssuance i)
  | .mint id a => mintTokens c id a
  | .unmint id a => unmintTokens c id a
  | .lock id => lockSupply c id
  | .freeze id u => freezeToken c id u
  | .unfreeze id => unfreezeToken c id
  | .changeAuthority id a => changeAuthority c id a
  | .changeMetadataUri id u => changeMetadataUri c id u

/-- `TokensAccountingDB` over a key-value store – storage/db.rs 30-37; `TokensAccountingData` data.rs 32-36 -/
structure DB where
  data : BMap TokenId TokenData
  supply : BMap TokenId Nat
  deriving DecidableEq

/-- `impl TokensAccountingView for TokensAccountingDB` – storage/db.rs 99-109 -/
def DB.view (db : DB) : View where
  data := fun id => .ok (db.data.get id)
  supply := fun id => .ok (bal db.supply id)

/-- `TokensAccountingDB::merge_with_delta` – storage/db.rs 42-96 -/
def DB.mergeWithDelta (db : DB) (d : Delta) : Except Err (DB × Delta) := do
  let (data, du) ← lift (dbMergeData db.data d.data)
  let (supply, su) ← lift (dbMergeBalances db.supply d.supply)
  pure (⟨data, supply⟩, ⟨du, su⟩)

/-- `TokensAccountingDeltaData::merge_with_delta` – data.rs 62-75 (flush of a cache into its parent cache,
cache.rs 80-89) -/
def Delta.mergeWithDelta (d other : Delta) : Except Err (Delta × Delta) := do
  let (data, du) ← lift (mergeDeltaData d.data other.data)
  let supply ← lift (mergeAmounts d.supply other.supply)
  pure (⟨data, supply⟩, ⟨du, other.supply⟩)

end Verif.Tokens
