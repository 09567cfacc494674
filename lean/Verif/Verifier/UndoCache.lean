import Verif.Base.BMap
import Verif.Base.Amount

/-!
# Model of the undo-data caches of the transaction verifier

`chainstate/tx-verifier/src/transaction_verifier/{cached_operation.rs, accounting_undo_cache/, utxos_undo_cache/}`.
`R` and `T` are the undo data of a block reward and of a transaction, arbitrary.
-/

namespace Verif.Verifier
open Verif

/-- errors of the transaction verifier that concern undo data; `panicked` = a `panic!` -/
inductive UErr
  | undoAlreadyExists
  | undoAlreadyExistsForReward
  | missingTxUndo
  | missingBlockUndo
  | txUndoWithDependency
  | panicked
  deriving DecidableEq, Repr

/-- `CachedOperation` – cached_operation.rs 19-23 -/
inductive COp (α : Type)
  | write (a : α)
  | read (a : α)
  | erase
  deriving DecidableEq, Repr

/-- `CachedOperation::get` / `take` – cached_operation.rs 26-39 -/
def COp.get {α : Type} : COp α → Option α
  | .write a => some a
  | .read a => some a
  | .erase => none

/-- `TransactionSource` – transaction_verifier/tx_source.rs: the mempool, or a block -/
abbrev Source := Nat

def mempool : Source := 0
def chain (block : Nat) : Source := block + 1

/-- the entries of a map on which `f` is defined (`filter_map` … `collect`) -/
def _root_.Verif.BMap.filterMapV {K A B : Type} [LinearOrder K] (m : BMap K A) (f : K → A → Option B) : BMap K B :=
  ⟨m.entries.filterMap fun kv => (f kv.1 kv.2).map (kv.1, ·), by
    refine List.Pairwise.filterMap _ ?_ m.sorted
    rintro ⟨k, v⟩ ⟨k', v'⟩ h x hx y hy
    simp only [Option.map_eq_some_iff] at hx hy
    obtain ⟨_, -, rfl⟩ := hx
    obtain ⟨_, -, rfl⟩ := hy
    exact h⟩

/-- the live entries of a cached map – cached_block_undo.rs 70-74, cached_utxo_block_undo.rs 95-111 -/
def live {K A : Type} [LinearOrder K] (m : BMap K (COp A)) : BMap K A := m.filterMapV fun _ op => op.get

/-- a cached map written to the storage, key by key – flush.rs 32-60, 122-130 -/
def applyOps {K A : Type} [LinearOrder K] (store : BMap K A) (c : BMap K (COp A)) : Except UErr (BMap K A) :=
  BMap.mergeM (fun _ cur op => match op with
    | .write a => .ok (some a)
    | .read _ => .ok cur
    | .erase => .ok none) store c

/-! ### Accounting -/

/-- `accounting::BlockUndo` as stored – accounting/src/block_undo.rs -/
structure BlockUndo (R T : Type) where
  reward : Option R
  txs : BMap Nat T

/-- `CachedBlockUndo` – accounting_undo_cache/cached_block_undo.rs 24-27 -/
structure CBlockUndo (R T : Type) where
  reward : Option (COp R)
  txs : BMap Nat (COp T)

variable {R T : Type}

/-- `CachedBlockUndo::default` -/
def CBlockUndo.empty : CBlockUndo R T := ⟨none, BMap.empty⟩

/-- the live transaction undos of `consume`, `is_empty` – `op.get()` of the entry -/
def CBlockUndo.tx (b : CBlockUndo R T) (id : Nat) : Option T := (b.txs.get id).bind COp.get

/-- `reward_undos.and_then(|op| op.get())` -/
def CBlockUndo.rw (b : CBlockUndo R T) : Option R := b.reward.bind COp.get

/-- `consume` – cached_block_undo.rs 67-77 -/
def CBlockUndo.consume (b : CBlockUndo R T) : BlockUndo R T := ⟨b.rw, live b.txs⟩

/-- `from_block_undo` – cached_block_undo.rs 50-64 -/
def CBlockUndo.ofStored (b : BlockUndo R T) : CBlockUndo R T := ⟨b.reward.map .read, b.txs.mapV fun _ t => .read t⟩

/-- `is_empty` – cached_block_undo.rs 80-83 -/
def CBlockUndo.isEmpty (b : CBlockUndo R T) : Bool := b.rw.isNone && b.txs.entries.all fun e => e.2.get.isNone

/-- `set_block_reward_undo` – cached_block_undo.rs 95-105 -/
def CBlockUndo.setReward (b : CBlockUndo R T) (r : R) : Except UErr (CBlockUndo R T) :=
  if b.reward.isNone then .ok { b with reward := some (.write r) } else .error .undoAlreadyExistsForReward

/-- `insert_tx_undo` – cached_block_undo.rs 108-120 -/
def CBlockUndo.insertTx (b : CBlockUndo R T) (id : Nat) (t : T) : Except UErr (CBlockUndo R T) :=
  if (b.txs.get id).isNone then .ok { b with txs := b.txs.insert id (.write t) } else .error .undoAlreadyExists

/-- `take_tx_undo` – cached_block_undo.rs 123-134 -/
def CBlockUndo.takeTx (b : CBlockUndo R T) (id : Nat) : Except UErr (CBlockUndo R T × Option T) :=
  match b.txs.get id with
  | none => .ok (b, none)
  | some op => match op.get with
    | none => .error .missingTxUndo
    | some t => .ok ({ b with txs := b.txs.insert id .erase }, some t)

/-- `take_block_reward_undo` – cached_block_undo.rs 90-92 -/
def CBlockUndo.takeReward (b : CBlockUndo R T) : CBlockUndo R T × Option R := ({ b with reward := none }, b.rw)

/-- `AccountingBlockUndoCache` – accounting_undo_cache/mod.rs 29-31 -/
abbrev UndoCache (R T : Type) := BMap Source (COp (CBlockUndo R T))

/-- the block undo an addition starts from: the cached one, or a new one (the storage is not consulted) –
accounting_undo_cache/mod.rs 63-79, 93-111 -/
def startOf (c : UndoCache R T) (src : Source) : CBlockUndo R T :=
  match c.get src with
  | some op => op.get.getD .empty
  | none => .empty

/-- `add_reward_undo` – accounting_undo_cache/mod.rs 58-82 -/
def UndoCache.addReward (c : UndoCache R T) (src : Source) (r : R) : Except UErr (UndoCache R T) := do
  let b ← (startOf c src).setReward r
  pure (c.insert src (.write b))

/-- `add_tx_undo` – accounting_undo_cache/mod.rs 87-114 -/
def UndoCache.addTx (c : UndoCache R T) (src : Source) (id : Nat) (t : T) : Except UErr (UndoCache R T) := do
  let b ← (startOf c src).insertTx id t
  pure (c.insert src (.write b))

/-- the block undo a removal starts from – accounting_undo_cache/mod.rs 129-135, 166-172 -/
def UndoCache.cur (c : UndoCache R T) (base : Source → Option (CBlockUndo R T)) (src : Source) :
    Option (CBlockUndo R T) :=
  match c.get src with
  | none => base src
  | some op => op.get

/-- what is stored after a removal – accounting_undo_cache/mod.rs 141-146, 178-183 -/
def UndoCache.put (c : UndoCache R T) (src : Source) (b : CBlockUndo R T) : UndoCache R T :=
  if b.isEmpty then c.insert src .erase else c.insert src (.write b)

/-- `take_tx_undo` – accounting_undo_cache/mod.rs 119-152 -/
def UndoCache.takeTx (c : UndoCache R T) (base : Source → Option (CBlockUndo R T)) (src : Source) (id : Nat) :
    Except UErr (UndoCache R T × Option T) :=
  match c.cur base src with
  | none => .ok (c, none)
  | some b => do
    let (b', r) ← b.takeTx id
    pure (if r.isSome then c.put src b' else c, r)

/-- `take_block_reward_undo` – accounting_undo_cache/mod.rs 157-189 -/
def UndoCache.takeReward (c : UndoCache R T) (base : Source → Option (CBlockUndo R T)) (src : Source) :
    UndoCache R T × Option R :=
  match c.cur base src with
  | none => (c, none)
  | some b =>
    let (b', r) := b.takeReward
    (if r.isSome then c.put src b' else c, r)

/-- one source of the flush into the storage – flush.rs 99-108, 112-121, 134-143;
tx_verifier_storage.rs 292-324, 382-450 -/
def flushStep (_ : Source) (cur : Option (BlockUndo R T)) (op : COp (CBlockUndo R T)) :
    Except UErr (Option (BlockUndo R T)) :=
  match op with
  | .write b => .ok (some b.consume)
  | .read _ => .ok cur
  | .erase => .ok none

/-- flush of the undo data into the storage -/
def UndoCache.flush (store : BMap Source (BlockUndo R T)) (c : UndoCache R T) :
    Except UErr (BMap Source (BlockUndo R T)) :=
  BMap.mergeM flushStep store c

/-- reading the storage – tx_verifier_storage.rs 101-135, 147-166 -/
def ofStore (store : BMap Source (BlockUndo R T)) (src : Source) : Option (CBlockUndo R T) :=
  (store.get src).map .ofStored

/-! ### UTXO -/

/-- `UtxosBlockUndo` as stored – utxo/src/undo.rs; of the two mirrored dependency sets only the (parent, child) one -/
structure UtxoBlockUndo (R T : Type) where
  u : BlockUndo R T
  deps : BMap (Nat ×ₗ Nat) Unit

/-- `CachedUtxosBlockUndo` – utxos_undo_cache/cached_utxo_block_undo.rs 28-39; of the two mirrored dependency maps
only `parent_child_dependencies`, keyed (parent, child) -/
structure CUtxoUndo (R T : Type) where
  u : CBlockUndo R T
  deps : BMap (Nat ×ₗ Nat) (COp Unit)

def CUtxoUndo.empty : CUtxoUndo R T := ⟨.empty, BMap.empty⟩

/-- `consume` – cached_utxo_block_undo.rs 92-119 -/
def CUtxoUndo.consume (b : CUtxoUndo R T) : UtxoBlockUndo R T := ⟨b.u.consume, live b.deps⟩

/-- `from_utxo_block_undo` – cached_utxo_block_undo.rs 58-89 -/
def CUtxoUndo.ofStored (b : UtxoBlockUndo R T) : CUtxoUndo R T := ⟨.ofStored b.u, b.deps.mapV fun _ _ => .read ()⟩

/-- recording the dependencies on the transactions spent from – cached_utxo_block_undo.rs 140-151 -/
def addDeps (m : BMap (Nat ×ₗ Nat) (COp Unit)) (id : Nat) : List Nat → BMap (Nat ×ₗ Nat) (COp Unit)
  | [] => m
  | p :: ps => addDeps (m.insert (toLex (p, id)) (.write ())) id ps

/-- `insert_tx_undo` – cached_utxo_block_undo.rs 128-154; `parents` = the transactions among the sources -/
def CUtxoUndo.insertTx (b : CUtxoUndo R T) (id : Nat) (t : T) (parents : List Nat) : Except UErr (CUtxoUndo R T) := do
  let u ← b.u.insertTx id t
  pure ⟨u, addDeps b.deps id parents⟩

/-- `has_children_of` – cached_utxo_block_undo.rs 157-162 -/
def CUtxoUndo.hasChildren (b : CUtxoUndo R T) (id : Nat) : Bool :=
  b.deps.entries.any fun e => (ofLex e.1).1 == id && e.2.get.isSome

/-- removing the dependencies on its parents – cached_utxo_block_undo.rs 164-170, 183-188 -/
def eraseParents (m : BMap (Nat ×ₗ Nat) (COp Unit)) (id : Nat) : BMap (Nat ×ₗ Nat) (COp Unit) :=
  m.mapV fun k op => if (ofLex k).2 == id && op.get.isSome then .erase else op

/-- `take_tx_undo` – cached_utxo_block_undo.rs 178-197 -/
def CUtxoUndo.takeTx (b : CUtxoUndo R T) (id : Nat) : Except UErr (CUtxoUndo R T × Option T) :=
  if b.hasChildren id then .error .txUndoWithDependency
  else .ok (⟨{ b.u with txs := b.u.txs.insert id .erase }, eraseParents b.deps id⟩, b.u.tx id)

/-- `UtxosBlockUndoCache` – utxos_undo_cache/mod.rs 38-40 -/
abbrev UtxoUndoCache (R T : Type) := BMap Source (COp (CUtxoUndo R T))

def utxoStart (c : UtxoUndoCache R T) (src : Source) : CUtxoUndo R T :=
  match c.get src with
  | some op => op.get.getD .empty
  | none => .empty

/-- `add_tx_undo` – utxos_undo_cache/mod.rs 89-116 -/
def UtxoUndoCache.addTx (c : UtxoUndoCache R T) (src : Source) (id : Nat) (t : T) (parents : List Nat) :
    Except UErr (UtxoUndoCache R T) := do
  let b ← (utxoStart c src).insertTx id t parents
  pure (c.insert src (.write b))

/-- `add_reward_undo` – utxos_undo_cache/mod.rs 121-145 -/
def UtxoUndoCache.addReward (c : UtxoUndoCache R T) (src : Source) (r : R) : Except UErr (UtxoUndoCache R T) := do
  let u ← (utxoStart c src).u.setReward r
  pure (c.insert src (.write { utxoStart c src with u := u }))

def UtxoUndoCache.cur (c : UtxoUndoCache R T) (base : Source → Option (CUtxoUndo R T)) (src : Source) :
    Option (CUtxoUndo R T) :=
  match c.get src with
  | none => base src
  | some op => op.get

def UtxoUndoCache.put (c : UtxoUndoCache R T) (src : Source) (b : CUtxoUndo R T) : UtxoUndoCache R T :=
  if b.u.isEmpty then c.insert src .erase else c.insert src (.write b)

/-- the block undo `take_tx_undo` starts from – utxos_undo_cache/mod.rs 160-169 -/
def UtxoUndoCache.pick (c : UtxoUndoCache R T) (base : Source → Option (CUtxoUndo R T)) (src : Source) :
    Except UErr (CUtxoUndo R T) :=
  match c.get src with
  | none => okOr (base src) .missingBlockUndo
  | some op => okOr op.get .panicked

/-- `take_tx_undo` – utxos_undo_cache/mod.rs 150-183 -/
def UtxoUndoCache.takeTx (c : UtxoUndoCache R T) (base : Source → Option (CUtxoUndo R T)) (src : Source) (id : Nat) :
    Except UErr (UtxoUndoCache R T × T) := do
  let b ← c.pick base src
  let (b', r) ← b.takeTx id
  let t ← okOr r .missingTxUndo
  pure (c.put src b', t)

/-- `take_block_reward_undo` – utxos_undo_cache/mod.rs 188-220 -/
def UtxoUndoCache.takeReward (c : UtxoUndoCache R T) (base : Source → Option (CUtxoUndo R T)) (src : Source) :
    UtxoUndoCache R T × Option R :=
  match c.cur base src with
  | none => (c, none)
  | some b =>
    let (u', r) := b.u.takeReward
    (if r.isSome then c.put src { b with u := u' } else c, r)

/-- one source of the flush into the storage – flush.rs 79-86; tx_verifier_storage.rs 258-290 -/
def utxoFlushStep (_ : Source) (cur : Option (UtxoBlockUndo R T)) (op : COp (CUtxoUndo R T)) :
    Except UErr (Option (UtxoBlockUndo R T)) :=
  match op with
  | .write b => .ok (some b.consume)
  | .read _ => .ok cur
  | .erase => .ok none

def UtxoUndoCache.flush (store : BMap Source (UtxoBlockUndo R T)) (c : UtxoUndoCache R T) :
    Except UErr (BMap Source (UtxoBlockUndo R T)) :=
  BMap.mergeM utxoFlushStep store c

def utxoOfStore (store : BMap Source (UtxoBlockUndo R T)) (src : Source) : Option (CUtxoUndo R T) :=
  (store.get src).map .ofStored

end Verif.Verifier
