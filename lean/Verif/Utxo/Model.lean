import Verif.Base.BMap
import Verif.Base.Amount

/-!
# Model of `utxo` (UTXO caches over a database)

`K` is the type of outpoints, `V` the type of UTXOs; both arbitrary for the cache itself.
Reading the underlying storage never fails in the model (a storage failure aborts the operation in the code:
`Error::ViewRead`).
-/

namespace Verif.Utxo
open Verif

/-- `utxo::Error` – utxo/src/error.rs; only what the modelled functions return.  `panicked` = an `assert!` fired. -/
inductive Err
  | overwritingUtxo
  | freshUtxoAlreadyExists
  | utxoAlreadySpent
  | noUtxoFound
  | missingBlockRewardUndo
  | invalidBlockRewardOutputType
  | txInputAndUndoMismatch
  | panicked
  deriving DecidableEq, Repr

/-- `UtxoEntry` – utxo_entry.rs 55-60; `utxo = none` is `UtxoStatus::Spent` -/
structure Entry (V : Type) where
  utxo : Option V
  fresh : Bool
  dirty : Bool
  deriving DecidableEq, Repr

variable {K V : Type} [LinearOrder K]

/-- the two `assert!`s of `UtxoEntry::new` – utxo_entry.rs 79-82 -/
def Entry.valid (e : Entry V) : Bool :=
  match e.utxo with
  | some _ => !e.fresh || e.dirty
  | none => xor e.fresh e.dirty

/-- `UtxoEntry::new` – utxo_entry.rs 63-85 -/
def mkEntry (utxo : Option V) (fresh dirty : Bool) : Except Err (Entry V) :=
  let e : Entry V := ⟨utxo, fresh, dirty⟩
  if e.valid then .ok e else .error .panicked

/-- `UtxosCache` without its parent – cache.rs 40-49 (`memory_usage` is unused) -/
structure Layer (K V : Type) [LinearOrder K] where
  utxos : BMap K (Entry V)
  best : Nat

/-- what a layer sees below it: `UtxosView` – view.rs 24-37 -/
structure View (K V : Type) where
  utxo : K → Option V
  best : Nat

/-- `UtxosCache::new` – cache.rs 74-82 -/
def Layer.new (parent : View K V) : Layer K V := ⟨BMap.empty, parent.best⟩

/-- `UtxosView for UtxosCache` – cache.rs 414-440 -/
def Layer.view (l : Layer K V) (parent : View K V) : View K V where
  utxo := fun k => match l.utxos.get k with
    | some e => e.utxo
    | none => parent.utxo k
  best := l.best

/-- `fetch_utxo_entry` – cache.rs 54-72 -/
def fetch (parent : View K V) (l : Layer K V) (k : K) : Except Err (Layer K V × Option (Entry V)) :=
  match l.utxos.get k with
  | some e => .ok (l, some e)
  | none =>
    match parent.utxo k with
    | none => .ok (l, none)
    | some u => do
      let e ← mkEntry (some u) false false
      pure ({ l with utxos := l.utxos.insert k e }, some e)

/-- `add_utxo` – cache.rs 284-332 -/
def addUtxo (l : Layer K V) (k : K) (v : V) (overwrite : Bool) : Except Err (Layer K V) := do
  let fresh ← match l.utxos.get k with
    | none => pure (!overwrite)
    | some cur =>
      if !overwrite then
        if cur.utxo.isSome then .error .overwritingUtxo
        else pure (!cur.dirty || cur.fresh)
      else pure cur.fresh
  let e ← mkEntry (some v) fresh true
  pure { l with utxos := l.utxos.insert k e }

/-- `spend_utxo` – cache.rs 336-352.  The outer `Except` is a panic; the inner one is the `Result` returned to the
caller, next to the state the cache is left in. -/
def spendUtxo (parent : View K V) (l : Layer K V) (k : K) : Except Err (Layer K V × Except Err V) := do
  let (l, oe) ← fetch parent l k
  match oe with
  | none => pure (l, .error .noUtxoFound)
  | some e => do
    let utxos ← if e.fresh then pure (l.utxos.erase k) else do
      let n ← mkEntry none false true
      pure (l.utxos.insert k n)
    pure ({ l with utxos := utxos }, okOr e.utxo .utxoAlreadySpent)

/-- `get_mut_utxo` – cache.rs 360-380, used read-only (nothing is written through the reference); by then
`fetch_utxo_entry` has cached the entry, so the `or_insert_with` never inserts -/
def getMut (parent : View K V) (l : Layer K V) (k : K) : Except Err (Layer K V × Option V) := do
  let (l, oe) ← fetch parent l k
  pure (l, oe.bind (·.utxo))

/-- `uncache` – cache.rs 383-394: state afterwards, and whether it returned `Ok` -/
def uncache (l : Layer K V) (k : K) : Layer K V × Bool :=
  match l.utxos.get k with
  | some e => if !e.fresh && !e.dirty then ({ l with utxos := l.utxos.erase k }, true) else (l, false)
  | none => (l, false)

/-- one iteration of `batch_write` into a cache: new entry at a key, from the present entry and the child's entry –
cache.rs 446-497 -/
def batchStep (_ : K) (cur : Option (Entry V)) (e : Entry V) : Except Err (Option (Entry V)) :=
  if e.dirty then
    match cur with
    | none =>
      if !(e.fresh && e.utxo.isNone) then do
        let n ← mkEntry e.utxo e.fresh true
        pure (some n)
      else pure none
    | some p =>
      if e.fresh && !p.utxo.isNone then .error .freshUtxoAlreadyExists
      else if p.fresh && e.utxo.isNone then pure none
      else do
        let n ← mkEntry e.utxo p.fresh true
        pure (some n)
  else pure cur

/-- `FlushableUtxoView::batch_write` for a cache – cache.rs 443-501 -/
def batchWrite (l : Layer K V) (child : Layer K V) : Except Err (Layer K V) := do
  let utxos ← BMap.mergeM batchStep l.utxos child.utxos
  pure ⟨utxos, child.best⟩

/-- database: `UtxosStorageRead`/`Write` – utxo/src/storage/mod.rs (UTXO part) -/
structure DB (K V : Type) [LinearOrder K] where
  utxos : BMap K V
  best : Nat

/-- `UtxosView for UtxosDB` – storage/view_impls.rs 23-40 -/
def DB.view (db : DB K V) : View K V := ⟨fun k => db.utxos.get k, db.best⟩

/-- one iteration of `batch_write` into the database – storage/view_impls.rs 47-57 -/
def dbStep (_ : K) (cur : Option V) (e : Entry V) : Except Err (Option V) :=
  if e.dirty then
    match e.utxo with
    | some u => pure (some u)
    | none => pure none
  else pure cur

/-- `batch_write` for the database – storage/view_impls.rs 45-62 -/
def DB.batchWrite (db : DB K V) (child : Layer K V) : Except Err (DB K V) := do
  let utxos ← BMap.mergeM dbStep db.utxos child.utxos
  pure ⟨utxos, child.best⟩

/-! ### A stack of caches over a database -/

/-- layers, top first, over a database -/
structure Stack (K V : Type) [LinearOrder K] where
  layers : List (Layer K V)
  db : DB K V

/-- what is seen from the top of a list of layers -/
def viewOf (db : DB K V) : List (Layer K V) → View K V
  | [] => db.view
  | l :: ls => l.view (viewOf db ls)

/-- lookup through the top -/
def Stack.view (s : Stack K V) : View K V := viewOf s.db s.layers

/-- operations of a user of the stack -/
inductive Op (K V : Type)
  /-- `add_utxo` on the top cache -/
  | add (k : K) (v : V) (overwrite : Bool)
  /-- `spend_utxo` on the top cache -/
  | spend (k : K)
  /-- `get_mut_utxo` on the top cache (read) -/
  | touch (k : K)
  /-- `uncache` on the top cache -/
  | uncache (k : K)
  /-- `set_best_block` – cache.rs 93-95 -/
  | setBest (h : Nat)
  /-- put an empty cache on top (`UtxosCache::new`) -/
  | push
  /-- `flush_to_base` of the top cache into what is below it – view.rs 50-56 -/
  | flush

/-- run one operation; `none` in the result position for operations returning nothing; `get_mut_utxo` returning
`Ok(None)` is reported as `noUtxoFound`.  Operations on the top cache
when there is no cache leave the state unchanged. -/
def Stack.step (s : Stack K V) : Op K V → Except Err (Stack K V × Option (Except Err V))
  | .push => .ok (⟨Layer.new s.view :: s.layers, s.db⟩, none)
  | op =>
    match s.layers with
    | [] => .ok (s, none)
    | top :: rest =>
      let parent := viewOf s.db rest
      match op with
      | .push => .ok (s, none)
      | .add k v ow => do
        let t ← addUtxo top k v ow
        pure (⟨t :: rest, s.db⟩, none)
      | .spend k => do
        let (t, r) ← spendUtxo parent top k
        pure (⟨t :: rest, s.db⟩, some r)
      | .touch k => do
        let (t, r) ← getMut parent top k
        pure (⟨t :: rest, s.db⟩, some (okOr r .noUtxoFound))
      | .uncache k => pure (⟨(Utxo.uncache top k).1 :: rest, s.db⟩, none)
      | .setBest h => pure (⟨{ top with best := h } :: rest, s.db⟩, none)
      | .flush =>
        match rest with
        | [] => do
          let db ← s.db.batchWrite top
          pure (⟨[], db⟩, none)
        | l :: ls => do
          let l' ← batchWrite l top
          pure (⟨l' :: ls, s.db⟩, none)

/-- run a sequence of operations collecting the results -/
def Stack.run (s : Stack K V) : List (Op K V) → Except Err (Stack K V × List (Option (Except Err V)))
  | [] => .ok (s, [])
  | op :: ops => do
    let (s1, r) ← s.step op
    let (s2, rs) ← s1.run ops
    pure (s2, r :: rs)

/-! ### Transactions and block rewards -/

/-- `OutPointSourceId` and `UtxoOutPoint` – common/src/chain/transaction/utxo_outpoint.rs: kind (0 transaction,
1 block reward), id, output index -/
abbrev OutPoint := (Nat ×ₗ Nat) ×ₗ Nat

def txOut (id i : Nat) : OutPoint := toLex (toLex (0, id), i)
def rewardOut (id i : Nat) : OutPoint := toLex (toLex (1, id), i)

/-- an output: does it enter the UTXO set (`should_include_in_utxo_set` – cache.rs 505-520), and its content -/
structure Output where
  inUtxoSet : Bool
  content : Nat
  deriving DecidableEq, Repr

/-- `Utxo`: output and source (height or mempool) – utxo/src/lib.rs / utxo.rs -/
structure Coin where
  output : Output
  source : Nat
  deriving DecidableEq, Repr

/-- `Transaction`: id, inputs (`none` = account input), outputs -/
structure Tx where
  id : Nat
  inputs : List (Option OutPoint)
  outputs : List Output

/-- spend the UTXO inputs in order – cache.rs 164-172; the first error aborts -/
def spendInputs (parent : View OutPoint Coin) (l : Layer OutPoint Coin) :
    List (Option OutPoint) → Except Err (Layer OutPoint Coin × List (Option Coin))
  | [] => .ok (l, [])
  | none :: is => do
    let (l2, us) ← spendInputs parent l is
    pure (l2, none :: us)
  | some k :: is => do
    let (l1, r) ← spendUtxo parent l k
    let u ← r
    let (l2, us) ← spendInputs parent l1 is
    pure (l2, some u :: us)

/-- `add_utxos_from_tx` – cache.rs 121-143, output indices starting at `i` -/
def addOutputs (parent : View OutPoint Coin) (l : Layer OutPoint Coin) (mk : Nat → OutPoint) (source : Nat)
    (check : Bool) : Nat → List Output → Except Err (Layer OutPoint Coin)
  | _, [] => .ok l
  | i, o :: os =>
    if o.inUtxoSet then do
      let has := ((l.view parent).utxo (mk i)).isSome
      let l1 ← addUtxo l (mk i) ⟨o, source⟩ (check && has)
      addOutputs parent l1 mk source check (i + 1) os
    else addOutputs parent l mk source check (i + 1) os

/-- `connect_transaction` – cache.rs 147-177 (the list of sources is derived from the inputs, not modelled) -/
def connectTx (parent : View OutPoint Coin) (l : Layer OutPoint Coin) (tx : Tx) (source : Nat) :
    Except Err (Layer OutPoint Coin × List (Option Coin)) := do
  let (l1, us) ← spendInputs parent l tx.inputs
  let l2 ← addOutputs parent l1 (txOut tx.id) source false 0 tx.outputs
  pure (l2, us)

/-- spend the created outputs – cache.rs 185-191 (`all = false`), 261-266 (`all = true`, no filter) -/
def spendOutputs (parent : View OutPoint Coin) (l : Layer OutPoint Coin) (mk : Nat → OutPoint) (all : Bool) :
    Nat → List Output → Except Err (Layer OutPoint Coin)
  | _, [] => .ok l
  | i, o :: os =>
    if all || o.inUtxoSet then do
      let (l1, r) ← spendUtxo parent l (mk i)
      let _ ← r
      spendOutputs parent l1 mk all (i + 1) os
    else spendOutputs parent l mk all (i + 1) os

/-- restore the spent inputs – cache.rs 195-211 -/
def restoreInputs (l : Layer OutPoint Coin) :
    List (Option OutPoint × Option Coin) → Except Err (Layer OutPoint Coin)
  | [] => .ok l
  | (_, none) :: is => restoreInputs l is
  | (none, some _) :: _ => .error .txInputAndUndoMismatch
  | (some k, some u) :: is => do
    let l1 ← addUtxo l k u false
    restoreInputs l1 is

/-- `disconnect_transaction` – cache.rs 180-212 -/
def disconnectTx (parent : View OutPoint Coin) (l : Layer OutPoint Coin) (tx : Tx) (undo : List (Option Coin)) :
    Except Err (Layer OutPoint Coin) := do
  let l1 ← spendOutputs parent l (txOut tx.id) false 0 tx.outputs
  if tx.inputs.length = undo.length then
    restoreInputs l1 (tx.inputs.zip undo)
  else .error .panicked

/-- `BlockRewardTransactable`: optional inputs (`none` inside = not a UTXO input) and optional outputs –
common/src/chain/block/block_reward.rs -/
structure Reward where
  inputs : Option (List (Option OutPoint))
  outputs : Option (List Output)

/-- add the reward's outputs – cache.rs 239-249 -/
def addRewardOutputs (l : Layer OutPoint Coin) (block height : Nat) :
    Nat → List Output → Except Err (Layer OutPoint Coin)
  | _, [] => .ok l
  | i, o :: os =>
    if o.inUtxoSet then do
      let l1 ← addUtxo l (rewardOut block i) ⟨o, height⟩ false
      addRewardOutputs l1 block height (i + 1) os
    else .error .invalidBlockRewardOutputType

/-- `connect_block_transactable` – cache.rs 217-251; the undo keeps only the UTXOs of UTXO inputs -/
def connectReward (parent : View OutPoint Coin) (l : Layer OutPoint Coin) (r : Reward) (block height : Nat) :
    Except Err (Layer OutPoint Coin × Option (List Coin)) := do
  let (l1, undo) ← match r.inputs with
    | some is => do
      let (l1, us) ← spendInputs parent l is
      let us := us.filterMap id
      pure (l1, if us.isEmpty then none else some us)
    | none => pure (l, none)
  let l2 ← match r.outputs with
    | some os => addRewardOutputs l1 block height 0 os
    | none => pure l1
  pure (l2, undo)

/-- restore reward inputs: inputs zipped with the undo, pairs whose input is not a UTXO skipped – cache.rs 270-279 -/
def restoreRewardInputs (l : Layer OutPoint Coin) :
    List (Option OutPoint × Coin) → Except Err (Layer OutPoint Coin)
  | [] => .ok l
  | (none, _) :: is => restoreRewardInputs l is
  | (some k, u) :: is => do
    let l1 ← addUtxo l k u false
    restoreRewardInputs l1 is

/-- `disconnect_block_transactable` – cache.rs 254-281 -/
def disconnectReward (parent : View OutPoint Coin) (l : Layer OutPoint Coin) (r : Reward) (block : Nat)
    (undo : Option (List Coin)) : Except Err (Layer OutPoint Coin) := do
  let l1 ← match r.outputs with
    | some os => spendOutputs parent l (rewardOut block) true 0 os
    | none => pure l
  match r.inputs with
  | some is => do
    let u ← okOr undo .missingBlockRewardUndo
    restoreRewardInputs l1 (is.zip u)
  | none => pure l1

/-- transactions of a block connected in order, undo per transaction –
chainstate/src/detail/tx_verification_strategy/default_strategy.rs 72-90 (UTXO part) -/
def connectTxs (parent : View OutPoint Coin) (l : Layer OutPoint Coin) (source : Nat) :
    List Tx → Except Err (Layer OutPoint Coin × List (List (Option Coin)))
  | [] => .ok (l, [])
  | tx :: txs => do
    let (l1, u) ← connectTx parent l tx source
    let (l2, us) ← connectTxs parent l1 source txs
    pure (l2, u :: us)

/-- transactions of a block disconnected in reverse order – default_strategy.rs 140-146 (UTXO part) -/
def disconnectTxs (parent : View OutPoint Coin) (l : Layer OutPoint Coin) :
    List (Tx × List (Option Coin)) → Except Err (Layer OutPoint Coin)
  | [] => .ok l
  | (tx, u) :: rest => do
    let l1 ← disconnectTxs parent l rest
    disconnectTx parent l1 tx u

/-- a block: id, previous id, height, reward, transactions -/
structure Block where
  id : Nat
  prev : Nat
  height : Nat
  reward : Reward
  txs : List Tx

/-- `connect_block`, UTXO part: transactions, then the reward, then the best block – default_strategy.rs 52-116 -/
def connectBlock (parent : View OutPoint Coin) (l : Layer OutPoint Coin) (b : Block) :
    Except Err (Layer OutPoint Coin × (List (List (Option Coin)) × Option (List Coin))) := do
  let (l1, us) ← connectTxs parent l b.height b.txs
  let (l2, ru) ← connectReward parent l1 b.reward b.id b.height
  pure ({ l2 with best := b.id }, us, ru)

/-- `disconnect_block`, UTXO part: the reward, then the transactions in reverse, then the best block –
default_strategy.rs 118-151.  `u` is what `connect_block` stored. -/
def disconnectBlock (parent : View OutPoint Coin) (l : Layer OutPoint Coin) (b : Block)
    (u : List (List (Option Coin)) × Option (List Coin)) : Except Err (Layer OutPoint Coin) := do
  let l1 ← disconnectReward parent l b.reward b.id u.2
  let l2 ← disconnectTxs parent l1 (b.txs.zip u.1)
  pure { l2 with best := b.prev }

/-- UTXO part of `connect_transactions`: a fresh cache over the database, connect, flush –
chainstate/src/detail/chainstateref/mod.rs 1266-1290, chainstate/tx-verifier/src/transaction_verifier/flush.rs 64-78.
The undo data is returned instead of being stored under the block id. -/
def connectToDB (db : DB OutPoint Coin) (b : Block) :
    Except Err (DB OutPoint Coin × (List (List (Option Coin)) × Option (List Coin))) := do
  let (l, u) ← connectBlock db.view (Layer.new db.view) b
  let db' ← db.batchWrite l
  pure (db', u)

/-- UTXO part of `disconnect_transactions` – chainstateref/mod.rs 1293-1304 -/
def disconnectFromDB (db : DB OutPoint Coin) (b : Block) (u : List (List (Option Coin)) × Option (List Coin)) :
    Except Err (DB OutPoint Coin) := do
  let l ← disconnectBlock db.view (Layer.new db.view) b u
  db.batchWrite l

/-- connecting blocks one after another – chainstateref/mod.rs 1226-1262 (`reorganize`, connecting part) -/
def connectChain (db : DB OutPoint Coin) :
    List Block → Except Err (DB OutPoint Coin × List (List (List (Option Coin)) × Option (List Coin)))
  | [] => .ok (db, [])
  | b :: bs => do
    let (db1, u) ← connectToDB db b
    let (db2, us) ← connectChain db1 bs
    pure (db2, u :: us)

/-- disconnecting blocks, last first – chainstateref/mod.rs 1206-1223 (`disconnect_until`) -/
def disconnectChain (db : DB OutPoint Coin) :
    List (Block × (List (List (Option Coin)) × Option (List Coin))) → Except Err (DB OutPoint Coin)
  | [] => .ok db
  | (b, u) :: rest => do
    let db1 ← disconnectChain db rest
    disconnectFromDB db1 b u

end Verif.Utxo
