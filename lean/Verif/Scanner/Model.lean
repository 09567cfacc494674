import Verif.Script.Model
import Verif.BlockTree.Model

/-! Model of the scanner of the API server: the tables of unspent outputs and of address balances that the web API answers from,
how a block of the node changes them, and how they are wound back when the node changes its chain.

Sources: `api-server/scanner-lib/src/blockchain_state/mod.rs` ("scanner" below) and, for what a table operation does,
`api-server/api-server-common/src/storage/impls/in_memory/mod.rs` ("in_memory" below).

Left out: fees, tokens, pools, delegations, orders, statistics and lists of transactions (each has tables of its own; none of them is
read by the code below). -/

namespace Verif.Scanner

open Verif

/-- what ends the scanner: every failure below is a Rust panic (`expect`, `panic!`), and the process is built with `panic = "abort"` -/
inductive Abort where
  /-- "Balance should not overflow", on an addition (scanner 2095, 2116) -/
  | overflow
  /-- "Balance should not overflow", on a subtraction (scanner 2137-2142, 2163-2168) -/
  | underflow
  /-- `expect("must be present")` on `get_utxo` (scanner 918, 1348, 1404) -/
  | missing
  /-- `expect("no overflow")` in `UtxoLock::from_output_lock` (storage_api/mod.rs 352, 355) or a panic inside of the time-lock check -/
  | lock
  /-- `panic!("locked utxo not lock then transfer output")` (scanner 302) -/
  | kind
  /-- the median of no timestamps (median_time.rs 43) -/
  | median
deriving DecidableEq, Repr

/-! ## Blocks -/

/-- a destination, or the address string that encodes it (`Address::new` is an injective encoding and does not fail on a destination) -/
abbrev Addr := Nat

/-- `CoinOrTokenId` -/
inductive Cur where
  | coin
  | token (id : Nat)
deriving DecidableEq, Repr

/-- `OutputValue` -/
inductive Value where
  | coin (amount : Nat)
  | tokenV0
  | tokenV1 (id amount : Nat)
deriving DecidableEq, Repr

/-- `TxOutput`; of each kind what the tables below use.  `other` stands for the kinds that are never stored as an unspent output:
`Burn`, `DelegateStaking`, `DataDeposit`, `IssueFungibleToken`, `CreateOrder` and `CreateDelegationId`. -/
inductive Output where
  | transfer (v : Value) (d : Addr)
  | lockThenTransfer (v : Value) (d : Addr) (lock : Script.TimeLock)
  | issueNft (token : Nat) (d : Addr)
  | htlc (v : Value) (spend refund : Addr)
  | createPool (pool : Nat) (decommission : Addr)
  | produceBlock (d : Addr) (pool : Nat)
  | other
deriving DecidableEq, Repr

/-- `OutPointSourceId` -/
inductive Src where
  | tx (id : Nat)
  | reward (block : Nat)
deriving DecidableEq, Repr

/-- `UtxoOutPoint` -/
structure Op where
  src : Src
  idx : Nat
deriving DecidableEq, Repr

/-- a transaction: its inputs of the kind `TxInput::Utxo` (the other kinds do not touch the tables below) and its outputs -/
structure Tx where
  id : Nat
  ins : List Op
  outs : List Output
deriving DecidableEq, Repr

/-- a block: `kernel` are the kernel inputs of its proof-of-stake data, empty for the other kinds of consensus -/
structure Block where
  id : Nat
  time : Nat
  txs : List Tx
  reward : List Output
  kernel : List Op
deriving DecidableEq, Repr

/-- `Genesis` -/
structure Genesis where
  id : Nat
  time : Nat
  utxos : List Output
deriving DecidableEq, Repr

/-! ## Tables -/

/-- a table of values with the height at which each was written: `BTreeMap<K, BTreeMap<BlockHeight, V>>`.  It is kept as a list of
rows with at most one row per key and height.  The order of the rows is not that of the maps; the code only looks up the row of a key
with the greatest height, or goes through all keys, and there the order makes no difference to the tables.  A key whose inner map is
empty is not told apart from a missing key. -/
abbrev Table (K V : Type) := List (K × Nat × V)

section
variable {K V : Type} [DecidableEq K]

/-- `table.entry(key).or_default().insert(height, value)` -/
def Table.put (t : Table K V) (k : K) (h : Nat) (v : V) : Table K V :=
  (k, h, v) :: t.filter (fun r => ¬ (r.1 = k ∧ r.2.1 = h))

/-- the row of the key with the greatest height -/
def Table.lastRow : Table K V → K → Option (Nat × V)
  | [], _ => none
  | (k', h, v) :: t, k =>
    if k' = k then
      match Table.lastRow t k with
      | some (h', v') => if h ≤ h' then some (h', v') else some (h, v)
      | none => some (h, v)
    else Table.lastRow t k

/-- `by_height.values().last()` -/
def Table.last (t : Table K V) (k : K) : Option V := (Table.lastRow t k).map (·.2)

/-- `retain(|height, _| height <= block_height)` on all inner maps -/
def Table.cut (t : Table K V) (c : Nat) : Table K V := t.filter (fun r => r.2.1 ≤ c)

/-- `table.iter().map(|(key, by_height)| (key, by_height.values().last()))` -/
def Table.lasts [DecidableEq V] (t : Table K V) : List (K × V) :=
  t.filterMap (fun r => if Table.lastRow t r.1 = some r.2 then some (r.1, r.2.2) else none)

end

/-- `UtxoLock` – storage_api/mod.rs 336-340 -/
inductive UtxoLock where
  | untilHeight (h : Nat)
  | untilTime (t : Nat)
deriving DecidableEq, Repr

/-- the tables – in_memory 62-87 -/
structure Db where
  /-- `address_balance_table` -/
  bal : Table (Addr × Cur) Nat
  /-- `address_locked_balance_table` -/
  lbal : Table (Addr × Cur) Nat
  /-- `utxo_table`: the output and the height at which it was spent -/
  utxo : Table Op (Output × Option Nat)
  /-- `address_utxos` -/
  links : List (Addr × Op)
  /-- `locked_utxo_table` -/
  lutxo : Table Op (Output × UtxoLock)
  /-- `address_locked_utxos` -/
  llinks : List (Addr × Op)
  /-- `main_chain_blocks_table` with the timestamps of the blocks, from the highest block down -/
  main : List (Nat × Nat)
  /-- the timestamp of `genesis_block` -/
  genesisTime : Nat
deriving DecidableEq, Repr

/-- `ApiServerInMemoryStorage::new` – in_memory 90-115 -/
def Db.new (g : Genesis) : Db := ⟨[], [], [], [], [], [], [], g.time⟩

/-- `get_address_balance` – in_memory 121-133 -/
def Db.balance (db : Db) (a : Addr) (c : Cur) : Option Nat := db.bal.last (a, c)

/-- `get_address_locked_balance` – in_memory 168-182 -/
def Db.lockedBalance (db : Db) (a : Addr) (c : Cur) : Option Nat := db.lbal.last (a, c)

/-- `get_utxo` – in_memory 602-608 -/
def Db.getUtxo (db : Db) (o : Op) : Option (Output × Option Nat) := db.utxo.last o

/-- `get_address_available_utxos` – in_memory 610-632.  A link without an output would be a panic (`expect("must exist")`); here it is left
out of the answer. -/
def Db.availableUtxos (db : Db) (a : Addr) : List (Op × Output) :=
  (db.links.filter (·.1 = a)).filterMap fun r =>
    match db.getUtxo r.2 with
    | some (out, none) => some (r.2, out)
    | _ => none

/-- `get_address_all_utxos` – in_memory 634-663: the union of the available and the locked outputs -/
def Db.allUtxos (db : Db) (a : Addr) : List (Op × Output) :=
  ((db.links.filter (·.1 = a)).map (·.2) ∪ (db.llinks.filter (·.1 = a)).map (·.2)).filterMap fun o =>
    match db.getUtxo o with
    | some (out, none) => some (o, out)
    | some (_, some _) => none
    | none => (db.lutxo.last o).map fun x => (o, x.1)

/-- `self.address_utxos.entry(address).or_default().insert(outpoint)` – in_memory 1175-1178 -/
def addLink (l : List (Addr × Op)) (a : Addr) (o : Op) : List (Addr × Op) := if (a, o) ∈ l then l else l ++ [(a, o)]

/-- `set_utxo_at_height` – in_memory 1166-1181 -/
def Db.setUtxo (db : Db) (o : Op) (x : Output × Option Nat) (as : List Addr) (h : Nat) : Db :=
  { db with utxo := db.utxo.put o h x, links := as.foldl (fun l a => addLink l a o) db.links }

/-- `set_locked_utxo_at_height` – in_memory 1183-1201 -/
def Db.setLocked (db : Db) (o : Op) (x : Output × UtxoLock) (as : List Addr) (h : Nat) : Db :=
  { db with lutxo := db.lutxo.put o h x, llinks := as.foldl (fun l a => addLink l a o) db.llinks }

/-- an outpoint has a row in the table -/
def Table.hasKey {V : Type} (t : Table Op V) (o : Op) : Bool := t.any (fun r => decide (r.1 = o))

/-- `disconnect_tables_above_height` – scanner 334-368, with `del_address_balance_above_height`, `del_address_locked_balance_above_height`,
`del_utxo_above_height`, `del_locked_utxo_above_height` and `del_main_chain_blocks_above_height` of in_memory (855-892, 1102-1117,
1203-1237): the rows above the height
go; an outpoint that loses all of its rows also loses its links to addresses -/
def Db.disconnect (db : Db) (c : Nat) : Db :=
  { db with
    bal := db.bal.cut c
    lbal := db.lbal.cut c
    utxo := db.utxo.cut c
    links := db.links.filter fun r => ¬ (db.utxo.hasKey r.2 ∧ ¬ (db.utxo.cut c).hasKey r.2)
    lutxo := db.lutxo.cut c
    llinks := db.llinks.filter fun r => ¬ (db.lutxo.hasKey r.2 ∧ ¬ (db.lutxo.cut c).hasKey r.2)
    main := db.main.filter (·.1 ≤ c) }

/-- `set_mainchain_block` – in_memory 1025-1052: `main_chain_blocks_table.insert(height, ..)`, with the list kept from the highest block
down.  The case of one block stored at two heights (1043-1049) is left out, it needs a block id that comes twice. -/
def insertMain (h t : Nat) : List (Nat × Nat) → List (Nat × Nat)
  | [] => [(h, t)]
  | (h', t') :: l =>
    if h' < h then (h, t) :: (h', t') :: l
    else if h' = h then (h, t) :: l
    else (h', t') :: insertMain h t l

/-- `get_latest_blocktimestamps` – in_memory 349-364: the timestamps from the highest block down, then the genesis, at most 11 of them -/
def Db.latestTimes (db : Db) : List Nat := (db.main.map (·.2) ++ [db.genesisTime]).take 11

/-! ## Amounts -/

/-- `Amount` is a `u128` -/
def maxAmount : Nat := 2 ^ 128

/-- `increase_address_amount` – scanner 2082-2101 -/
def increase (db : Db) (a : Addr) (n : Nat) (c : Cur) (h : Nat) : Except Abort Db :=
  let new := (db.balance a c).getD 0 + n
  if new < maxAmount then .ok { db with bal := db.bal.put (a, c) h new } else .error .overflow

/-- `increase_locked_address_amount` – scanner 2103-2122 -/
def increaseLocked (db : Db) (a : Addr) (n : Nat) (c : Cur) (h : Nat) : Except Abort Db :=
  let new := (db.lockedBalance a c).getD 0 + n
  if new < maxAmount then .ok { db with lbal := db.lbal.put (a, c) h new } else .error .overflow

/-- `decrease_address_amount` – scanner 2124-2148 -/
def decrease (db : Db) (a : Addr) (n : Nat) (c : Cur) (h : Nat) : Except Abort Db :=
  let cur := (db.balance a c).getD 0
  if n ≤ cur then .ok { db with bal := db.bal.put (a, c) h (cur - n) } else .error .underflow

/-- `decrease_address_locked_amount` – scanner 2150-2174 -/
def decreaseLocked (db : Db) (a : Addr) (n : Nat) (c : Cur) (h : Nat) : Except Abort Db :=
  let cur := (db.lockedBalance a c).getD 0
  if n ≤ cur then .ok { db with lbal := db.lbal.put (a, c) h (cur - n) } else .error .underflow

/-- the amount and the currency of a value; `TokenV0` values are passed over everywhere -/
def Value.amount? : Value → Option (Nat × Cur)
  | .coin n => some (n, .coin)
  | .tokenV0 => none
  | .tokenV1 t n => some (n, .token t)

/-- one of the four changes of a balance, for an output value -/
def onValue (f : Db → Addr → Nat → Cur → Nat → Except Abort Db) (db : Db) (a : Addr) (v : Value) (h : Nat) : Except Abort Db :=
  match v.amount? with
  | some (n, c) => f db a n c h
  | none => .ok db

/-! ## A block -/

/-- `get_tx_output_destination` – scanner 2200-2215.  (`CreateDelegationId` has one too, but such an output is never stored.) -/
def destination : Output → Option Addr
  | .transfer _ d => some d
  | .lockThenTransfer _ d _ => some d
  | .issueNft _ d => some d
  | .htlc _ d _ => some d
  | .createPool _ d => some d
  | .produceBlock d _ => some d
  | .other => none

/-- `set_utxo` – scanner 2176-2198 -/
def setUtxo (db : Db) (o : Op) (out : Output) (h : Nat) (spent : Bool) : Db :=
  match destination out with
  | some a => db.setUtxo o (out, if spent then some h else none) [a] h
  | none => db

/-- `UtxoLock::from_output_lock` – storage_api/mod.rs 343-358 -/
def fromLock (lock : Script.TimeLock) (time height : Nat) : Except Abort UtxoLock :=
  match lock with
  | .untilTime t => .ok (.untilTime t)
  | .untilHeight h => .ok (.untilHeight h)
  | .forSeconds s => if time + s < 2 ^ 64 then .ok (.untilTime (time + s)) else .error .lock
  | .forBlockCount d => if height + d < 2 ^ 64 then .ok (.untilHeight (height + d)) else .error .lock

/-- the test in `get_locked_utxos_until_now` – in_memory 665-683 -/
def UtxoLock.endsNow (l : UtxoLock) (height : Nat) (before now : Nat) : Bool :=
  match l with
  | .untilHeight h => decide (h = height)
  | .untilTime t => decide (before < t) && decide (t ≤ now)

/-- the loop body of `update_locked_amounts_for_current_block` – scanner 257-313 -/
def unlockOne (h : Nat) (db : Db) (x : Op × Output × UtxoLock) : Except Abort Db :=
  match x.2.1 with
  | .lockThenTransfer v d lk => do
    let db ← onValue increase db d v h
    let db ← onValue decreaseLocked db d v h
    pure (db.setUtxo x.1 (.lockThenTransfer v d lk, none) [d] h)
  | _ => .error .kind

/-- `update_locked_amounts_for_current_block` – scanner 248-318, with `get_locked_utxos_until_now` -/
def unlock (db : Db) (h before now : Nat) : Except Abort Db :=
  (db.lutxo.lasts.filter (fun x => x.2.2.endsNow h before now)).foldlM (unlockOne h) db

/-- one input of `update_tables_from_transaction_inputs` – scanner 1345-1530: an output of a block reward is marked as spent and
nothing else (1360-1369); of an output of a transaction the balance is taken off too -/
def spendOne (h : Nat) (db : Db) (o : Op) : Except Abort Db :=
  match db.getUtxo o with
  | none => .error .missing
  | some (out, _) =>
    let db := setUtxo db o out h true
    match o.src with
    | .reward _ => .ok db
    | .tx _ =>
      match out with
      | .issueNft t d => decrease db d 1 (.token t) h
      | .lockThenTransfer v d _ => onValue decrease db d v h
      | .transfer v d => onValue decrease db d v h
      | _ => .ok db

/-- `check_timelock(..).is_ok()` on the output of a block, at that block – scanner 1868-1876 -/
def alreadyUnlocked (h time median : Nat) (lock : Script.TimeLock) : Except Abort Bool :=
  match Script.checkTimelock ⟨h, median, .ok h, .ok time⟩ lock with
  | .ok _ => .ok true
  | .error .panic => .error .lock
  | .error (.err _) => .ok false

/-- one output of `update_tables_from_transaction_outputs` – scanner 1580-2010 -/
def createOne (h time median : Nat) (db : Db) (x : Op × Output) : Except Abort Db :=
  match x.2 with
  | .transfer v d => do
    let db ← onValue increase db d v h
    pure (db.setUtxo x.1 (x.2, none) [d] h)
  | .lockThenTransfer v d lock => do
    let free ← alreadyUnlocked h time median lock
    if free then
      let db ← onValue increase db d v h
      pure (db.setUtxo x.1 (x.2, none) [d] h)
    else
      let db ← onValue increaseLocked db d v h
      let l ← fromLock lock time h
      pure (db.setLocked x.1 (x.2, l) [d] h)
  | .issueNft t d => do
    let db ← increase db d 1 (.token t) h
    pure (setUtxo db x.1 x.2 h false)
  | .htlc _ s r => .ok (db.setUtxo x.1 (x.2, none) [s, r] h)
  | .createPool _ _ => .ok (setUtxo db x.1 x.2 h false)
  | .produceBlock _ _ => .ok db
  | .other => .ok db

/-- the outpoints of the outputs of a source -/
def ops (s : Src) (outs : List Output) : List (Op × Output) := outs.zipIdx.map fun x => (⟨s, x.2⟩, x.1)

/-- `update_tables_from_transaction` – scanner 1012-1042: the inputs, then the outputs -/
def scanTx (h time median : Nat) (db : Db) (tx : Tx) : Except Abort Db := do
  let db ← tx.ins.foldlM (spendOne h) db
  (ops (.tx tx.id) tx.outs).foldlM (createOne h time median) db

/-- one output of `update_tables_from_block_reward` – scanner 400-548.  A locked output is treated like an unlocked one. -/
def rewardOne (h : Nat) (db : Db) (x : Op × Output) : Except Abort Db :=
  match x.2 with
  | .transfer v d => do
    let db ← onValue increase db d v h
    pure (setUtxo db x.1 x.2 h false)
  | .lockThenTransfer v d _ => do
    let db ← onValue increase db d v h
    pure (setUtxo db x.1 x.2 h false)
  | .createPool _ _ => .ok (setUtxo db x.1 x.2 h false)
  | .produceBlock _ _ => .ok (setUtxo db x.1 x.2 h false)
  | .issueNft _ _ | .htlc _ _ _ | .other => .ok db

/-- a kernel input of `update_tables_from_consensus_data` – scanner 914-930 -/
def kernelOne (h : Nat) (db : Db) (o : Op) : Except Abort Db :=
  match db.getUtxo o with
  | none => .error .missing
  | some (out, _) => .ok (setUtxo db o out h true)

/-- a failure of the median is a panic -/
def median (l : List Nat) : Except Abort Nat :=
  match BlockTree.medianOf l with
  | .ok m => .ok m
  | .error _ => .error .median

/-- one round of `scan_blocks` – scanner 131-239, with `previous_and_new_median_time` (320-332) and `update_tables_from_block`
(370-398) -/
def scanBlock (h : Nat) (db : Db) (b : Block) : Except Abort Db := do
  let times := db.latestTimes
  let before ← median (times.take 11)
  let now ← median ((b.time :: times).take 11)
  let db ← unlock db h before now
  let db ← b.txs.foldlM (scanTx h b.time now) db
  let db := { db with main := insertMain h b.time db.main }
  let db ← (ops (.reward b.id) b.reward).foldlM (rewardOne h) db
  b.kernel.foldlM (kernelOne h) db

/-- the loop of `scan_blocks`: the blocks get the heights `c+1`, `c+2`, … – scanner 131-133 -/
def connect (c : Nat) (db : Db) : List Block → Except Abort Db
  | [] => .ok db
  | b :: bs => do
    let db ← scanBlock (c + 1) db b
    connect (c + 1) db bs

/-- `scan_blocks` – scanner 117-243.  The changes are in one transaction of the database, committed at the end. -/
def scanBlocks (db : Db) (c : Nat) (bs : List Block) : Except Abort Db := connect c (db.disconnect c) bs

/-- `scan_genesis` on the new tables – scanner 87-105 -/
def scanGenesis (g : Genesis) : Except Abort Db :=
  (ops (.reward g.id) g.utxos).foldlM (rewardOne 0) (Db.new g)

end Verif.Scanner
