import Verif.Base.BMap
import Verif.Base.Amount
import Mathlib.Data.List.Sort

/-!
# The transactions a wallet account knows, and the outputs it shows as unspent

Model of `OutputCache` (wallet/src/account/output_cache/mod.rs) and of the functions of `Account` (wallet/src/account/mod.rs) that feed it: blocks that are scanned, reorganisations,
transactions from the mempool and of the user, abandoning, and loading from the database.

Ids are numbers; the id of a transaction and the id of a block (for its reward) share one range, as in `OutPointSourceId`.  Ids of delegations, tokens and orders are derived from the inputs of the
transaction that creates them (`make_delegation_id` and so on); here the output carries them.  Amounts play no role.  A destination is a number, 0 is `AnyoneCanSpend`.

The functions of the code change the cache in place and can fail half way; here a failure gives no cache.  The panics (`assert!`, `expect`) are errors too.
-/

namespace Verif.Cache
open Verif

/-- `TxState` (wallet/types/src/wallet_tx.rs 32-53) -/
inductive St
  | confirmed (height time idx : Nat)
  | inMempool (n : Nat)
  | conflicted (block : Nat)
  | inactive (n : Nat)
  | abandoned
  deriving DecidableEq, Repr

/-- `UtxoState`, `get_utxo_state` (wallet/types/src/utxo_types.rs 34-42, 59-67) -/
inductive Kind
  | confirmed | inMempool | conflicted | inactive | abandoned
  deriving DecidableEq, Repr

/-- `get_utxo_state` (utxo_types.rs 59-67) -/
def St.kind : St → Kind
  | .confirmed _ _ _ => .confirmed
  | .inMempool _ => .inMempool
  | .conflicted _ => .conflicted
  | .inactive _ => .inactive
  | .abandoned => .abandoned

/-- `UtxoOutPoint`: the source and the index of the output -/
abbrev OutPoint := Nat ×ₗ Nat

/-- commands for tokens: `AccountCommand` (common/src/chain/transaction/account_outpoint.rs); the new authority is a destination -/
inductive TokCmd
  | mint | unmint | lock | freeze | unfreeze | uri
  | authority (dest : Nat)
  deriving DecidableEq, Repr

/-- `OrderAccountCommandTag` -/
inductive OrdCmd
  | fill | freeze | conclude
  deriving DecidableEq, Repr

/-- `TxInput` -/
inductive Inp
  | utxo (o : OutPoint)
  | deleg (d nonce : Nat)
  | token (t nonce : Nat) (cmd : TokCmd)
  | orderV0 (o nonce : Nat) (conclude : Bool)
  | orderV1 (o : Nat) (cmd : OrdCmd)
  deriving DecidableEq

/-- what kind of output it is: `TxOutput`; `plain` stands for `Transfer`, `LockThenTransfer`, `Burn`, `DataDeposit`, `IssueNft` and `Htlc`.  `issue` has the id of the token for both ways to derive
it (`TokenIdGenerationVersion`), `createOrder` the tokens asked and given. -/
inductive OutKind
  | plain
  | createPool (p : Nat)
  | produceBlock (p : Nat)
  | delegate (d : Nat)
  | createDelegation (d : Nat)
  | issue (v0 v1 : Nat)
  | createOrder (o : Nat) (ask give : Option Nat)
  deriving DecidableEq, Repr

/-- `TxOutput`: the destinations that are written in it, in the order of `collect_output_destinations` (account/mod.rs 1946-1975; for a pool the decommission key and the staker, for an order the
conclude key, for a token the authority), the tokens it refers to (`get_referenced_token_ids_ignore_issuance`), a number for all the rest -/
structure Out where
  kind : OutKind
  dests : List Nat
  tokens : List Nat := []
  data : Nat := 0
  deriving DecidableEq, Repr

/-- `WalletTx`: a transaction, or a block with its kernel inputs and reward (`BlockData` – wallet_tx.rs 237-282; its state is `Confirmed(height, timestamp, 0)`) -/
structure WTx where
  id : Nat
  isBlock : Bool := false
  state : St
  inputs : List Inp
  outputs : List Out
  deriving DecidableEq

/-- `DelegationData` (output_cache/mod.rs 82-101) -/
structure Deleg where
  dest : Nat
  lastNonce : Option Nat := none
  lastParent : Option Nat := none
  notStaked : Bool := true
  deriving DecidableEq, Repr

/-- `PoolData` (104-131): only what is used here -/
structure Pool where
  utxo : OutPoint
  height : Nat
  time : Nat
  decommission : Nat
  deriving DecidableEq

/-- `TokenIssuanceData` (514-536) -/
structure Token where
  authority : Nat
  lastNonce : Option Nat := none
  lastParent : Option Nat := none
  unconfirmed : BMap Nat Unit := BMap.empty

/-- `OrderData` (538-574) -/
structure Order where
  conclude : Nat
  ask : Option Nat
  give : Option Nat
  time : Option Nat
  lastNonce : Option Nat := none
  lastParent : Option Nat := none
  isConcluded : Bool := false
  isFrozen : Bool := false

/-- `OutputCache` (output_cache/mod.rs 590-610) -/
structure Cache where
  txs : BMap Nat WTx := BMap.empty
  desc : BMap Nat (BMap Nat Unit) := BMap.empty
  consumed : BMap OutPoint St := BMap.empty
  pools : BMap Nat Pool := BMap.empty
  delegs : BMap Nat Deleg := BMap.empty
  tokens : BMap Nat Token := BMap.empty
  orders : BMap Nat Order := BMap.empty

/-- errors: `WalletError`, `OutputCacheInconsistencyError` (2150-2177); `panic` for the assertions -/
inductive Err
  | confirmedAmongUnconfirmed (id : Nat)
  | delegNonceOverflow | tokenNonceOverflow | orderNonceOverflow
  | delegNonce (d n : Nat) | tokenNonce (t n : Nat) | orderNonce (o n : Nat)
  | alreadyFrozen (o : Nat) | alreadyConcluded (o : Nat)
  | notConcluded (o : Nat) | notFrozen (o : Nat)
  | noPool (p : Nat)
  | cannotConflict (s : St) | noDescendant (id : Nat) | idOfBlock (id : Nat)
  | cannotChange (s : St) | notFound (id : Nat)
  | panic
  deriving DecidableEq, Repr

/-- the parameters: the keys of the account (`mine`: `is_destination_mine`, `watched`: what is only watched – `is_destination_mine_or_watched`; neither depends on how far the key chain has been
extended here), and the heights where token ids are derived in the new way -/
structure Cfg where
  mine : Nat → Bool
  watched : Nat → Bool
  v1At : Nat → Bool

/-- `get_block_info` (output_cache/mod.rs 1969-1977): height and time of the block of a confirmed transaction -/
def WTx.block (t : WTx) : Option (Nat × Nat) :=
  match t.state with
  | .confirmed h ts _ => some (h, ts)
  | _ => none

/-- whether a state is one of the four unconfirmed ones (1040-1046) -/
def St.isUnconfirmed : St → Bool
  | .confirmed _ _ _ => false
  | _ => true

/-- the entry of a transaction in the map of descendants gets one more (`descendants.insert`, where there is an entry) -/
def addDesc (desc : BMap Nat (BMap Nat Unit)) (parent child : Nat) : BMap Nat (BMap Nat Unit) :=
  match desc.get parent with
  | none => desc
  | some s => desc.insert parent (s.insert child ())

/-- the same, for the last transaction that changed an account, if there is one (1318-1325, 1352-1359, 1386-1393) -/
def addDescOpt (desc : BMap Nat (BMap Nat Unit)) (parent : Option Nat) (child : Nat) : BMap Nat (BMap Nat Unit) :=
  match parent with
  | none => desc
  | some p => addDesc desc p child

/-- the nonce that comes next: `last_nonce.map_or(Some(0), increment)` (1303-1306); nonces are 64-bit -/
def nextNonce : Option Nat → Option Nat
  | none => some 0
  | some n => if n + 1 < 2 ^ 64 then some (n + 1) else none

/-- `AccountNonce::decrement` (common/src/chain/transaction/account_nonce.rs 50-52) -/
def decNonce (n : Nat) : Option Nat := if n = 0 then none else some (n - 1)

/-- `update_delegation_state` (1296-1327) -/
def updateDeleg (c : Cache) (d : Nat) (data : Deleg) (nonce id : Nat) : Except Err Cache := do
  let next ← okOr (nextNonce data.lastNonce) Err.delegNonceOverflow
  ensure (nonce = next) (Err.delegNonce d nonce)
  pure { c with
    desc := addDescOpt c.desc data.lastParent id
    delegs := c.delegs.insert d { data with lastNonce := some nonce, lastParent := some id } }

/-- `update_token_issuance_state` (1330-1361): the changed data and the descendants -/
def updateToken (desc : BMap Nat (BMap Nat Unit)) (t : Nat) (data : Token) (nonce id : Nat) :
    Except Err (Token × BMap Nat (BMap Nat Unit)) := do
  let next ← okOr (nextNonce data.lastNonce) Err.tokenNonceOverflow
  ensure (nonce = next) (Err.tokenNonce t nonce)
  pure ({ data with lastNonce := some nonce, lastParent := some id }, addDescOpt desc data.lastParent id)

/-- the nonce of a command of version 0 for an order (1372-1384) -/
def orderNonce (o : Nat) (data : Order) : Option Nat → Except Err Order
  | none => .ok data
  | some n => do
    let next ← okOr (nextNonce data.lastNonce) Err.orderNonceOverflow
    ensure (n = next) (Err.orderNonce o n)
    pure { data with lastNonce := some n }

/-- the flags an order command sets (1396-1412) -/
def orderFlags (o : Nat) (data : Order) : OrdCmd → Except Err Order
  | .fill => .ok data
  | .freeze => if data.isFrozen then .error (.alreadyFrozen o) else .ok { data with isFrozen := true }
  | .conclude => if data.isConcluded then .error (.alreadyConcluded o) else .ok { data with isConcluded := true }

/-- `update_order_state` (1364-1415) -/
def updateOrder (c : Cache) (o : Nat) (data : Order) (cmd : OrdCmd) (nonce : Option Nat) (id : Nat) : Except Err Cache := do
  let data1 ← orderNonce o data nonce
  let data2 ← orderFlags o { data1 with lastParent := some id } cmd
  pure { c with
    desc := addDescOpt c.desc data.lastParent id
    orders := c.orders.insert o data2 }

/-- whether the transaction is among the unconfirmed ones of a token (1222-1226) -/
def noteUnconfirmed (data : Token) (unconf : Bool) (id : Nat) : Token :=
  if unconf then { data with unconfirmed := data.unconfirmed.insert id () } else { data with unconfirmed := data.unconfirmed.erase id }

/-- the effect of a token command on the data of a known token (1206-1228, 1229-1245) -/
def updateTokenCmd (desc : BMap Nat (BMap Nat Unit)) (t : Nat) (data : Token) (nonce : Nat) (cmd : TokCmd) (id : Nat)
    (unconf already : Bool) : Except Err (Token × BMap Nat (BMap Nat Unit)) :=
  if already then .ok (noteUnconfirmed data unconf id, desc)
  else do
    let (data1, desc1) ← updateToken desc t data nonce id
    let data2 := match cmd with
      | .authority a => { data1 with authority := a }
      | _ => data1
    pure (noteUnconfirmed data2 unconf id, desc1)

/-- the effect of a token command: also the first sight of a token, when its authority becomes the one of this account (1246-1251) -/
def tokenInput (c : Cache) (t nonce : Nat) (cmd : TokCmd) (id : Nat) (unconf already : Bool) : Except Err Cache :=
  match c.tokens.get t with
  | some data => do
    let (data', desc') ← updateTokenCmd c.desc t data nonce cmd id unconf already
    pure { c with tokens := c.tokens.insert t data', desc := desc' }
  | none =>
    match cmd with
    | .authority a => if unconf then .ok c
        else .ok { c with tokens := c.tokens.insert t { authority := a, lastNonce := some nonce } }
    | _ => .ok c

/-- one input of a new transaction (`update_inputs`, 1167-1293, the body of the loop) -/
def updateInput (id : Nat) (state : St) (unconf already : Bool) (c : Cache) : Inp → Except Err Cache
  | .utxo o => do
    let c := { c with consumed := c.consumed.insert o state }
    match c.desc.get (ofLex o).1 with
    | none => .ok c
    | some _ => do
      ensure (unconf = true) (Err.confirmedAmongUnconfirmed id)
      pure { c with desc := addDesc c.desc (ofLex o).1 id }
  | .deleg d nonce =>
    if already then .ok c
    else match c.delegs.get d with
      | none => .ok c
      | some data => updateDeleg c d data nonce id
  | .token t nonce cmd => tokenInput c t nonce cmd id unconf already
  | .orderV0 o nonce concl =>
    if already then .ok c
    else match c.orders.get o with
      | none => .ok c
      | some data => updateOrder c o data (if concl then .conclude else .fill) (some nonce) id
  | .orderV1 o cmd =>
    if already then .ok c
    else match c.orders.get o with
      | none => .ok c
      | some data => updateOrder c o data cmd none id

/-- one output of a new transaction (`update_outputs`, 1069-1163, the body of the loop); `best` is the height of the best block of the account -/
def updateOutput (cfg : Cfg) (best : Nat) (t : WTx) (already : Bool) (c : Cache) (io : Out × Nat) : Except Err Cache :=
  let o : OutPoint := toLex (t.id, io.2)
  match io.1.kind with
  | .plain => .ok c
  | .produceBlock p =>
    match c.pools.get p with
    | some data => .ok { c with pools := c.pools.insert p { data with utxo := o } }
    | none => .error (.noPool p)
  | .createPool p =>
    match t.block with
    | none => .ok c
    | some (h, ts) =>
      match c.pools.get p with
      | some data => .ok { c with pools := c.pools.insert p { data with utxo := o } }
      | none => .ok { c with pools := c.pools.insert p ⟨o, h, ts, io.1.dests.headD 0⟩ }
  | .delegate d =>
    match t.block with
    | none => .ok c
    | some _ =>
      match c.delegs.get d with
      | none => .ok c
      | some data => .ok { c with delegs := c.delegs.insert d { data with notStaked := false } }
  | .createDelegation d =>
    match t.block with
    | none => .ok c
    | some _ => .ok { c with delegs := c.delegs.insert d { dest := io.1.dests.headD 0 } }
  | .issue v0 v1 =>
    if already then .ok c
    else
      let height := match t.block with
        | some (h, _) => h
        | none => best + 1
      .ok { c with tokens := c.tokens.insert (if cfg.v1At height then v1 else v0) { authority := io.1.dests.headD 0 } }
  | .createOrder oid ask give =>
    .ok { c with orders := c.orders.insert oid { conclude := io.1.dests.headD 0, ask, give, time := t.block.map (·.2) } }

/-- whether a known transaction stays as it is: it is confirmed, or the state is of the same kind (1022-1031) -/
def sameOrConfirmed (old new : St) : Bool :=
  match old, new with
  | .confirmed _ _ _, _ => true
  | .inactive _, .inactive _ => true
  | .abandoned, .abandoned => true
  | .conflicted _, .conflicted _ => true
  | .inMempool _, .inMempool _ => true
  | _, _ => false

/-- whether the effects of a known transaction are already in the cache (1036-1039) -/
def St.present : St → Bool
  | .abandoned => false
  | .conflicted _ => false
  | _ => true

/-- the transaction gets an entry in the map of descendants if it is unconfirmed and loses it otherwise (1048-1052) -/
def enterDesc (desc : BMap Nat (BMap Nat Unit)) (id : Nat) (unconf : Bool) : BMap Nat (BMap Nat Unit) :=
  if unconf then
    match desc.get id with
    | some _ => desc
    | none => desc.insert id BMap.empty
  else desc.erase id

/-- the part of `add_tx` that changes the cache (1033-1065) -/
def addNew (cfg : Cfg) (best : Nat) (c : Cache) (t : WTx) (already : Bool) : Except Err Cache := do
  let unconf := t.state.isUnconfirmed
  let c1 := { c with desc := enterDesc c.desc t.id unconf }
  let c2 ← t.inputs.foldlM (updateInput t.id t.state unconf already) c1
  let c3 ← t.outputs.zipIdx.foldlM (updateOutput cfg best t already) c2
  pure { c3 with txs := c3.txs.insert t.id t }

/-- `add_tx` (1013-1066).  The result does not tell whether anything changed (`TxChanged`). -/
def addTx (cfg : Cfg) (best : Nat) (c : Cache) (t : WTx) : Except Err Cache :=
  match c.txs.get t.id with
  | none => addNew cfg best c t false
  | some e => if sameOrConfirmed e.state t.state then .ok c else addNew cfg best c t e.state.present

/-- `find_parent` (2007-2015) -/
def findParent (desc : BMap Nat (BMap Nat Unit)) (id : Nat) : Option Nat :=
  (desc.entries.find? fun e => e.2.contains id).map (·.1)

/-- the outputs with their outpoints -/
def WTx.outs (t : WTx) : List (OutPoint × Out) := t.outputs.zipIdx.map fun x => (toLex (t.id, x.2), x.1)

/-- `is_txo_for_pool_id` (666-682) -/
def isForPool (p : Nat) (o : Out) : Bool :=
  match o.kind with
  | .createPool q => q = p
  | .produceBlock q => q = p
  | _ => false

/-- `find_latest_utxo_for_pool` (684-697) -/
def latestForPool (c : Cache) (p : Nat) : Option OutPoint :=
  (((c.txs.entries.flatMap fun e => e.2.outs).filter fun x => !c.consumed.contains x.1).find? fun x => isForPool p x.2).map (·.1)

/-- what undoing an order command does to the flags (1714-1717, 1729-1739) -/
def unsetFlags (o : Nat) (data : Order) : OrdCmd → Except Err Order
  | .fill => .ok data
  | .freeze => if data.isFrozen then .ok { data with isFrozen := false } else .error (.notFrozen o)
  | .conclude => if data.isConcluded then .ok { data with isConcluded := false } else .error (.notConcluded o)

/-- one input of a transaction that is undone (`rollback_tx_data`, 1668-1744) -/
def rollbackInput (id : Nat) (c : Cache) : Inp → Except Err Cache
  | .utxo o => .ok { c with consumed := c.consumed.erase o }
  | .deleg d nonce =>
    match c.delegs.get d with
    | none => .ok c
    | some data => .ok { c with delegs := c.delegs.insert d { data with lastNonce := decNonce nonce, lastParent := findParent c.desc id } }
  | .token t nonce _ =>
    match c.tokens.get t with
    | none => .ok c
    | some data =>
      let data' : Token := { data with lastNonce := decNonce nonce, lastParent := findParent c.desc id, unconfirmed := data.unconfirmed.erase id }
      .ok { c with tokens := c.tokens.insert t data' }
  | .orderV0 o nonce concl =>
    match c.orders.get o with
    | none => .ok c
    | some data => do
      let data' ← unsetFlags o { data with lastNonce := decNonce nonce, lastParent := findParent c.desc id } (if concl then .conclude else .fill)
      pure { c with orders := c.orders.insert o data' }
  | .orderV1 o cmd =>
    match c.orders.get o with
    | none => .ok c
    | some data => do
      let data' ← unsetFlags o { data with lastParent := findParent c.desc id } cmd
      pure { c with orders := c.orders.insert o data' }

/-- one output of a transaction that is undone (`rollback_tx_data`, 1746-1782) -/
def rollbackOutput (cfg : Cfg) (t : WTx) (c : Cache) (o : Out) : Except Err Cache :=
  match o.kind with
  | .plain => .ok c
  | .delegate _ => .ok c
  | .createPool p => .ok { c with pools := c.pools.erase p }
  | .produceBlock p =>
    match c.pools.get p with
    | none => .ok c
    | some data =>
      match latestForPool c p with
      | none => .error .panic
      | some u => .ok { c with pools := c.pools.insert p { data with utxo := u } }
  | .createDelegation d => .ok { c with delegs := c.delegs.erase d }
  | .issue v0 v1 =>
    match t.block with
    | some (h, _) => .ok { c with tokens := c.tokens.erase (if cfg.v1At h then v1 else v0) }
    | none => .ok { c with tokens := (c.tokens.erase v0).erase v1 }
  | .createOrder oid _ _ => .ok { c with orders := c.orders.erase oid }

/-- `rollback_tx_data` (1659-1785) -/
def rollback (cfg : Cfg) (c : Cache) (t : WTx) : Except Err Cache := do
  let c1 ← t.inputs.reverse.foldlM (rollbackInput t.id) c
  t.outputs.reverse.foldlM (rollbackOutput cfg t) c1

/-- the part of `remove_confirmed_tx` for a known transaction (1422-1425) -/
def removeKnown (cfg : Cfg) (c : Cache) (id : Nat) : Except Err Cache :=
  match c.txs.get id with
  | none => .ok c
  | some t =>
    if t.state.isUnconfirmed then .error .panic
    else rollback cfg { c with txs := c.txs.erase id } t

/-- `remove_confirmed_tx` (1417-1436) -/
def removeConfirmed (cfg : Cfg) (c : Cache) (id : Nat) : Except Err Cache := do
  let c1 ← removeKnown cfg c id
  ensure (c1.desc.contains id = false) (Err.confirmedAmongUnconfirmed id)
  pure c1

/-- `TxState::reset_inmempool_to_inactive` (wallet_tx.rs 95-107) -/
def St.reset : St → St
  | .inMempool n => .inactive n
  | s => s

/-- `reset_inmempool_txs_to_inactive` (output_cache/mod.rs 1438-1446) -/
def resetMempool (c : Cache) : Cache :=
  { c with
    consumed := c.consumed.mapV fun _ s => s.reset
    txs := c.txs.mapV fun _ t => { t with state := t.state.reset } }

/-- the loop of `remove_from_unconfirmed_descendants` (1643-1652): the queue, the map, the transactions seen.  Every round takes one element off the queue; the elements come from the start and
from the sets of the map, so `removeDesc` gives enough rounds. -/
def walk : Nat → List Nat → BMap Nat (BMap Nat Unit) → List Nat → BMap Nat (BMap Nat Unit) × List Nat
  | 0, _, desc, seen => (desc, seen)
  | _ + 1, [], desc, seen => (desc, seen)
  | n + 1, x :: queue, desc, seen =>
    let seen' := if x ∈ seen then seen else seen ++ [x]
    match desc.get x with
    | none => walk n queue desc seen'
    | some s => walk n (queue ++ s.entries.map (·.1)) (desc.erase x) seen'

/-- the number of elements in all the sets -/
def edges (desc : BMap Nat (BMap Nat Unit)) : Nat := desc.sumV fun _ s => s.entries.length

/-- `remove_from_unconfirmed_descendants` (1635-1655) -/
def removeDesc (c : Cache) (id : Nat) : Cache × List Nat :=
  let r := walk (edges c.desc + 2) [id] c.desc []
  ({ c with desc := r.1 }, r.2)

/-- whether a transaction in this state is undone when it is abandoned; `none`: it can't be abandoned (1816-1828) -/
def St.abandonable : St → Option Bool
  | .inactive _ => some true
  | .conflicted _ => some false
  | _ => none

/-- one transaction is marked as abandoned (1807-1838); the second component has the transactions to undo -/
def markAbandoned (acc : Cache × List WTx) (id : Nat) : Except Err (Cache × List WTx) :=
  match acc.1.txs.get id with
  | none => .error (.notFound id)
  | some t =>
    if t.isBlock then .error (.notFound id)
    else match t.state.abandonable with
      | none => .error (.cannotChange t.state)
      | some undo =>
        let t' := { t with state := .abandoned }
        .ok ({ acc.1 with txs := acc.1.txs.insert id t' }, if undo then acc.2 ++ [t'] else acc.2)

/-- `abandon_transaction` without the first check (1804-1847) -/
def abandonAll (cfg : Cfg) (c : Cache) (id : Nat) : Except Err Cache := do
  let r := removeDesc c id
  let (c1, undo) ← r.2.foldlM markAbandoned (r.1, [])
  undo.reverse.foldlM (rollback cfg) c1

/-- `abandon_transaction` (1789-1848) -/
def abandon (cfg : Cfg) (c : Cache) (id : Nat) : Except Err Cache :=
  match c.txs.get id with
  | none => abandonAll cfg c id
  | some t =>
    match t.state.abandonable with
    | none => .error (.cannotChange t.state)
    | some _ => abandonAll cfg c id

/-- what a confirmed input rules out: `ConflictCheck` (786-850) -/
structure Check where
  frozen : Option Nat := none
  /-- the account (kind and id) and the nonce -/
  nonce : Option ((Nat × Nat) × Nat) := none
  order : Option (OrdCmd × Nat) := none
  deriving DecidableEq, Repr

/-- the account an input refers to, and the nonce: `AccountType`; 0 delegations, 1 tokens, 2 orders -/
def Inp.account : Inp → Option ((Nat × Nat) × Nat)
  | .utxo _ => none
  | .deleg d n => some ((0, d), n)
  | .token t n _ => some ((1, t), n)
  | .orderV0 o n _ => some ((2, o), n)
  | .orderV1 _ _ => none

/-- the checks for one input (793-849) -/
def Inp.check : Inp → Option Check
  | .utxo _ => none
  | .deleg d n => some { nonce := some ((0, d), n) }
  | .token t n .freeze => some { frozen := some t, nonce := some ((1, t), n) }
  | .token t n _ => some { nonce := some ((1, t), n) }
  | .orderV0 o n _ => some { nonce := some ((2, o), n) }
  | .orderV1 _ .fill => none
  | .orderV1 o cmd => some { order := some (cmd, o) }

/-- an order that asks for or gives the frozen token (968-974) -/
def orderUses (c : Cache) (tok o : Nat) : Bool :=
  match c.orders.get o with
  | none => false
  | some d => d.ask = some tok || d.give = some tok

/-- an input that needs the frozen token (976-1001); an outpoint whose index is out of range panics in the code, here it doesn't count (such a transaction is not valid) -/
def inputUses (c : Cache) (tok : Nat) : Inp → Bool
  | .utxo o =>
    match c.txs.get (ofLex o).1 with
    | none => false
    | some t =>
      match t.outputs[(ofLex o).2]? with
      | none => false
      | some out => decide (tok ∈ out.tokens)
  | .token _ _ .unfreeze => false
  | .token t _ _ => tok = t
  | .orderV0 o _ _ => orderUses c tok o
  | .orderV1 _ .freeze => false
  | .orderV1 o _ => orderUses c tok o
  | .deleg _ _ => false

/-- `violates_frozen_token` (962-1011) -/
def violatesFrozen (c : Cache) (t : WTx) (tok : Nat) : Bool :=
  t.inputs.any (inputUses c tok) || t.outputs.any fun o => decide (tok ∈ o.tokens)

/-- `uses_conflicting_nonce` (2097-2112) -/
def usesNonce (t : WTx) (acct : Nat × Nat) (nonce : Nat) : Bool :=
  t.inputs.any fun i => match i.account with
    | none => false
    | some (a, n) => decide (a = acct) && decide (n ≤ nonce)

/-- `uses_conflicting_order_command` (2114-2147) -/
def usesOrder (t : WTx) (cmd : OrdCmd) (o : Nat) : Bool :=
  t.inputs.any fun i => match i with
    | .orderV1 o' cmd' => decide (o' = o) && (match cmd with
        | .fill => false
        | .conclude => true
        | .freeze => decide (cmd' ≠ .conclude))
    | _ => false

/-- one unconfirmed transaction against one check (858-896) -/
def conflictsWith (c : Cache) (confirmed : Nat) (k : Check) (t : WTx) : Bool :=
  (match k.frozen with
    | none => false
    | some tok => violatesFrozen c t tok) ||
  (match k.nonce with
    | none => false
    | some (a, n) => decide (confirmed ≠ t.id) && usesNonce t a n) ||
  (match k.order with
    | none => false
    | some (cmd, o) => decide (confirmed ≠ t.id) && usesOrder t cmd o)

/-- the unconfirmed transactions in conflict with a confirmed one, in the order of their ids (`conflicting_txs`, 853-906); blocks are never there -/
def conflicting (c : Cache) (u : WTx) : List Nat :=
  let checks := u.inputs.filterMap Inp.check
  (c.desc.entries.map (·.1)).filter fun id =>
    match c.txs.get id with
    | none => false
    | some t => !t.isBlock && checks.any fun k => conflictsWith c u.id k t

/-- one transaction is marked as conflicted (922-950); the state: the cache, the transactions to undo, the ones processed -/
def markConflicted (block : Nat) (acc : Cache × List WTx × List Nat) (id : Nat) : Except Err (Cache × List WTx × List Nat) :=
  if id ∈ acc.2.2 then .ok acc
  else match acc.1.txs.get id with
    | none => .error (.noDescendant id)
    | some t =>
      if t.isBlock then .error (.idOfBlock id)
      else if t.state.isUnconfirmed && t.state.present then
        let t' := { t with state := .conflicted block }
        .ok ({ acc.1 with txs := acc.1.txs.insert id t' }, acc.2.1 ++ [t'], id :: acc.2.2)
      else .error (.cannotConflict t.state)

/-- one conflicting transaction with its descendants (916-956) -/
def conflictOne (cfg : Cfg) (block : Nat) (acc : Cache × List Nat) (id : Nat) : Except Err (Cache × List Nat) := do
  let r := removeDesc acc.1 id
  let (c1, undo, processed) ← r.2.reverse.foldlM (markConflicted block) (r.1, [], acc.2)
  let c2 ← undo.foldlM (rollback cfg) c1
  pure (c2, processed)

/-- `update_conflicting_txs` (781-960) -/
def updateConflicting (cfg : Cfg) (c : Cache) (u : WTx) (block : Nat) : Except Err Cache := do
  let r ← (conflicting c u).foldlM (conflictOne cfg block) (c, [])
  pure r.1

/-- `wallet_tx_order` (1909-1922) -/
def txOrder (x y : WTx) : Ordering :=
  match x.state, y.state with
  | .confirmed h1 _ i1, .confirmed h2 _ i2 => compareLex (compareOn Prod.fst) (compareOn Prod.snd) (h1, i1) (h2, i2)
  | .confirmed _ _ _, _ => .lt
  | _, .confirmed _ _ _ => .gt
  | .inMempool a, .inMempool b => compare a b
  | .inMempool a, .inactive b => compare a b
  | .inactive a, .inactive b => compare a b
  | .inactive a, .inMempool b => compare a b
  | _, _ => .eq

/-- the stored transactions, sorted (633): a stable sort.  The order is not transitive – see `Props` – so what `sort_by` of the code does can differ if there are abandoned or conflicted ones. -/
def sortTxs (l : List WTx) : List WTx := l.insertionSort fun x y => txOrder x y ≠ .gt

/-- the loop of `OutputCache::new` (634-636) -/
def load (cfg : Cfg) (best : Nat) (l : List WTx) : Except Err Cache := l.foldlM (addTx cfg best) {}

/-- `OutputCache::new` (625-637) -/
def Cache.new (cfg : Cfg) (best : Nat) (stored : List WTx) : Except Err Cache := load cfg best (sortTxs stored)

/-- `is_consumed` (1448-1452); `states` stands for the bit set `UtxoStates` -/
def isConsumed (c : Cache) (states : Kind → Bool) (o : OutPoint) : Bool :=
  match c.consumed.get o with
  | none => false
  | some s => states s.kind

/-- `utxos` (1525-1558): the outpoints with their outputs.  `keep` stands for the lock state, the filter for tokens of version 0 and the filter of the caller, which depend on the output, its
outpoint and the block it is in. -/
def utxos (c : Cache) (states : Kind → Bool) (keep : Option (Nat × Nat) → OutPoint × Out → Bool) : List (OutPoint × Out) :=
  (c.txs.entries.filter fun e => states e.2.state.kind).flatMap fun e =>
    e.2.outs.filter fun x => !isConsumed c states x.1 && keep e.2.block x

/-- `get_txo` (653-657) -/
def getTxo (c : Cache) (o : OutPoint) : Option Out :=
  match c.txs.get (ofLex o).1 with
  | none => none
  | some t => t.outputs[(ofLex o).2]?

/-- `collect_output_destinations` (account/mod.rs 1946-1975): the destinations of the output and those known of its pool or delegation -/
def destsOf (c : Cache) (o : Out) : List Nat :=
  o.dests ++ match o.kind with
    | .produceBlock p => ((c.pools.get p).map (·.decommission)).toList
    | .delegate d => ((c.delegs.get d).map (·.dest)).toList
    | _ => []

/-- `mark_output_as_seen` (account/mod.rs 2045-2077): the destinations are looked at until one is of this account, or anyone's -/
def seen (cfg : Cfg) : List Nat → Bool
  | [] => false
  | d :: ds => if d = 0 then false else if cfg.mine d || cfg.watched d then true else seen cfg ds

/-- `is_mine_or_watched` (1986-1990) -/
def mineOrWatched (cfg : Cfg) (c : Cache) (o : Out) : Bool := (destsOf c o).any fun d => cfg.mine d || cfg.watched d

/-- `find_delegation`, `find_token`, `find_order` (918-943) -/
def ownDeleg (cfg : Cfg) (c : Cache) (d : Nat) : Bool := (c.delegs.get d).any fun x => cfg.mine x.dest
/-- `find_token` (925-930) -/
def ownToken (cfg : Cfg) (c : Cache) (t : Nat) : Bool := (c.tokens.get t).any fun x => cfg.mine x.authority
/-- `find_order` (938-943) -/
def ownOrder (cfg : Cfg) (c : Cache) (o : Nat) : Bool := (c.orders.get o).any fun x => cfg.mine x.conclude

/-- whether an input concerns this account (account/mod.rs 2234-2267) -/
def relevantInput (cfg : Cfg) (c : Cache) : Inp → Bool
  | .utxo o => (getTxo c o).any (mineOrWatched cfg c)
  | .deleg d _ => ownDeleg cfg c d
  | .token t _ (.authority a) => ownToken cfg c t || (cfg.mine a || cfg.watched a)
  | .token t _ _ => ownToken cfg c t
  | .orderV0 o _ _ => ownOrder cfg c o
  | .orderV1 o _ => ownOrder cfg c o

/-- whether a transaction concerns this account (2234-2269) -/
def relevant (cfg : Cfg) (c : Cache) (t : WTx) : Bool :=
  t.inputs.any (relevantInput cfg c) || t.outputs.any fun o => seen cfg (destsOf c o)

/-- `add_wallet_tx_if_relevant` (2228-2285).  The database gets every change; what it holds is `txs`. -/
def addIfRelevant (cfg : Cfg) (best : Nat) (c : Cache) (t : WTx) : Except Err Cache :=
  if relevant cfg c t then addTx cfg best c t else .ok c

/-- a transaction of a scanned block, or the block itself with its reward (`scan_new_blocks`, 2326-2354): for a transaction conflicts are looked for first -/
def connect (cfg : Cfg) (best : Nat) (c : Cache) (t : WTx) (block : Nat) : Except Err Cache :=
  if t.isBlock then addIfRelevant cfg best c t
  else do
    let c1 ← updateConflicting cfg c t block
    addIfRelevant cfg best c1 t

/-- the height and index of a confirmed transaction above the common height (`reset_to_height`, 2197-2211) -/
def above (common : Nat) (t : WTx) : Option (Nat × Nat) :=
  match t.state with
  | .confirmed h _ i => if h > common then some (h, i) else none
  | _ => none

/-- the confirmed transactions above the common height, the latest first (2197-2214) -/
def revoked (c : Cache) (common : Nat) : List Nat :=
  ((c.txs.entries.filterMap fun e => (above common e.2).map fun k => (e.1, k)).insertionSort
    fun x y => y.2.1 < x.2.1 ∨ (y.2.1 = x.2.1 ∧ y.2.2 ≤ x.2.2)).map (·.1)

/-- `reset_to_height` (2191-2224) -/
def resetTo (cfg : Cfg) (c : Cache) (common : Nat) : Except Err Cache :=
  (revoked c common).foldlM (removeConfirmed cfg) c

/-- the account is loaded from the database (`load_from_database`, 176-200; wallet/mod.rs 1001-1008): `l` are the stored transactions in the order they are added -/
def reload (cfg : Cfg) (best : Nat) (l : List WTx) : Except Err Cache := do
  let c ← load cfg best l
  pure (resetMempool c)

end Verif.Cache
