import Verif.Mempool.Deps

/-!
# Orphan transactions of the mempool and their work queue

Model of `mempool/src/pool/orphans/mod.rs`, `mempool/src/pool/work_queue/mod.rs` and of the parts of
`mempool/src/pool/mod.rs` that use them. A result `none` of type `Option` stands for a failed assertion, a failed
`expect` or an index out of bounds: the process ends (`panic = "abort"`).

The transaction pool itself is not part of this model (it is modelled in `Verif/Mempool`): what it answers to a
transaction is an argument. Random choices are arguments too.
-/

namespace Verif.TxOrphans
open Verif.Mempool (Dep Tx)

/-- `TxEntry<RemoteTxOrigin>` - mempool/src/pool/entry.rs 31-39, orphans/mod.rs 31: the transaction (with its creation
time `tx.time`) and the peer it came from. -/
structure Entry where
  tx : Tx
  peer : Nat
deriving DecidableEq, Repr

/-- Random numbers: `draw k n` is the `k`-th result of `random_range(0..n)`, `shuffle` is `SliceRandom::shuffle`. -/
structure Rnd where
  draw : Nat → Nat → Nat
  draw_lt : ∀ k n, 0 < n → draw k n < n
  shuffle : List Nat → List Nat
  shuffle_perm : ∀ l, (shuffle l).Perm l

/-! ## The orphan pool -/

/-- `ORPHAN_POOL_SIZE_HARD_LIMIT` - orphans/mod.rs 34 -/
def hardLimit : Nat := 50000

/-- `DEFAULT_ORPHAN_POOL_CAPACITY` - mempool/src/config.rs 120 -/
def capacity : Nat := 100

/-- `DEFAULT_ORPHAN_TX_EXPIRY_INTERVAL` - config.rs 122, in seconds. Simplified: the code counts nanoseconds. -/
def expiryInterval : Nat := 50

/-- `InternalIdIntType::MAX` - orphans/mod.rs 36, 45 -/
def maxIid : Nat := 2 ^ 16 - 1

/-- `u32::MAX`, the largest output index -/
def maxIndex : Nat := 2 ^ 32 - 1

/-- `InternalId::new` - orphans/mod.rs 47-53 -/
def newIid (n : Nat) : Option Nat := if n < hardLimit then some n else none

/-- A `BTreeSet` of pairs of a key and an internal id. -/
abbrev Index (K : Type) [LinearOrder K] := BMap (K ×ₗ Nat) Unit

/-- `TxOrphanPoolMaps` - orphans/mod.rs 62-75 -/
structure Maps where
  byId : BMap Nat Nat
  byTime : Index Nat
  byDeps : Index Dep
  byPeer : Index Nat

/-- `TxOrphanPoolMaps::new` - orphans/mod.rs 77-84 -/
def Maps.new : Maps := ⟨.empty, .empty, .empty, .empty⟩

/-- `BTreeSet::insert` followed by `assert!(inserted)` -/
def insertNew {K : Type} [LinearOrder K] (m : Index K) (k : K) (i : Nat) : Option (Index K) :=
  if m.contains (toLex (k, i)) then none else some (m.insert (toLex (k, i)) ())

/-- `BTreeSet::remove` followed by `assert!(removed)` -/
def removeOld {K : Type} [LinearOrder K] (m : Index K) (k : K) (i : Nat) : Option (Index K) :=
  if m.contains (toLex (k, i)) then some (m.erase (toLex (k, i))) else none

/-- `by_deps.extend(..)` - orphans/mod.rs 98 -/
def extendIdx {K : Type} [LinearOrder K] (m : Index K) (l : List K) (i : Nat) : Index K :=
  l.foldl (fun m k => m.insert (toLex (k, i)) ()) m

/-- `required_deps().for_each(|dep| by_deps.remove(..))` - orphans/mod.rs 110-112 -/
def retractIdx {K : Type} [LinearOrder K] (m : Index K) (l : List K) (i : Nat) : Index K :=
  l.foldl (fun m k => m.erase (toLex (k, i))) m

/-- `TxOrphanPoolMaps::insert` - orphans/mod.rs 86-97 -/
def Maps.insert (m : Maps) (e : Entry) (i : Nat) : Option Maps := do
  if m.byId.contains e.tx.id then none
  let byTime ← insertNew m.byTime e.tx.time i
  let byPeer ← insertNew m.byPeer e.peer i
  some ⟨m.byId.insert e.tx.id i, byTime, extendIdx m.byDeps e.tx.required i, byPeer⟩

/-- `TxOrphanPoolMaps::remove` - orphans/mod.rs 99-111 -/
def Maps.remove (m : Maps) (e : Entry) : Option Maps := do
  let i ← m.byId.get e.tx.id
  let byTime ← removeOld m.byTime e.tx.time i
  let byPeer ← removeOld m.byPeer e.peer i
  some ⟨m.byId.erase e.tx.id, byTime, retractIdx m.byDeps e.tx.required i, byPeer⟩

/-- `TxOrphanPool` - orphans/mod.rs 118-127. `transaction_count_limit` is a constant outside of tests. -/
structure Pool where
  txs : List Entry
  maps : Maps

/-- `TxOrphanPool::new` - orphans/mod.rs 128-137 -/
def Pool.new : Pool := ⟨[], .new⟩

/-- `contains` - orphans/mod.rs 147-149 -/
def Pool.contains (p : Pool) (id : Nat) : Bool := p.maps.byId.contains id

/-- `get` - orphans/mod.rs 143-145; the outer `none` is the failed `expect` of `get_at` -/
def Pool.get (p : Pool) (id : Nat) : Option (Option Entry) :=
  match p.maps.byId.get id with
  | none => some none
  | some i => (p.txs[i]?).map some

/-- The internal ids in `range((from, ZERO)..=(to, MAX))` of an index. -/
def Index.range {K : Type} [LinearOrder K] (m : Index K) (a b : K) : List Nat :=
  (m.entries.filter (fun x => decide (toLex (a, 0) ≤ x.1) && decide (x.1 ≤ toLex (b, maxIid)))).map
    (fun x => (ofLex x.1).2)

/-- `children_of` - orphans/mod.rs 156-183 -/
def Pool.childrenOf (p : Pool) (t : Tx) : Option (List Entry) :=
  (Index.range p.maps.byDeps (.txOutput t.id 0) (.txOutput t.id maxIndex) ++
    t.provided.flatMap (fun d => Index.range p.maps.byDeps d d)).mapM (fun i => p.txs[i]?)

/-- `Vec::swap_remove` of the standard library -/
def swapRemove (l : List Entry) (i : Nat) : Option (Entry × List Entry) :=
  match l[i]?, l.getLast? with
  | some e, some last => some (e, (l.set i last).dropLast)
  | _, _ => none

/-- The second half of `remove_at`: the entry moved into the gap - orphans/mod.rs 233-236 -/
def reindex (m : Maps) (l : List Entry) (i : Nat) : Option Maps :=
  match l[i]? with
  | none => some m
  | some moved => (m.remove moved).bind (fun m => m.insert moved i)

/-- `remove_at` - orphans/mod.rs 224-236 -/
def Pool.removeAt (p : Pool) (i : Nat) : Option (Entry × Pool) := do
  let (e, l) ← swapRemove p.txs i
  let m ← p.maps.remove e
  let m ← reindex m l i
  some (e, ⟨l, m⟩)

/-- the `while` loop of `remove_expired` - orphans/mod.rs 254-257; `fuel` bounds the number of rounds -/
def Pool.removeExpiredLoop (expiry : Nat) : Nat → Pool → Option Pool
  | 0, _ => none
  | fuel + 1, p =>
    match p.maps.byTime.entries.head? with
    | none => some p
    | some (k, _) =>
      if (ofLex k).1 < expiry then (p.removeAt (ofLex k).2).bind (fun r => removeExpiredLoop expiry fuel r.2)
      else some p

/-- `remove_expired` - orphans/mod.rs 246-261. `saturating_duration_sub` is the subtraction of naturals. -/
def Pool.removeExpired (p : Pool) (now : Nat) : Option Pool :=
  p.removeExpiredLoop (now - expiryInterval) (p.txs.length + 1)

/-- the `while` loop of `enforce_max_size` - orphans/mod.rs 271-274 -/
def Pool.enforceLoop (r : Rnd) (max : Nat) : Nat → Pool → Option Pool
  | 0, _ => none
  | fuel + 1, p =>
    if max < p.txs.length then do
      let i ← newIid (r.draw fuel p.txs.length)
      let (_, p) ← p.removeAt i
      enforceLoop r max fuel p
    else some p

/-- `enforce_max_size` - orphans/mod.rs 264-278 -/
def Pool.enforceMaxSize (p : Pool) (r : Rnd) (max : Nat) : Option Pool := p.enforceLoop r max (p.txs.length + 1)

/-- `Ok(TxStatus)` or the error `Full` of `insert` -/
inductive Status
  | inOrphanPool | inOrphanPoolDuplicate | full
deriving DecidableEq, Repr

/-- `insert` - orphans/mod.rs 191-206 -/
def Pool.insert (p : Pool) (r : Rnd) (e : Entry) : Option (Pool × Status) :=
  if p.contains e.tx.id then some (p, .inOrphanPoolDuplicate)
  else do
    let i ← newIid p.txs.length
    let m ← p.maps.insert e i
    let p ← Pool.enforceMaxSize ⟨p.txs ++ [e], m⟩ r hardLimit
    some (p, if p.contains e.tx.id then .inOrphanPool else .full)

/-- `enforce_limits` - orphans/mod.rs 239-243 -/
def Pool.enforceLimits (p : Pool) (r : Rnd) (now : Nat) : Option Pool := do
  let p ← p.removeExpired now
  p.enforceMaxSize r capacity

/-- `insert_and_enforce_limits` - orphans/mod.rs 209-221 -/
def Pool.insertAndEnforce (p : Pool) (r : Rnd) (e : Entry) (now : Nat) : Option (Pool × Status) := do
  let (p, s) ← p.insert r e
  if s = .full then some (p, s)
  else do
    let p ← p.enforceLimits r now
    some (p, if p.contains e.tx.id then s else .full)

/-- the loop of `remove_by_origin` with `pick_by_origin` - orphans/mod.rs 284-302 -/
def Pool.removeByPeerLoop (peer : Nat) : Nat → Pool → Option Pool
  | 0, _ => none
  | fuel + 1, p =>
    match (Index.range p.maps.byPeer peer peer).head? with
    | none => some p
    | some i => (p.removeAt i).bind (fun r => removeByPeerLoop peer fuel r.2)

/-- `remove_by_origin` - orphans/mod.rs 281-290 -/
def Pool.removeByPeer (p : Pool) (peer : Nat) : Option Pool := p.removeByPeerLoop peer (p.txs.length + 1)

/-- `PoolEntry::is_ready` - orphans/mod.rs 327-347 -/
def Pool.isReady (p : Pool) (e : Entry) : Bool :=
  !e.tx.required.any (fun d => match d with
    | .txOutput t _ => p.contains t
    | _ => false)

/-! ## The work queue -/

/-- `WorkQueue<Id<Transaction>>` - work_queue/mod.rs 112-123: the items of each peer (`PeerQueue`, a `BTreeSet`) and the
peers not served in this round yet (a vector; the next one is the last). -/
structure Queue where
  items : BMap Nat (BMap Nat Unit)
  sched : List Nat

/-- `WorkQueue::new` - work_queue/mod.rs 127-132 -/
def Queue.new : Queue := ⟨.empty, []⟩

/-- `WorkQueue::is_empty` - work_queue/mod.rs 135-137 -/
def Queue.isEmpty (q : Queue) : Bool := q.sched.isEmpty

/-- `scheduled.push(peer)` and the swap with a random element - work_queue/mod.rs 152-155 -/
def pushAt (l : List Nat) (pos peer : Nat) : List Nat :=
  match l[pos]? with
  | none => l ++ [peer]
  | some other => l.set pos peer ++ [other]

/-- `WorkQueue::insert` - work_queue/mod.rs 140-163 -/
def Queue.insert (q : Queue) (r : Rnd) (peer item : Nat) : Queue :=
  match q.items.get peer with
  | some s => ⟨q.items.insert peer (s.insert item ()), q.sched⟩
  | none => ⟨q.items.insert peer (BMap.empty.insert item ()), pushAt q.sched (r.draw 0 (q.sched.length + 1)) peer⟩

/-- `WorkQueue::remove_peer` - work_queue/mod.rs 205-207 -/
def Queue.removePeer (q : Queue) (peer : Nat) : Queue := ⟨q.items.erase peer, q.sched⟩

/-- `WorkQueue::advance_round` - work_queue/mod.rs 210-224 -/
def Queue.advance (q : Queue) (r : Rnd) : Queue :=
  if q.sched.isEmpty then
    let kept := q.items.filter (fun _ s => !s.entries.isEmpty)
    ⟨kept, r.shuffle (kept.entries.map Prod.fst)⟩
  else q

/-- `PeerQueue::pick` - work_queue/mod.rs 44-50: items are taken out in ascending order until the handler answers.
Returns the items that are left. -/
def pickItems {R : Type} (h : Nat → Option R) : List (Nat × Unit) → BMap Nat Unit → BMap Nat Unit × Option R
  | [], s => (s, none)
  | (w, _) :: t, s =>
    match h w with
    | some a => (s.erase w, some a)
    | none => pickItems h t (s.erase w)

/-- `WorkQueue::pick` - work_queue/mod.rs 180-202; `fuel` bounds the rounds of the loop. The result names the peer that was
served, if any, besides the answer of the handler. Simplified: the handler of the code takes an orphan out of the pool
before it answers, here that is done by the caller. -/
def Queue.pickLoop {R : Type} (r : Rnd) (h : Nat → Nat → Option R) : Nat → Queue → Option (Queue × Option Nat × Option R)
  | 0, _ => none
  | fuel + 1, q =>
    match q.sched.getLast? with
    | none => some (q, none, none)
    | some peer =>
      match q.items.get peer with
      | none => pickLoop r h fuel (Queue.advance ⟨q.items, q.sched.dropLast⟩ r)
      | some s =>
        if s.entries.isEmpty then none
        else
          let x := pickItems (h peer) s.entries s
          some (Queue.advance ⟨q.items.insert peer x.1, q.sched.dropLast⟩ r, some peer, x.2)

/-- `WorkQueue::pick` -/
def Queue.pick {R : Type} (q : Queue) (r : Rnd) (h : Nat → Nat → Option R) : Option (Queue × Option Nat × Option R) :=
  q.pickLoop r h (q.sched.length + 2)

/-! ## The mempool around them -/

/-- `MempoolState::AfterIbd` - mempool/src/pool/mod.rs 98-120, as far as it concerns orphans -/
structure State where
  orphans : Pool
  work : Queue

/-- a new mempool - pool/mod.rs 174-175 -/
def State.new : State := ⟨.new, .new⟩

/-- The errors of the transaction pool as `OrphanType::from_error` tells them apart - orphans/detect.rs 26-92:
`MissingOutputOrSpent` and `InputCheck(MissingUtxo)`; `NonceIsNotIncremental(_, expected, got)`; any other. -/
inductive Reject
  | missingUtxo
  | nonce (expected got : Nat)
  | other
deriving DecidableEq, Repr

/-- `OrphanType` - orphans/detect.rs 19-22 -/
inductive OrphanType
  | missingUtxo
  | nonceGap (gap : Nat)
deriving DecidableEq, Repr

/-- the gap that is checked; none for a missing output -/
def OrphanType.gap : OrphanType → Nat
  | .missingUtxo => 0
  | .nonceGap g => g

/-- `OrphanType::from_error` - orphans/detect.rs 26-92 -/
def orphanType : Reject → Option OrphanType
  | .missingUtxo => some .missingUtxo
  | .nonce expected got => if expected ≤ got then some (.nonceGap (got - expected)) else none
  | .other => none

/-- What the transaction pool does with a transaction - mempool/src/pool/tx_pool/mod.rs `add_transaction`: it is added, it is
there already, it is rejected (with `rbf` the answer of `orphan_rbf_checks`), or an error is returned before the outcome
is known. -/
inductive Outcome
  | added
  | duplicate
  | rejected (why : Reject) (rbf : Bool)
  | failed
deriving DecidableEq, Repr

/-- `MAX_ORPHAN_TX_SIZE`, `MAX_ORPHAN_ACCOUNT_GAP` - config.rs 124-126 -/
def maxOrphanSize : Nat := 20000
/-- see `maxOrphanSize` -/
def maxOrphanGap : Nat := 2

/-- `check_orphan_pool_policy` - pool/mod.rs 716-749; `origin` is `none` for a local transaction -/
def policy (t : Tx) (origin : Option Nat) (ty : OrphanType) (rbf : Bool) : Option Entry :=
  match origin with
  | none => none
  | some peer =>
    if t.size ≤ maxOrphanSize ∧ ty.gap ≤ maxOrphanGap ∧ rbf = true then
      some ⟨t, peer⟩
    else none

/-- Whether a rejected transaction is tried as an orphan: `from_error` and `check_orphan_pool_policy` of `try_add_orphan` -
pool/mod.rs 706-715 -/
def asOrphan (t : Tx) (origin : Option Nat) (why : Reject) (rbf : Bool) : Option Entry :=
  (orphanType why).bind (fun ty => policy t origin ty rbf)

/-- `enqueue_children` - pool/mod.rs 695-703; `rs n` are the random numbers for the `n`-th child -/
def enqueue (rs : Nat → Rnd) (q : Queue) : List Entry → Queue
  | [] => q
  | e :: t => enqueue (fun n => rs (n + 1)) (q.insert (rs 0) e.peer e.tx.id) t

/-- Random numbers for one call: for the orphan pool, for picking work and for the children. -/
structure Dice where
  pool : Rnd
  pick : Rnd
  children : Nat → Rnd

/-- `finalize_tx` - pool/mod.rs 620-692 (events left out), called by `add_transaction` - pool/mod.rs 328-349 -/
def State.finalize (s : State) (d : Dice) (now : Nat) (t : Tx) (origin : Option Nat) : Outcome → Option State
  | .added => (s.orphans.childrenOf t).map (fun l => ⟨s.orphans, enqueue d.children s.work l⟩)
  | .duplicate => some s
  | .rejected why rbf =>
    match asOrphan t origin why rbf with
    | none => some s
    | some e => (s.orphans.insertAndEnforce d.pool e now).map (fun r => ⟨r.1, s.work⟩)
  | .failed => some s

/-- `on_peer_disconnected` - pool/mod.rs 238-246 -/
def State.disconnect (s : State) (peer : Nat) : Option State :=
  (s.orphans.removeByPeer peer).map (fun p => ⟨p, s.work.removePeer peer⟩)

/-- The handler of `perform_work_unit` - pool/mod.rs 383-403: an orphan (by its position) that is ready or not; `none`
if it is not in the pool. An `expect` fails if the position does not exist: see `State.work`. -/
def State.look (p : Pool) (id : Nat) : Option (Nat × Bool) :=
  match p.maps.byId.get id with
  | none => none
  | some i =>
    match p.txs[i]? with
    | none => some (i, true)
    | some e => some (i, p.isReady e)

/-- The first half of `perform_work_unit` - pool/mod.rs 383-403: what is left of the state, and the orphan to process -/
def State.takeWork (s : State) (d : Dice) : Option (State × Option Entry) :=
  match s.work.pick d.pick (fun _ id => State.look s.orphans id) with
  | none => none
  | some (q, _, some (i, true)) => (s.orphans.removeAt i).map (fun r => (⟨r.2, q⟩, some r.1))
  | some (q, _, _) => some (⟨s.orphans, q⟩, none)

/-- `perform_work_unit` - pool/mod.rs 373-416. `answer` is what the transaction pool does with the transaction. -/
def State.workUnit (s : State) (d : Dice) (now : Nat) (answer : Entry → Outcome) : Option State :=
  match s.takeWork d with
  | none => none
  | some (s, none) => some s
  | some (s, some e) => s.finalize d now e.tx (some e.peer) (answer e)

/-- `has_work` - pool/mod.rs 318-323 -/
def State.hasWork (s : State) : Bool := !s.work.isEmpty

end Verif.TxOrphans
