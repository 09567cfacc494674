import Verif.Base.Amount
import Verif.Base.BMap

/-! Model of the address book of the peer-to-peer layer: the two tables of addresses, what is known about an address, bans, reserved
nodes, anchors and the part of it that is kept on disk.

Sources, under `p2p/src/peer_manager/peerdb`: `address_tables/table.rs` ("table"), `address_tables/mod.rs` ("tables"),
`address_data/mod.rs` ("data"), `mod.rs` ("peerdb"), `storage_load.rs`.

The model is of a release build: `debug_assert!` and `debug_panic_or_log!` do nothing.  The storage is assumed not to fail. -/

namespace Verif.PeerDb

open Verif

/-- `SocketAddress`, with its order -/
abbrev Addr := Nat

/-- what ends the node: a failed `assert!` or `expect`, an index out of range or an overflow -/
inductive Panic where
  /-- in a table: an index out of range, an assertion, an id that is not in the map, an overflow of an id -/
  | table
  /-- `expect("Unexpected time addition overflow")`, `expect("Overflow in PURGE_UNREACHABLE_TIME")` -/
  | time
  /-- a `u32` counter overflows -/
  | counter
  /-- `expect("reserved nodes must always be in the addresses map")` -/
  | reserved
deriving DecidableEq, Repr

/-! ## One table – table.rs -/

/-- the sizes of a table and its hash functions.  `calc_hash64` (salt.rs 42-46) with the salt of the table, applied to an address, to an
address group and a number, and to an address and a bucket, are three functions of which nothing is assumed.  `group` is
`AddressGroup::from_peer_address` (address_groups.rs 41-62), of which nothing is assumed either. -/
structure Hash where
  rows : Nat
  cols : Nat
  idMax : Nat
  addrHash : Addr → Nat
  groupHash : Nat → Nat → Nat
  posHash : Addr → Nat → Nat
  group : Addr → Nat

/-- `BUCKETS_PER_GROUP` – table 25 -/
def bucketsPerGroup : Nat := 8

/-- `bucket_idx` – table 76-85 -/
def Hash.row (c : Hash) (a : Addr) : Nat := c.groupHash (c.group a) (c.addrHash a % bucketsPerGroup) % c.rows

/-- `bucket_pos` – table 87-90 -/
def Hash.col (c : Hash) (a : Addr) : Nat := c.posHash a (c.row a) % c.cols

/-- `bucket_coords` – table 92-96, as an index into the array of `Array2d` (utils/src/array_2d.rs 52-60) -/
def Hash.slot (c : Hash) (a : Addr) : Nat := c.row a * c.cols + c.col a

/-- `Table` – table 29-46.  `EntryId` is `u32`. -/
structure Table where
  buckets : List Nat
  addrs : BMap Nat Addr
deriving DecidableEq

/-- `Table::new`, `new_generic` – table 49-65 (the assertion on the size is a hypothesis on the configuration) -/
def Table.new (c : Hash) : Table := ⟨List.replicate (c.rows * c.cols) c.idMax, BMap.empty⟩

/-- `self.buckets[bucket_idx][bucket_pos]` -/
def Table.id (c : Hash) (t : Table) (a : Addr) : Except Panic Nat := okOr t.buckets[c.slot a]? .table

/-- `entry` – table 98-105 -/
def Table.entry (c : Hash) (t : Table) (a : Addr) : Except Panic (Option Addr) := do
  let id ← t.id c a
  pure (t.addrs.get id)

/-- `next_id` – table 200-202 -/
def Table.nextId (t : Table) : Except Panic Nat :=
  match t.addrs.entries.getLast? with
  | none => .ok 0
  | some x => if x.1 + 1 < 2 ^ 32 then .ok (x.1 + 1) else .error .table

theorem zipIdx_sorted (l : List (Nat × Addr)) : (l.zipIdx.map fun x => (x.2, x.1.2)).Pairwise (fun a b => a.1 < b.1) := by
  rw [List.pairwise_map, List.pairwise_iff_getElem]
  intro i j hi hj hij
  simpa using hij

/-- the new map of `rebuild_ids`: the addresses numbered from 0 in the order of their old ids -/
def renumber (m : BMap Nat Addr) : BMap Nat Addr := ⟨m.entries.zipIdx.map fun x => (x.2, x.1.2), zipIdx_sorted _⟩

/-- `rebuild_ids` – table 204-224 -/
def Table.rebuildIds (c : Hash) (t : Table) : Except Panic Table := do
  let bs ← t.buckets.mapM fun id =>
    if id < c.idMax then okOr ((t.addrs.entries.map (·.1)).idxOf? id) .table else .ok id
  pure ⟨bs, renumber t.addrs⟩

/-- `allocate_id` – table 188-198 -/
def Table.allocateId (c : Hash) (t : Table) : Except Panic (Table × Nat) := do
  let n ← t.nextId
  if c.idMax ≤ n then
    let t ← t.rebuildIds c
    let n ← t.nextId
    ensure (n < c.idMax) .table
    pure (t, n)
  else pure (t, n)

/-- `get_or_create_entry` – table 110-118: with the id and the address that the returned reference refers to -/
def Table.getOrCreate (c : Hash) (t : Table) (a : Addr) : Except Panic (Table × Nat × Addr) := do
  let id ← t.id c a
  if c.idMax ≤ id then
    let (t, n) ← t.allocateId c
    pure (⟨t.buckets.set (c.slot a) n, t.addrs.insert n a⟩, n, a)
  else
    match t.addrs.get id with
    | some x => pure (t, id, x)
    | none => pure ({ t with addrs := t.addrs.insert id a }, id, a)

/-- `remove` – table 120-137 -/
def Table.remove (c : Hash) (t : Table) (a : Addr) : Except Panic Table := do
  let id ← t.id c a
  match t.addrs.get id with
  | none => if c.idMax ≤ id then .ok t else .error .table
  | some x => if x = a then .ok ⟨t.buckets.set (c.slot a) c.idMax, t.addrs.erase id⟩ else .ok t

/-- `replace` – table 140-153 -/
def Table.replace (c : Hash) (t : Table) (a : Addr) : Except Panic (Table × Option Addr) := do
  let (t, id, x) ← t.getOrCreate c a
  if x = a then pure (t, none) else pure ({ t with addrs := t.addrs.insert id a }, some x)

/-- `replace_if` – table 159-181 -/
def Table.replaceIf (c : Hash) (t : Table) (a : Addr) (can : Addr → Bool) : Except Panic (Table × Option Addr) := do
  let (t, id, x) ← t.getOrCreate c a
  if x = a then pure (t, none)
  else if can x then pure ({ t with addrs := t.addrs.insert id a }, some x)
  else pure (t, some a)

/-- `addr_iter` – table 254-256 -/
def Table.addrIter (t : Table) : List Addr := t.addrs.entries.map (·.2)

/-! ## Both tables – tables.rs -/

/-- the configuration: the hashes of the tables (the salt is kept on disk and does not change), the address that a ban is about
(`as_bannable`, the IP address), `discouragement_duration` -/
structure Cfg where
  newH : Hash
  triedH : Hash
  ip : Addr → Nat
  discourageTime : Nat

/-- `AddressTables` – tables 53-56 -/
structure Tables where
  new : Table
  tried : Table
deriving DecidableEq

/-- `move_to_tried` – tables 85-99: the address moved to "new", and the one discarded from there -/
def Tables.moveToTried (c : Cfg) (ts : Tables) (a : Addr) : Except Panic (Tables × Option (Addr × Option Addr)) := do
  let new ← ts.new.remove c.newH a
  let (tried, prev) ← ts.tried.replace c.triedH a
  match prev with
  | some p =>
    let (new, gone) ← new.replace c.newH p
    pure (⟨new, tried⟩, some (p, gone))
  | none => pure (⟨new, tried⟩, none)

/-- `move_to_new` – tables 104-122: `none` is `Cancelled`, `some prev` is `Succeeded` -/
def Tables.moveToNew (c : Cfg) (ts : Tables) (a : Addr) (can : Addr → Bool) : Except Panic (Tables × Option (Option Addr)) := do
  let tried ← ts.tried.remove c.triedH a
  let (new, gone) ← ts.new.replaceIf c.newH a can
  pure (⟨new, tried⟩, if gone = some a then none else some gone)

/-- `remove` – tables 146-149 -/
def Tables.remove (c : Cfg) (ts : Tables) (a : Addr) : Except Panic Tables := do
  let new ← ts.new.remove c.newH a
  let tried ← ts.tried.remove c.triedH a
  pure ⟨new, tried⟩

/-! ## What is known about an address – data.rs -/

/-- times and durations in nanoseconds -/
def second : Nat := 10 ^ 9

/-- a `Duration` is less than `2^64` seconds -/
def maxTime : Nat := 2 ^ 64 * second

/-- `OutboundPeerRole` – net/types.rs 91-97 -/
inductive Role where
  | fullRelay | blockRelay | reserved | manual | feeler
deriving DecidableEq, Repr

/-- `is_message_exchange_expected() && !is_manual()` – net/types.rs 106-118, data 281 -/
def Role.counts : Role → Bool
  | .fullRelay | .blockRelay | .reserved => true
  | .manual | .feeler => false

/-- `AddressState` – data 44-70 -/
inductive State where
  | connected (active : Bool) (role : Role)
  | disconnected (wasReachable : Bool) (fails next : Nat)
  | unreachable (eraseAfter : Nat)
deriving DecidableEq, Repr

/-- `AddressData` – data 84-92 -/
structure Data where
  state : State
  reserved : Bool
  /-- `connections_without_activity_count` -/
  idle : Nat
deriving DecidableEq, Repr

/-- `AddressData::new` – data 95-105 -/
def Data.new (wasReachable reserved : Bool) (now : Nat) : Data := ⟨.disconnected wasReachable 0 now, reserved, 0⟩

/-- `connect_now` – data 125-143 -/
def Data.connectNow (d : Data) (now : Nat) : Bool :=
  match d.state with
  | .connected _ _ => false
  | .disconnected _ _ next => decide (next ≤ now)
  | .unreachable _ => false

/-- `retain` – data 146-159 -/
def Data.retain (d : Data) (now : Nat) : Bool :=
  match d.state with
  | .connected _ _ => true
  | .disconnected _ _ _ => true
  | .unreachable e => decide (now < e)

/-- `is_unreachable` – data 165-167 -/
def Data.isUnreachable (d : Data) : Bool :=
  match d.state with
  | .unreachable _ => true
  | _ => false

/-- `PURGE_REACHABLE_FAIL_COUNT` – data 35-39 -/
def purgeFails : Nat := 3600 * 24 * 7 * 4 / 3600

/-- `next_connect_delay` – data 169-181; `2u32.saturating_pow` stays below `2^32` -/
def connectDelay (fails : Nat) (reserved : Bool) : Nat :=
  min (10 * min (2 ^ fails) (2 ^ 32 - 1)) (if reserved then 360 else 3600) * second

/-- `exponential_rand` in units of `2^-52` is below this (utils/src/exp_rand/mod.rs 21-33) -/
def randLimit : Nat := 37 * 2 ^ 52

/-- `next_connect_time` – data 183-198.  The random factor is a parameter, in units of `2^-52`; the rounding of `mul_f64` is left out. -/
def connectTime (now fails idle : Nat) (reserved : Bool) (rand : Nat) : Except Panic Nat :=
  let t := now + connectDelay (max fails idle) reserved * rand / 2 ^ 52
  if t < maxTime then .ok t else .error .time

/-- `AddressStateTransitionTo` – data 74-81 -/
inductive To where
  | connected (role : Role)
  | hadActivity
  | disconnected
  | failed
  | setReserved
  | unsetReserved
deriving DecidableEq, Repr

/-- a `u32` counter plus one -/
def inc (n : Nat) : Except Panic Nat := if n + 1 < 2 ^ 32 then .ok (n + 1) else .error .counter

/-- the count of connections without activity at the end of a connection – data 265-284 -/
def nextIdle (active : Bool) (role : Role) (idle : Nat) : Except Panic Nat :=
  if active then .ok 0 else if role.counts then inc idle else .ok idle

/-- `transition_to` – data 200-439 -/
def Data.to (d : Data) (tr : To) (now rand : Nat) : Except Panic Data :=
  match tr with
  | .connected role =>
    match d.state with
    | .connected _ _ => .ok d
    | .disconnected _ _ _ | .unreachable _ => .ok { d with state := .connected false role }
  | .hadActivity =>
    match d.state with
    | .connected _ role => .ok { d with state := .connected true role }
    | .disconnected _ _ _ | .unreachable _ => .ok d
  | .disconnected =>
    match d.state with
    | .connected active role => do
      let idle ← nextIdle active role d.idle
      let next ← connectTime now 0 idle d.reserved rand
      pure ⟨.disconnected true 0 next, d.reserved, idle⟩
    | .disconnected _ _ _ | .unreachable _ => .ok d
  | .failed =>
    match d.state with
    | .connected _ _ => .ok d
    | .disconnected was fails _ =>
      if d.reserved then do
        let f ← inc fails
        let next ← connectTime now f d.idle d.reserved rand
        pure { d with state := .disconnected was f next }
      else if was = false then
        if now + 3600 * second < maxTime then .ok { d with state := .unreachable (now + 3600 * second) } else .error .time
      else do
        let f ← inc fails
        if purgeFails ≤ f then pure { d with state := .unreachable now }
        else
          let next ← connectTime now f d.idle d.reserved rand
          pure { d with state := .disconnected was f next }
    | .unreachable _ => .ok d
  | .setReserved =>
    match d.state with
    | .connected _ _ => .ok { d with reserved := true }
    | .disconnected was fails _ => do
      let next ← connectTime now fails d.idle true rand
      pure ⟨.disconnected was fails next, true, d.idle⟩
    | .unreachable _ => do
      let next ← connectTime now 0 d.idle true rand
      pure ⟨.disconnected false 0 next, true, d.idle⟩
  | .unsetReserved => .ok { d with reserved := false }

/-! ## The address book – peerdb -/

/-- what is on disk – storage.rs; of a known address whether it is `Tried` -/
structure Store where
  known : BMap Addr Bool
  banned : BMap Nat Nat
  discouraged : BMap Nat Nat
  anchors : BMap Addr Unit
deriving DecidableEq

/-- `init_storage` – storage_load.rs 64-83 -/
def Store.init : Store := ⟨BMap.empty, BMap.empty, BMap.empty, BMap.empty⟩

/-- `PeerDb` – peerdb 63-96 -/
structure Book where
  addresses : BMap Addr Data
  reserved : BMap Addr Unit
  tables : Tables
  banned : BMap Nat Nat
  discouraged : BMap Nat Nat
  anchors : BMap Addr Unit
  store : Store
deriving DecidableEq

/-- loading of one known address – peerdb 136-163 -/
def loadOne (c : Cfg) (reserved : BMap Addr Unit) (now : Nat) (x : BMap Addr Data × Tables) (r : Addr × Bool) :
    Except Panic (BMap Addr Data × Tables) := do
  let ts ←
    if r.2 then do
      let y ← x.2.tried.replace c.triedH r.1
      pure { x.2 with tried := y.1 }
    else do
      let y ← x.2.new.replace c.newH r.1
      pure { x.2 with new := y.1 }
  pure (x.1.insert r.1 (Data.new r.2 (reserved.contains r.1) now), ts)

/-- one boot node – peerdb 165-176 -/
def bootOne (c : Cfg) (now : Nat) (x : BMap Addr Data × Tables) (a : Addr) : Except Panic (BMap Addr Data × Tables) :=
  if x.1.contains a then .ok x
  else do
    let y ← x.2.new.replace c.newH a
    pure (x.1.insert a (Data.new false false now), { x.2 with new := y.1 })

/-- one reserved node – peerdb 180-184 -/
def reservedOne (now : Nat) (m : BMap Addr Data) (a : Addr) : BMap Addr Data :=
  if m.contains a then m else m.insert a (Data.new false true now)

/-- a set of addresses -/
def setOf (l : List Addr) : BMap Addr Unit := BMap.ofList (l.map fun a => (a, ()))

/-- `PeerDb::new` – peerdb 98-198, with `load_storage_v3` – storage_load.rs 85-110 -/
def start (c : Cfg) (s : Store) (boot reserved : List Addr) (now : Nat) : Except Panic Book := do
  let res := setOf reserved
  let bootNodes := setOf (boot.filter fun a => ¬ res.contains a)
  let x ← s.known.entries.foldlM (loadOne c res now) (BMap.empty, ⟨Table.new c.newH, Table.new c.triedH⟩)
  let x ← (bootNodes.entries.map (·.1)).foldlM (bootOne c now) x
  let addresses := (res.entries.map (·.1)).foldl (reservedOne now) x.1
  pure ⟨addresses, res, x.2, s.banned, s.discouraged, s.anchors, s⟩

/-- `remove_from_addresses_if_some_non_reserved` – peerdb 513-522 -/
def Book.drop (b : Book) : Option Addr → Book
  | none => b
  | some a =>
    if b.reserved.contains a then b
    else { b with addresses := b.addresses.erase a, store := { b.store with known := b.store.known.erase a } }

/-- `change_address_state` – peerdb 524-550 -/
def Book.change (b : Book) (a : Addr) (tr : To) (now rand : Nat) : Except Panic Book := do
  let d := (b.addresses.get a).getD (Data.new false false now)
  let d ← d.to tr now rand
  pure { b with addresses := b.addresses.insert a d }

/-- `move_addr_to_tried` – peerdb 444-468 -/
def Book.moveToTried (c : Cfg) (b : Book) (a : Addr) : Except Panic Book := do
  let (ts, r) ← b.tables.moveToTried c a
  let known := b.store.known.insert a true
  match r with
  | none => pure { b with tables := ts, store := { b.store with known := known } }
  | some (p, gone) => pure (({ b with tables := ts, store := { b.store with known := known.insert p false } } : Book).drop gone)

/-- `can_discard_addr_in_new` – peerdb 489-510 -/
def Book.canDiscard (b : Book) (a : Addr) : Bool :=
  match b.addresses.get a with
  | some d => d.reserved || d.isUnreachable
  | none => true

/-- `peer_discovered` – peerdb 372-392, with `add_addr_to_new` – peerdb 470-487 -/
def Book.discovered (c : Cfg) (b : Book) (a : Addr) (now : Nat) : Except Panic Book :=
  if b.addresses.contains a then .ok b
  else do
    let (ts, r) ← b.tables.moveToNew c a b.canDiscard
    match r with
    | none => pure { b with tables := ts }
    | some prev =>
      let b := ({ b with tables := ts, store := { b.store with known := b.store.known.insert a false } } : Book).drop prev
      pure { b with addresses := b.addresses.insert a (Data.new false false now) }

/-- `outbound_peer_connected` – peerdb 410-422 -/
def Book.connected (c : Cfg) (b : Book) (a : Addr) (role : Role) (now rand : Nat) : Except Panic Book := do
  let b ← b.change a (.connected role) now rand
  b.moveToTried c a

/-- `remove_address` – peerdb 434-442 -/
def Book.removeAddress (c : Cfg) (b : Book) (a : Addr) : Except Panic Book := do
  let ts ← b.tables.remove c a
  pure { b with
    addresses := if b.reserved.contains a then b.addresses else b.addresses.erase a
    tables := ts
    store := { b.store with known := b.store.known.erase a } }

/-- `heartbeat` – peerdb 333-369 -/
def Book.heartbeat (c : Cfg) (b : Book) (now : Nat) : Except Panic Book := do
  let gone := (b.addresses.entries.filter fun r => ¬ r.2.retain now).map (·.1)
  let ts ← gone.foldlM (fun ts a => ts.remove c a) b.tables
  let ban := b.banned.filter fun _ till => decide (now < till)
  let disc := b.discouraged.filter fun _ till => decide (now < till)
  pure { b with
    addresses := b.addresses.filter fun _ d => d.retain now
    tables := ts
    banned := ban
    discouraged := disc
    store := { b.store with
      known := gone.foldl (fun m a => m.erase a) b.store.known
      banned := ((b.banned.entries.filter fun r => ¬ (now < r.2)).map (·.1)).foldl (fun m a => m.erase a) b.store.banned
      discouraged := ((b.discouraged.entries.filter fun r => ¬ (now < r.2)).map (·.1)).foldl (fun m a => m.erase a) b.store.discouraged } }

/-- `saturating_duration_add` – time.rs 97-101 -/
def satAdd (now d : Nat) : Nat := min (now + d) (maxTime - 1)

/-- `ban` – peerdb 580-589 -/
def Book.ban (b : Book) (i now dur : Nat) : Book :=
  { b with banned := b.banned.insert i (satAdd now dur), store := { b.store with banned := b.store.banned.insert i (satAdd now dur) } }

/-- `unban` – peerdb 591-596 -/
def Book.unban (b : Book) (i : Nat) : Book :=
  { b with banned := b.banned.erase i, store := { b.store with banned := b.store.banned.erase i } }

/-- `discourage` – peerdb 608-620 -/
def Book.discourage (c : Cfg) (b : Book) (i now : Nat) : Book :=
  { b with
    discouraged := b.discouraged.insert i (satAdd now c.discourageTime)
    store := { b.store with discouraged := b.store.discouraged.insert i (satAdd now c.discourageTime) } }

/-- `undiscourage` – peerdb 622-627 -/
def Book.undiscourage (b : Book) (i : Nat) : Book :=
  { b with discouraged := b.discouraged.erase i, store := { b.store with discouraged := b.store.discouraged.erase i } }

/-- `set_anchors` – peerdb 637-654 -/
def Book.setAnchors (b : Book) (l : List Addr) : Book :=
  let new := setOf l
  if b.anchors = new then b
  else
    let s := ((b.anchors.entries.map (·.1)).filter fun a => ¬ new.contains a).foldl (fun m a => m.erase a) b.store.anchors
    let s := ((new.entries.map (·.1)).filter fun a => ¬ b.anchors.contains a).foldl (fun m a => m.insert a ()) s
    { b with anchors := new, store := { b.store with anchors := s } }

/-- what happens to the address book – the public functions, and a restart of the node with lists of boot nodes and reserved nodes -/
inductive Event where
  | discovered (a : Addr)
  | failed (a : Addr)
  | connected (a : Addr) (role : Role)
  | disconnected (a : Addr)
  | hadActivity (a : Addr)
  | remove (a : Addr)
  | addReserved (a : Addr)
  | removeReserved (a : Addr)
  | ban (ip dur : Nat)
  | unban (ip : Nat)
  | discourage (ip : Nat)
  | undiscourage (ip : Nat)
  | setAnchors (l : List Addr)
  | heartbeat
  | restart (boot reserved : List Addr)
deriving DecidableEq

/-- the event, the time and the random number -/
structure Step where
  ev : Event
  now : Nat
  rand : Nat
deriving DecidableEq

/-- one event – peerdb 333-654 -/
def Book.step (c : Cfg) (b : Book) (s : Step) : Except Panic Book :=
  match s.ev with
  | .discovered a => b.discovered c a s.now
  | .failed a => b.change a .failed s.now s.rand
  | .connected a role => b.connected c a role s.now s.rand
  | .disconnected a => b.change a .disconnected s.now s.rand
  | .hadActivity a => b.change a .hadActivity s.now s.rand
  | .remove a => b.removeAddress c a
  | .addReserved a => do
    let b ← b.change a .setReserved s.now s.rand
    pure { b with reserved := b.reserved.insert a () }
  | .removeReserved a => do
    let b ← b.change a .unsetReserved s.now s.rand
    pure { b with reserved := b.reserved.erase a }
  | .ban i dur => .ok (b.ban i s.now dur)
  | .unban i => .ok (b.unban i)
  | .discourage i => .ok (b.discourage c i s.now)
  | .undiscourage i => .ok (b.undiscourage i)
  | .setAnchors l => .ok (b.setAnchors l)
  | .heartbeat => b.heartbeat c s.now
  | .restart boot reserved => start c b.store boot reserved s.now

/-- a node that starts with an empty disk, and what happens to it -/
def run (c : Cfg) (boot reserved : List Addr) (t0 : Nat) (steps : List Step) : Except Panic Book := do
  let b ← start c Store.init boot reserved t0
  steps.foldlM (Book.step c) b

/-! ## Selection -/

/-- `is_address_banned_or_discouraged` – peerdb 629-631 -/
def Book.isBad (c : Cfg) (b : Book) (a : Addr) : Bool := b.banned.contains (c.ip a) || b.discouraged.contains (c.ip a)

/-- the filter in `select_non_reserved_outbound_addresses` – peerdb 233-247 -/
def Book.eligible (c : Cfg) (b : Book) (groups : List Nat) (extra : Addr → Bool) (now : Nat) (a : Addr) : Bool :=
  match b.addresses.get a with
  | some d => d.connectNow now && !d.reserved && !groups.contains (c.newH.group a) && !b.isBad c a && extra a
  | none => false

/-- the loop – peerdb 264-286.  `coin i` is the random choice of round `i`; the number of rounds is at most the number of addresses. -/
def pick (c : Cfg) (count : Nat) (coin : Nat → Bool) : Nat → List Addr → List Addr → BMap Nat Addr → BMap Nat Addr
  | 0, _, _, m => m
  | n + 1, new, tried, m =>
    if m.size < count then
      match new, tried with
      | [], [] => m
      | a :: new, [] => pick c count coin n new [] (m.insert (c.newH.group a) a)
      | [], a :: tried => pick c count coin n [] tried (m.insert (c.newH.group a) a)
      | a :: new, a' :: tried =>
        if coin n then pick c count coin n new (a' :: tried) (m.insert (c.newH.group a) a)
        else pick c count coin n (a :: new) tried (m.insert (c.newH.group a') a')
    else m

/-- `select_non_reserved_outbound_addresses` – peerdb 220-289.  `sample` is the random choice of at most `count` of the addresses in a
random order (`sample(rng, count)` and `shuffle`). -/
def Book.select (c : Cfg) (b : Book) (groups : List Nat) (extra : Addr → Bool) (count now : Nat)
    (sample : List Addr → List Addr) (coin : Nat → Bool) : List Addr :=
  if count = 0 then []
  else
    let new := sample (b.tables.new.addrIter.filter (b.eligible c groups extra now))
    let tried := sample (b.tables.tried.addrIter.filter (b.eligible c groups extra now))
    (pick c count coin (new.length + tried.length) new tried BMap.empty).entries.map (·.2)

/-- `select_reserved_outbound_addresses` – peerdb 315-330 -/
def Book.selectReserved (b : Book) (extra : Addr → Bool) (now : Nat) : Except Panic (List Addr) := do
  let l ← b.reserved.entries.mapM fun r => do
    let d ← okOr (b.addresses.get r.1) .reserved
    pure (if d.connectNow now && extra r.1 then some r.1 else none)
  pure l.reduceOption

end Verif.PeerDb
