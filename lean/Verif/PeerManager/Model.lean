import Verif.PeerDb.Model

/-! Model of the peer manager: which connections it accepts, makes, and ends.

Sources, under `p2p/src/peer_manager`: `mod.rs` ("pm"), `peers_eviction/mod.rs` ("ev"), `config.rs`.  The address book is that of
`Verif.PeerDb`.

Not modelled: the exchange of addresses and pings and the queries of DNS seeds, but for their effects on the address book and on the
attributes by which peers are evicted; failures of the calls to the networking backend.  The main loop is left out: its events, and the
heartbeats between them, come in any order. -/

namespace Verif.PeerManager

open Verif Verif.PeerDb

/-- `PeerRole` – net/types.rs 53-60: `none` is `Inbound` -/
abbrev PeerRole := Option Role

/-- `PeerManagerConfig` – config.rs 55-133, `BanConfig` and the list of whitelisted addresses; `port` is the port of a socket address, its IP
address being `db.ip`, and `groupKey` the keyed hash of an address group (ev 74-88, `AddressGroup` being `db.newH.group`) -/
structure Cfg where
  db : PeerDb.Cfg
  port : Addr → Nat
  groupKey : Nat → Nat
  maxInbound : Nat
  keepGroup : Nat
  keepPing : Nat
  keepBlocks : Nat
  keepTxs : Nat
  fullCount : Nat
  fullExtra : Nat
  blockCount : Nat
  blockExtra : Nat
  fullAge : Nat
  blockAge : Nat
  staleDiff : Nat
  feelers : Bool
  sameIp : Bool
  whitelist : List Nat
  threshold : Nat

/-- `AddressGroup::from_peer_address` -/
def Cfg.group (c : Cfg) (a : Addr) : Nat := c.db.newH.group a

/-- `total_preserved_inbound_count` – config.rs 136-141 -/
def Cfg.keepTotal (c : Cfg) : Nat := c.keepGroup + c.keepPing + c.keepBlocks + c.keepTxs

/-! ## Eviction – ev -/

/-- `EvictionCandidate` – ev 48-75 -/
structure Cand where
  id : Nat
  age : Nat
  group : Nat
  ping : Int
  lastBlock : Option Nat
  lastTx : Option Nat
  expecting : Option Nat
  bad : Bool
deriving DecidableEq, Repr

/-- the order of `Option<Time>`: `None` is the least -/
def timeKey : Option Nat → Int
  | none => -1
  | some t => t

/-- what is random in one event: the samples and coins of the two selections of addresses, the choice of an address for a feeler, of a bad peer,
the order of peers with equal keys in `sort_unstable_by_key`, the time of the next feeler, and the random number for each address -/
structure Rand where
  sample : Bool → Nat → List Addr → List Addr
  coin : Bool → Nat → Bool
  chooseAddr : List Addr → Option Addr
  choose : List Cand → Option Cand
  sort : (Cand → Int) → List Cand → List Cand
  feeler : Nat
  rand : Addr → Nat

/-- sorting, then cutting off the last `n` – `filter_address_group`, `filter_fast_ping`, `filter_by_last_tip_block_time`,
`filter_by_last_transaction_time` – ev 123-164 -/
def keep (r : Rand) (key : Cand → Int) (n : Nat) (l : List Cand) : List Cand := (r.sort key l).take (l.length - n)

/-- `max_by_key`: the last of those with the greatest key -/
def maxBy {A : Type} (key : A → Nat) : List A → Option A
  | [] => none
  | a :: l => match maxBy key l with
    | none => some a
    | some b => if key a ≤ key b then some b else some a

/-- `min_by`: the first of those with the least key -/
def minBy {A : Type} (key : A → Int) : List A → Option A
  | [] => none
  | a :: l => match minBy key l with
    | none => some a
    | some b => if key a ≤ key b then some a else some b

/-- the number of candidates of each group -/
def groupCounts (l : List Cand) : BMap Nat Nat := l.foldl (fun m c => m.insert c.group ((m.get c.group).getD 0 + 1)) BMap.empty

/-- `find_group_most_connections` – ev 166-188 -/
def findGroup (l : List Cand) : Option Nat :=
  match maxBy (fun x => x.2) (groupCounts l).entries with
  | none => none
  | some g => (maxBy (fun c => c.id) (l.filter fun c => c.group = g.1)).map fun c => c.id

/-- `select_for_eviction_inbound` – ev 196-228 -/
def selectInbound (c : Cfg) (r : Rand) (l : List Cand) : Option Nat :=
  if l.length ≤ c.keepTotal then none
  else match r.choose (l.filter fun x => x.bad) with
    | some x => some x.id
    | none =>
      let l := keep r (fun x => x.group) c.keepGroup l
      let l := keep r (fun x => -x.ping) c.keepPing l
      let l := keep r (fun x => timeKey x.lastBlock) c.keepBlocks l
      let l := keep r (fun x => timeKey x.lastTx) c.keepTxs l
      findGroup l

/-- `BLOCK_EXPECTATION_MAX_DURATION` – ev 270 -/
def expectationMax : Nat := 5 * second

/-- `effective_last_tip_block_time` – ev 281-298 (the time added does not overflow) -/
def tipTime (now : Nat) (x : Cand) : Option Nat :=
  match x.expecting with
  | some t => if now ≤ t + expectationMax then some now else x.lastBlock
  | none => x.lastBlock

/-- `select_for_eviction_outbound` – ev 301-347; its sort by age is stable, which is not used here -/
def selectOutbound (r : Rand) (minAge maxCount now : Nat) (l : List Cand) : Option Nat :=
  if l.length ≤ maxCount then none
  else match r.choose (l.filter fun x => x.bad) with
    | some x => some x.id
    | none =>
      let l := l.filter fun x => minAge ≤ x.age
      if l.length ≤ maxCount then none
      else
        let l := r.sort (fun x => x.age) l
        match l.find? (fun x => (tipTime now x).isNone) with
        | some x => some x.id
        | none => (minBy (fun x => timeKey (tipTime now x)) l).map fun x => x.id

/-! ## The peer manager – pm -/

/-- `PeerContext` – peer_context.rs: what matters here -/
structure Ctx where
  addr : Addr
  role : PeerRole
  score : Nat
  created : Nat
  ping : Option Nat
  lastBlock : Option Nat
  lastTx : Option Nat
  expecting : Option Nat
deriving DecidableEq, Repr

/-- `PeerManager` – pm 160-230: the peers, those that are being disconnected (with whether their address is to be removed), the addresses being
dialled, the time of the next feeler and of the last change of the tip -/
structure State where
  book : Book
  peers : BMap Nat Ctx
  closing : BMap Nat Bool
  dialing : BMap Addr Role
  on : Bool
  nextFeeler : Nat
  lastTip : Nat
deriving DecidableEq

/-- what ends the node -/
inductive Fault where
  | book (p : Panic)
  /-- `expect("the address must be present in pending_outbound_connects …")` -/
  | notDialing
  /-- `assert!(old_value.is_none())` -/
  | twice
deriving DecidableEq

/-- one call of the address book -/
def State.db (c : Cfg) (s : State) (e : PeerDb.Event) (now rand : Nat) : Except Fault State :=
  match s.book.step c.db ⟨e, now, rand⟩ with
  | .ok b => .ok { s with book := b }
  | .error p => .error (.book p)

/-- `peer_addresses_iter` – pm 1370-1378: the addresses and roles of the peers and of those being dialled -/
def State.conns (s : State) : List (Addr × PeerRole) :=
  s.peers.entries.map (fun p => (p.2.addr, p.2.role)) ++ s.dialing.entries.map (fun p => (p.1, some p.2))

/-- `may_allow_outbound_connection_to_existing_ip` – pm 2099-2130 -/
def Cfg.mayAllow (c : Cfg) (oldPort : Nat) (oldRole : PeerRole) (newPort : Nat) (newRole : Role) : Bool :=
  if oldPort = newPort then false
  else if c.sameIp then true
  else if oldRole.isSome then true
  else decide (newRole = .manual)

/-- `maybe_reject_because_already_connected` – pm 2017-2063: whether there is no conflicting connection -/
def State.noConflict (c : Cfg) (s : State) (a : Addr) (role : PeerRole) : Bool :=
  match role with
  | none | some .feeler => true
  | some r => s.conns.all fun x => !decide (c.db.ip x.1 = c.db.ip a) || c.mayAllow (c.port x.1) x.2 (c.port a) r

/-- `try_connect` – pm 684-722 -/
def State.mayDial (c : Cfg) (s : State) (a : Addr) (role : Role) : Bool :=
  s.on && !s.dialing.contains a && s.noConflict c a (some role) &&
    (!s.book.banned.contains (c.db.ip a) || s.book.reserved.contains a) &&
    (!s.book.discouraged.contains (c.db.ip a) || s.book.reserved.contains a)

/-- `connect` – pm 725-767 -/
def State.connect (c : Cfg) (s : State) (a : Addr) (role : Role) : Except Fault State :=
  if s.mayDial c a role then
    if s.dialing.contains a then .error .twice else .ok { s with dialing := s.dialing.insert a role }
  else .ok s

/-- `disconnect`, `try_disconnect` – pm 770-822 -/
def State.disconnect (s : State) (id : Nat) (rem : Bool) : State :=
  if s.closing.contains id || !s.peers.contains id then s else { s with closing := s.closing.insert id rem }

/-- `bannable_peers_for_addr` – pm 615-626 -/
def State.peersAt (c : Cfg) (s : State) (ip : Nat) : List Nat := (s.peers.entries.filter fun p => c.db.ip p.2.addr = ip).map (·.1)

/-- disconnecting some peers -/
def State.disconnectAll (s : State) (l : List Nat) : State := l.foldl (fun s id => s.disconnect id false) s

/-- `ban` – pm 628-651 -/
def State.ban (c : Cfg) (s : State) (ip now dur : Nat) : Except Fault State := do
  let l := s.peersAt c ip
  let s ← s.db c (.ban ip dur) now 0
  pure (s.disconnectAll l)

/-- `discourage` – pm 654-677 -/
def State.discourage (c : Cfg) (s : State) (ip now : Nat) : Except Fault State := do
  let l := s.peersAt c ip
  let s ← s.db c (.discourage ip) now 0
  pure (s.disconnectAll l)

/-- `is_whitelisted_node` – pm 463-474 -/
def Cfg.whitelisted (c : Cfg) (role : PeerRole) (a : Addr) : Bool :=
  match role with
  | some .reserved | some .manual => true
  | _ => c.whitelist.contains (c.db.ip a)

/-- `adjust_peer_score` – pm 479-522; the score is a `u32` and saturates -/
def State.adjustScore (c : Cfg) (s : State) (id score now : Nat) : Except Fault State :=
  match s.peers.get id with
  | none => .ok s
  | some p =>
    if c.whitelisted p.role p.addr then .ok s
    else
      let p := { p with score := min (p.score + score) (2 ^ 32 - 1) }
      let s := { s with peers := s.peers.insert id p }
      if c.threshold ≤ p.score then s.discourage c (c.db.ip p.addr) now else .ok s

/-- `adjust_peer_score_on_failed_connection_attempt` – pm 534-592 -/
def State.adjustFailed (c : Cfg) (s : State) (a : Addr) (role : PeerRole) (score now : Nat) : Except Fault State :=
  if score < c.threshold then .ok s
  else if c.whitelisted role a then .ok s
  else s.discourage c (c.db.ip a) now

/-- `EvictionCandidate::new` – ev 91-115.  A ping is in microseconds, `i64::MAX` if there was none. -/
def State.cand (c : Cfg) (s : State) (now : Nat) (p : Nat × Ctx) : Cand where
  id := p.1
  age := now - p.2.created
  group := c.groupKey (c.group p.2.addr)
  ping := match p.2.ping with
    | some t => t
    | none => 2 ^ 63 - 1
  lastBlock := p.2.lastBlock
  lastTx := p.2.lastTx
  expecting := p.2.expecting
  bad := s.book.isBad c.db p.2.addr

/-- the peers of a role that are not being disconnected -/
def State.active (s : State) (role : PeerRole) : List (Nat × Ctx) :=
  s.peers.entries.filter fun p => p.2.role = role && !s.closing.contains p.1

/-- `eviction_candidates` – pm 944-962 -/
def State.cands (c : Cfg) (s : State) (role : PeerRole) (now : Nat) : List Cand := (s.active role).map (s.cand c now)

/-- disconnecting the peer that was selected – pm 974-981, 997-1003, 1017-1023 -/
def State.evict (s : State) : Option Nat → State
  | some id => s.disconnect id false
  | none => s

/-- the inbound part of `validate_connection` – pm 886-907, with `try_evict_random_inbound_connection` – pm 967-986 -/
def State.makeRoom (c : Cfg) (s : State) (r : Rand) (a : Addr) (now : Nat) : Option State :=
  if c.maxInbound ≤ (s.active none).length then
    if s.book.discouraged.contains (c.db.ip a) then none
    else match selectInbound c r (s.cands c none now) with
      | some id => some (s.disconnect id false)
      | none => none
  else some s

/-- `validate_connection` – pm 827-942: `none` is a refusal.  `ok` stands for the checks of the peer itself (`check_compatibility`, the services,
the version of its software). -/
def State.validate (c : Cfg) (s : State) (r : Rand) (id : Nat) (a : Addr) (role : PeerRole) (ok : Bool) (now : Nat) : Option State :=
  if s.on && ok && !s.peers.contains id && s.noConflict c a role && !s.book.banned.contains (c.db.ip a) then
    match role with
    | none => s.makeRoom c r a now
    | some _ => some s
  else none

/-- the addresses of the first block relay peers – pm 1148-1164 -/
def State.anchors (c : Cfg) (s : State) : List Addr :=
  ((s.peers.entries.filter fun p => p.2.role = some .blockRelay).map fun p => p.2.addr).take c.blockCount

/-- after a connection of that role has been accepted – pm 1138-1165 -/
def State.connected (c : Cfg) (s : State) (a : Addr) (role : PeerRole) (now rand : Nat) : Except Fault State :=
  match role with
  | none => .ok s
  | some ro => do
    let s ← s.db c (.connected a ro) now rand
    if ro = .blockRelay then s.db c (.setAnchors (s.anchors c)) now rand else .ok s

/-- `accept_connection` after the role has been found – pm 1204-1257, with `try_accept_connection` – pm 1057-1172.  `score` is the ban score of
the error if there is one. -/
def State.accept (c : Cfg) (s : State) (r : Rand) (id : Nat) (a : Addr) (role : PeerRole) (ok : Bool) (score now : Nat) :
    Except Fault State :=
  match s.validate c r id a role ok now with
  | some s =>
    if s.peers.contains id then .error .twice
    else do
      let s ← ({ s with peers := s.peers.insert id ⟨a, role, 0, now, none, none, none, none⟩ } : State).connected c a role now (r.rand a)
      pure (if role = some .feeler then s.disconnect id false else s)
  | none => do
    let s ← s.adjustFailed c a role score now
    if role.isSome then s.db c (.failed a) now (r.rand a) else pure s

/-- `connection_closed` – pm 1299-1339 -/
def State.closed (c : Cfg) (s : State) (r : Rand) (id now : Nat) : Except Fault State :=
  match s.peers.get id with
  | none => .ok s
  | some p => do
    let rem := s.closing.get id
    let s : State := { s with peers := s.peers.erase id, closing := s.closing.erase id }
    if p.role.isSome then do
      let s ← s.db c (.disconnected p.addr) now (r.rand p.addr)
      if rem = some true then s.db c (.remove p.addr) now 0 else pure s
    else pure s

/-- the number of connections of a role, made or being made -/
def State.count (s : State) (role : Role) : Nat := s.conns.countP fun x => x.2 = some role

/-- `cur_outbound_conn_addr_groups` – pm 1422-1447 -/
def State.groups (c : Cfg) (s : State) : List Nat :=
  (s.conns.filter fun x => x.2.isSome && decide (x.2 ≠ some .feeler)).map fun x => c.group x.1

/-- `allow_new_outbound_connection` – pm 2074-2097.  Of several connections with one IP address and port the map has the last. -/
def State.allow (c : Cfg) (s : State) (role : Role) (a : Addr) : Bool :=
  (s.conns.foldl (fun m x => BMap.insert m (toLex (c.db.ip x.1, c.port x.1)) x.2) (BMap.empty : BMap (Nat ×ₗ Nat) PeerRole)).entries.all fun x =>
    !decide ((ofLex x.1).1 = c.db.ip a) || c.mayAllow (ofLex x.1).2 x.2 (c.port a) role

/-- connecting to some addresses -/
def State.connectAll (c : Cfg) (s : State) (l : List Addr) (role : Role) : Except Fault State := l.foldlM (fun s a => s.connect c a role) s

/-- `tip_is_stale` – pm 2185-2191 -/
def State.stale (c : Cfg) (s : State) (now : Nat) : Bool := decide (c.staleDiff < now - s.lastTip)

/-- `needed_outbound_full_relay_conn_count` – pm 1451-1460 -/
def State.fullNeeded (c : Cfg) (s : State) (now : Nat) : Nat :=
  c.fullCount + (if s.stale c now then c.fullExtra else 0) - s.count .fullRelay

/-- `needed_outbound_block_relay_conn_count` – pm 1498-1501 -/
def State.blockNeeded (c : Cfg) (s : State) : Nat := c.blockCount + c.blockExtra - s.count .blockRelay

/-- the feeler – pm 1546-1567, with `select_non_reserved_outbound_address_from_new_addr_table` – peerdb 291-313 -/
def State.feel (c : Cfg) (s : State) (r : Rand) (now : Nat) : Except Fault State :=
  match r.chooseAddr (s.book.tables.new.addrIter.filter (s.book.eligible c.db [] (fun _ => true) now)) with
  | some a => do
    let s ← s.connect c a .feeler
    pure { s with nextFeeler := r.feeler }
  | none => .ok s

/-- `establish_new_connections` – pm 1418-1568.  The connections made meanwhile do not enter the map of `allow_new_outbound_connection`. -/
def State.establish (c : Cfg) (s0 : State) (r : Rand) (now : Nat) : Except Fault State := do
  let full := s0.book.select c.db (s0.groups c) (s0.allow c .fullRelay)
    (s0.fullNeeded c now) now (r.sample false (s0.fullNeeded c now)) (r.coin false)
  let s ← s0.connectAll c full .fullRelay
  let block := s.book.select c.db (full.map c.group ++ s0.groups c) (s0.allow c .blockRelay)
    (s0.blockNeeded c) now (r.sample true (s0.blockNeeded c)) (r.coin true)
  let s ← s.connectAll c block .blockRelay
  match s.book.selectReserved (fun a => !s.dialing.contains a && s0.allow c .reserved a) now with
  | .error p => .error (.book p)
  | .ok l => do
    let s ← s.connectAll c l .reserved
    if c.feelers && full.isEmpty && decide (s0.count .feeler = 0) && decide (s.nextFeeler ≤ now) then s.feel c r now else pure s

/-- `heartbeat` – pm 1399-1417, with `evict_block_relay_peer` and `evict_full_relay_peer` – pm 989-1027 -/
def State.heartbeat (c : Cfg) (s : State) (r : Rand) (now : Nat) : Except Fault State := do
  let s ← s.db c .heartbeat now 0
  if s.on then do
    let s ← s.establish c r now
    let s := s.evict (selectOutbound r c.blockAge c.blockCount now (s.cands c (some .blockRelay) now))
    pure (s.evict (selectOutbound r c.fullAge c.fullCount now (s.cands c (some .fullRelay) now)))
  else pure s

/-- the start of the node – pm 2331-2353: the anchors are dialled first -/
def boot (c : Cfg) (s : State) (r : Rand) (now : Nat) : Except Fault State :=
  if s.on then
    if s.book.anchors.entries = [] then s.heartbeat c r now
    else s.connectAll c (s.book.anchors.entries.map (·.1)) .blockRelay
  else .ok s

/-- what happens to the peer manager -/
inductive Event where
  /-- an inbound connection -/
  | inbound (id : Nat) (a : Addr) (ok : Bool) (score : Nat)
  /-- an outbound connection that was made -/
  | outbound (a : Addr) (id : Nat) (ok : Bool) (score : Nat)
  | closed (id : Nat)
  /-- an outbound connection that could not be made -/
  | dialFailed (a : Addr)
  | misbehaved (id score : Nat)
  | misbehavedOnHandshake (a : Addr) (score : Nat)
  | connect (a : Addr)
  | disconnect (id : Nat) (remove : Bool)
  | addReserved (a : Addr)
  | removeReserved (a : Addr)
  | ban (ip dur : Nat)
  | unban (ip : Nat)
  | undiscourage (ip : Nat)
  | enable (on : Bool)
  | discovered (a : Addr)
  | activity (id : Nat)
  /-- a ping was answered, a block or a transaction was received, blocks are expected -/
  | attrs (id : Nat) (ping lastBlock lastTx expecting : Option Nat)
  | newTip
  | heartbeat
  /-- the node is started again, with these boot and reserved nodes -/
  | restart (on : Bool) (bootNodes reserved : List Addr)

/-- the event, the time and what is random -/
structure Step where
  ev : Event
  now : Nat
  r : Rand

/-- one event – pm 1811-1978, 2289-2312 -/
def State.step (c : Cfg) (s : State) (x : Step) : Except Fault State :=
  match x.ev with
  | .inbound id a ok score => s.accept c x.r id a none ok score x.now
  | .outbound a id ok score =>
    match s.dialing.get a with
    | none => .error .notDialing
    | some role => ({ s with dialing := s.dialing.erase a } : State).accept c x.r id a (some role) ok score x.now
  | .closed id => s.closed c x.r id x.now
  | .dialFailed a => do
    let s ← s.db c (.failed a) x.now (x.r.rand a)
    if s.dialing.contains a then pure { s with dialing := s.dialing.erase a } else .error .notDialing
  | .misbehaved id score => s.adjustScore c id score x.now
  | .misbehavedOnHandshake a score => s.adjustFailed c a (s.dialing.get a) score x.now
  | .connect a => s.connect c a .manual
  | .disconnect id rem => .ok (s.disconnect id rem)
  | .addReserved a => do
    let s ← s.db c (.addReserved a) x.now (x.r.rand a)
    if s.on then s.connect c a .reserved else pure s
  | .removeReserved a => s.db c (.removeReserved a) x.now (x.r.rand a)
  | .ban ip dur => s.ban c ip x.now dur
  | .unban ip => s.db c (.unban ip) x.now 0
  | .undiscourage ip => s.db c (.undiscourage ip) x.now 0
  | .enable on =>
    if s.on = on then .ok s
    else if on then ({ s with on := true } : State).heartbeat c x.r x.now else .ok { s with on := false }
  | .discovered a => s.db c (.discovered a) x.now 0
  | .activity id =>
    match s.peers.get id with
    | some p => if p.role.isSome then s.db c (.hadActivity p.addr) x.now (x.r.rand p.addr) else .ok s
    | none => .ok s
  | .attrs id ping lastBlock lastTx expecting =>
    match s.peers.get id with
    | some p => .ok { s with peers := s.peers.insert id { p with ping, lastBlock, lastTx, expecting } }
    | none => .ok s
  | .newTip => .ok { s with lastTip := x.now }
  | .heartbeat => s.heartbeat c x.r x.now
  | .restart on bootNodes reserved => do
    let s ← s.db c (.restart bootNodes reserved) x.now 0
    boot c { s with peers := BMap.empty, closing := BMap.empty, dialing := BMap.empty, on := on, nextFeeler := x.r.feeler, lastTip := x.now } x.r x.now

/-- a node that starts with an empty disk, and what happens to it -/
def run (c : Cfg) (bootNodes reserved : List Addr) (t0 : Nat) (steps : List Step) : Except Fault State := do
  let b ← match start c.db Store.init bootNodes reserved t0 with
    | .ok b => .ok b
    | .error p => .error (.book p)
  steps.foldlM (State.step c) ⟨b, BMap.empty, BMap.empty, BMap.empty, false, t0, t0⟩

end Verif.PeerManager
