import Verif.PeerManager.Effects
import Verif.PeerDb.Props

/-! # C76: the connections of a node

How many connections the peer manager keeps and makes, to whom, and whom it disconnects to make room. -/

set_option maxRecDepth 100000

namespace Verif.PeerManager

open Verif Verif.PeerDb

/-! ## A configuration and random choices for the examples -/

def insertBy (key : Cand → Int) (x : Cand) : List Cand → List Cand
  | [] => [x]
  | y :: l => if key x ≤ key y then x :: y :: l else y :: insertBy key x l

def sortBy (key : Cand → Int) : List Cand → List Cand
  | [] => []
  | x :: l => insertBy key x (sortBy key l)

theorem insertBy_perm (key : Cand → Int) (x : Cand) : ∀ l, (insertBy key x l).Perm (x :: l)
  | [] => List.Perm.refl _
  | y :: l => by
    unfold insertBy
    split
    · exact List.Perm.refl _
    · exact (List.Perm.cons y (insertBy_perm key x l)).trans (List.Perm.swap x y l)

theorem sortBy_perm (key : Cand → Int) : ∀ l, (sortBy key l).Perm l
  | [] => List.Perm.refl _
  | x :: l => (insertBy_perm key x _).trans (List.Perm.cons x (sortBy_perm key l))

theorem insertBy_sorted (key : Cand → Int) (x : Cand) : ∀ {l : List Cand}, l.Pairwise (fun x y => key x ≤ key y) →
    (insertBy key x l).Pairwise fun x y => key x ≤ key y
  | [], _ => List.pairwise_singleton _ _
  | y :: l, h => by
    have h' := List.pairwise_cons.mp h
    unfold insertBy
    split
    · rename_i hle
      refine List.pairwise_cons.mpr ⟨fun z hz => ?_, h⟩
      rcases List.mem_cons.mp hz with rfl | hz
      · exact hle
      · exact hle.trans (h'.1 z hz)
    · rename_i hle
      refine List.pairwise_cons.mpr ⟨fun z hz => ?_, insertBy_sorted key x h'.2⟩
      rcases List.mem_cons.mp ((insertBy_perm key x l).subset hz) with rfl | hz
      · omega
      · exact h'.1 z hz

theorem sortBy_sorted (key : Cand → Int) : ∀ l, (sortBy key l).Pairwise fun x y => key x ≤ key y
  | [] => List.Pairwise.nil
  | x :: l => insertBy_sorted key x (sortBy_sorted key l)

/-- the first that there is, always -/
def exRand : Rand := ⟨fun _ n => List.take n, fun _ _ => true, List.head?, List.head?, sortBy, 0, fun _ => 0⟩

theorem exRand_ok : exRand.Ok where
  sample _ n := samples_take n
  addr l a h := List.mem_of_mem_head? h
  mem l x h := List.mem_of_mem_head? h
  none l h := List.head?_eq_none_iff.mp h
  perm := sortBy_perm
  sorted := sortBy_sorted
  rand _ := randLimit_pos

/-- one address of a host is its IP address; at most three inbound connections, of which two are protected; one full relay connection and one
extra, one block relay connection and one extra -/
def exCfg : Cfg where
  db := PeerDb.exC
  port := fun _ => 0
  groupKey := id
  maxInbound := 3
  keepGroup := 1
  keepPing := 1
  keepBlocks := 0
  keepTxs := 0
  fullCount := 1
  fullExtra := 1
  blockCount := 1
  blockExtra := 1
  fullAge := 10
  blockAge := 10
  staleDiff := 1000
  feelers := true
  sameIp := false
  whitelist := []
  threshold := 100

theorem exCfg_wf : exCfg.WF := ⟨PeerDb.exC_wf, by decide⟩

def ev (now : Nat) (e : Event) : Step := ⟨e, now, exRand⟩

theorem ev_fits {T now : Nat} (h : now ≤ T) (e : Event) : (ev now e).Fits T := ⟨h, exRand_ok⟩

/-- addresses are heard of; networking is enabled, and two of them are dialled; one connection is made, the other fails; three inbound
connections, and a fourth that displaces one; misbehaviour, a ban and a restart -/
def exRun : List Step :=
  [ev 0 (.discovered 100), ev 0 (.discovered 201), ev 0 (.discovered 302), ev 1 (.enable true), ev 2 (.outbound 100 1 true 0),
   ev 2 (.outbound 201 2 true 0), ev 3 (.inbound 3 400 true 0), ev 3 (.inbound 4 401 true 0), ev 3 (.inbound 5 402 true 0),
   ev 4 (.attrs 4 (some 7) none none none), ev 5 (.inbound 6 500 true 0), ev 6 (.misbehaved 4 60), ev 7 (.misbehaved 4 60), ev 8 (.ban 402 50),
   ev 9 .heartbeat]

theorem exRuns {steps : List Step} (h : ∀ x ∈ steps, ∃ now e, x = ev now e ∧ now ≤ 1000) (hl : steps.length < 1000) : Runs 1000 0 steps where
  start := Nat.zero_le _
  fits x hx := by
    obtain ⟨now, e, rfl, hn⟩ := h x hx
    exact ev_fits hn e
  clock := by decide
  count := by omega

theorem exRun_runs : Runs 1000 0 exRun :=
  exRuns (by unfold exRun; simp only [List.mem_cons, List.not_mem_nil, or_false, forall_eq_or_imp, forall_eq]
             refine ⟨⟨_, _, rfl, ?_⟩, ⟨_, _, rfl, ?_⟩, ⟨_, _, rfl, ?_⟩, ⟨_, _, rfl, ?_⟩, ⟨_, _, rfl, ?_⟩, ⟨_, _, rfl, ?_⟩, ⟨_, _, rfl, ?_⟩,
               ⟨_, _, rfl, ?_⟩, ⟨_, _, rfl, ?_⟩, ⟨_, _, rfl, ?_⟩, ⟨_, _, rfl, ?_⟩, ⟨_, _, rfl, ?_⟩, ⟨_, _, rfl, ?_⟩, ⟨_, _, rfl, ?_⟩,
               ⟨_, _, rfl, ?_⟩⟩ <;> decide) (by decide)

example : okAnd (run exCfg [] [] 0 exRun) (fun s => s.peers.entries.map (fun p => (p.1, p.2.addr)) = [(1, 100), (2, 201), (3, 400), (4, 401), (5, 402), (6, 500)] ∧
    s.closing.entries.map (·.1) = [3, 4, 5] ∧ s.dialing.entries = [(302, .blockRelay)] ∧ s.book.anchors.entries.map (·.1) = [201]) := by
  decide +kernel

/-! ## It does not panic -/

/-- **C76** as long as the networking backend reports outbound connections and failures only for addresses being dialled, nothing that happens
makes the peer manager panic -/
theorem C76_never_panics {c : Cfg} (hc : c.WF) {T t0 : Nat} {steps : List Step} (hr : Runs T t0 steps) (bootNodes reserved : List Addr)
    (hp : ∀ b, start c.db Store.init bootNodes reserved t0 = .ok b → Polite c (State.first b t0) steps) :
    ∃ s, run c bootNodes reserved t0 steps = .ok s := by
  obtain ⟨b, h1, h2⟩ := first_spec hc hr.start bootNodes reserved
  rw [run_eq h1]
  exact (steps_spec hc hr.clock steps h2 hr.fits (by have := hr.count; omega)).2 (hp b h1)

instance (s : State) (e : Event) : Decidable (e.Polite s) := by cases e <;> unfold Event.Polite <;> infer_instance

def politeB (c : Cfg) : State → List Step → Bool
  | _, [] => true
  | s, x :: l => decide (x.ev.Polite s) && match s.step c x with
    | .ok s' => politeB c s' l
    | .error _ => true

theorem politeB_sound (c : Cfg) : ∀ (l : List Step) (s : State), politeB c s l = true → Polite c s l
  | [], _, _ => trivial
  | x :: l, s, h => by
    unfold politeB at h
    rw [Bool.and_eq_true, decide_eq_true_eq] at h
    refine ⟨h.1, fun s' e => politeB_sound c l s' ?_⟩
    have := h.2
    rw [e] at this
    exact this

example : ∀ b, start exCfg.db Store.init [] [] 0 = .ok b → Polite exCfg (State.first b 0) exRun := by
  intro b e
  refine politeB_sound _ _ _ ?_
  have : okAnd (start exCfg.db Store.init [] [] 0) (fun b => politeB exCfg (State.first b 0) exRun) := by decide +kernel
  rw [e] at this
  exact this

/-! ## The number of connections -/

/-- the number of connections of a role, made or being made -/
def outgoing (s : State) (role : Role) : Nat :=
  s.peers.entries.countP (fun p => p.2.role = some role) + s.dialing.entries.countP fun p => p.2 = role

theorem outgoing_eq (s : State) (role : Role) : outgoing s role = s.conns.countP fun x => x.2 = some role := by
  unfold outgoing State.conns
  rw [List.countP_append, List.countP_map, List.countP_map]
  congr 1
  refine List.countP_congr fun x _ => ?_
  simp

/-- **C76** the connections are limited in number: inbound ones that are not being closed to `max_inbound_connections`, full relay and block
relay ones, made or being made, to their number and the extra number; there is at most one feeler -/
theorem C76_connection_limits {c : Cfg} (hc : c.WF) {T t0 : Nat} {steps : List Step} (hr : Runs T t0 steps) {bootNodes reserved : List Addr}
    {s : State} (e : run c bootNodes reserved t0 steps = .ok s) :
    s.peers.entries.countP (fun p => p.2.role = none ∧ s.closing.contains p.1 = false) ≤ c.maxInbound ∧
    outgoing s .fullRelay ≤ c.fullCount + c.fullExtra ∧ outgoing s .blockRelay ≤ c.blockCount + c.blockExtra ∧ outgoing s .feeler ≤ 1 := by
  have h := (run_pinv hc hr e).core
  rw [outgoing_eq, outgoing_eq, outgoing_eq]
  refine ⟨?_, h.good.full, h.good.block, h.good.feeler⟩
  have := h.inb
  unfold State.active at this
  rw [← List.countP_eq_length_filter] at this
  refine Nat.le_trans (Nat.le_of_eq (List.countP_congr fun x _ => ?_)) this
  simp

example : okAnd (run exCfg [] [] 0 exRun) (fun s => outgoing s .fullRelay = 1 ∧ outgoing s .blockRelay = 2 ∧
    s.peers.entries.countP (fun p => p.2.role = none ∧ s.closing.contains p.1 = false) = 1) := by decide +kernel

/-- **C76** a feeler that has been connected to is being disconnected -/
theorem C76_feelers_leave {c : Cfg} (hc : c.WF) {T t0 : Nat} {steps : List Step} (hr : Runs T t0 steps) {bootNodes reserved : List Addr}
    {s : State} (e : run c bootNodes reserved t0 steps = .ok s) {id : Nat} {p : Ctx} (hp : s.peers.get id = some p)
    (hro : p.role = some .feeler) : s.closing.contains id = true := by
  have h := (run_pinv hc hr e).feelers id p hp hro
  cases e : s.closing.contains id with
  | true => rfl
  | false => exact absurd ((contains_false _ _).mp e) h

def exFeeler : List Step :=
  [ev 0 (.discovered 100), ev 0 (.discovered 201), ev 0 (.discovered 302), ev 0 (.discovered 403), ev 1 (.enable true),
   ev 2 (.outbound 100 1 true 0), ev 2 (.outbound 201 2 true 0), ev 2 (.outbound 302 3 true 0), ev 3 .heartbeat, ev 4 (.outbound 403 4 true 0)]

example : okAnd (run exCfg [] [] 0 (exFeeler.take 9)) (fun s => s.dialing.get 403 = some .feeler) ∧
    okAnd (run exCfg [] [] 0 exFeeler) (fun s => s.peers.contains 4 = true ∧ s.closing.contains 4 = true) := by decide +kernel

/-! ## Diversity -/

/-- **C76** no two of the connections that the node makes of its own accord, made or being made, are to addresses of one group; nor are two of
the anchors, which are at most as many as block relay connections are wanted -/
theorem C76_diversity {c : Cfg} (hc : c.WF) {T t0 : Nat} {steps : List Step} (hr : Runs T t0 steps) {bootNodes reserved : List Addr}
    {s : State} (e : run c bootNodes reserved t0 steps = .ok s) :
    (∀ i j p q, i ≠ j → s.peers.get i = some p → s.peers.get j = some q → auto p.role = true → auto q.role = true →
      c.group p.addr ≠ c.group q.addr) ∧
    (∀ i p a r, s.peers.get i = some p → s.dialing.get a = some r → auto p.role = true → auto (some r) = true → c.group p.addr ≠ c.group a) ∧
    (∀ a b r q, a ≠ b → s.dialing.get a = some r → s.dialing.get b = some q → auto (some r) = true → auto (some q) = true →
      c.group a ≠ c.group b) ∧
    s.book.anchors.size ≤ c.blockCount ∧
    (∀ a b, a ≠ b → s.book.anchors.contains a = true → s.book.anchors.contains b = true → c.group a ≠ c.group b) := by
  have h := (run_pinv hc hr e).core
  obtain ⟨h1, h2, h3⟩ := pairs (fun _ _ g h1 h2 e => g h2 h1 e.symm) h.good.groups
  obtain ⟨l, l1, l2, l3⟩ := h.anchors
  refine ⟨h1, h2, h3, ?_, ?_⟩
  · have : (s.book.anchors.entries.map (·.1)).length ≤ l.length := by
      refine (List.subperm_of_subset (keys_nodup _) ?_).length_le
      rw [l1]
      exact fun a ha => (mem_setOf l a).mp ha
    rw [List.length_map] at this
    exact Nat.le_trans this l2
  · intro a b hne ha hb eg
    have hm : ∀ x, s.book.anchors.contains x = true → x ∈ l := by
      intro x hx
      obtain ⟨v, hv⟩ := (contains_iff _ _).mp hx
      rw [l1, setOf_get] at hv
      by_contra hn
      rw [if_neg hn] at hv
      nomatch hv
    exact hne (List.inj_on_of_nodup_map l3 (hm a ha) (hm b hb) eg)

/-- two addresses of group 1: only one of them is dialled -/
example : okAnd (run exCfg [] [] 0 [ev 0 (.discovered 101), ev 0 (.discovered 102), ev 1 (.enable true), ev 2 .heartbeat])
    (fun s => s.book.tables.new.addrIter = [101, 102] ∧ s.dialing.entries = [(101, .fullRelay)]) := by decide +kernel

/-- the anchor is dialled when the node is started again -/
example : okAnd (run exCfg [] [] 0 (exRun ++ [ev 10 (.restart true [] [])]))
    (fun s => s.peers.size = 0 ∧ s.dialing.entries = [(201, .blockRelay)]) := by decide +kernel

/-- **C76** there are no two outbound connections, made or being made, to one IP address and port, feelers aside -/
theorem C76_no_double {c : Cfg} (hc : c.WF) {T t0 : Nat} {steps : List Step} (hr : Runs T t0 steps) {bootNodes reserved : List Addr}
    {s : State} (e : run c bootNodes reserved t0 steps = .ok s) :
    (∀ i j p q, i ≠ j → s.peers.get i = some p → s.peers.get j = some q → solid p.role = true → solid q.role = true →
      ¬ (c.db.ip p.addr = c.db.ip q.addr ∧ c.port p.addr = c.port q.addr)) ∧
    (∀ i p a r, s.peers.get i = some p → s.dialing.get a = some r → solid p.role = true → solid (some r) = true →
      ¬ (c.db.ip p.addr = c.db.ip a ∧ c.port p.addr = c.port a)) ∧
    (∀ a b r q, a ≠ b → s.dialing.get a = some r → s.dialing.get b = some q → solid (some r) = true → solid (some q) = true →
      ¬ (c.db.ip a = c.db.ip b ∧ c.port a = c.port b)) :=
  pairs (fun _ _ g h1 h2 e => g h2 h1 ⟨e.1.symm, e.2.symm⟩) (run_pinv hc hr e).core.good.sockets

/-- a second connection to 100 is not made by request -/
example : okAnd (run exCfg [] [] 0 (exRun ++ [ev 10 (.connect 100), ev 10 (.connect 600)]))
    (fun s => s.dialing.entries = [(302, .blockRelay), (600, .manual)]) := by decide +kernel

/-! ## Bans and misbehaviour -/

/-- **C76** whitelisted are the peers the operator asked for and the listed IP addresses, whatever their ports -/
theorem C76_whitelisted (c : Cfg) (role : PeerRole) (a : Addr) :
    c.whitelisted role a = true ↔ role = some .reserved ∨ role = some .manual ∨ c.db.ip a ∈ c.whitelist := by
  unfold Cfg.whitelisted
  rcases role with _ | (_ | _ | _ | _ | _) <;> simp

/-- **C76** a connected peer that is not being disconnected is not banned, and its score is below the threshold unless it is whitelisted -/
theorem C76_no_banned_peer {c : Cfg} (hc : c.WF) {T t0 : Nat} {steps : List Step} (hr : Runs T t0 steps) {bootNodes reserved : List Addr}
    {s : State} (e : run c bootNodes reserved t0 steps = .ok s) {id : Nat} {p : Ctx} (hp : s.peers.get id = some p)
    (hcl : s.closing.contains id = false) :
    s.book.banned.contains (c.db.ip p.addr) = false ∧ (c.whitelisted p.role p.addr = false → p.score < c.threshold) := by
  have h := run_pinv hc hr e
  rw [contains_false] at hcl ⊢
  exact ⟨h.banned id p hp hcl, h.scored id p hp hcl⟩

theorem run_step {c : Cfg} (hc : c.WF) {T t0 : Nat} {steps : List Step} {x : Step} (hr : Runs T t0 (steps ++ [x]))
    {bootNodes reserved : List Addr} {s : State} (e : run c bootNodes reserved t0 steps = .ok s) :
    PInv c (2 * steps.length) T s ∧ x.Fits T ∧ T + longest false < maxTime ∧ 2 * steps.length + 2 < 2 ^ 32 := by
  have hr' : Runs T t0 steps := ⟨hr.start, fun y hy => hr.fits y (List.mem_append_left _ hy), hr.clock, by
    have := hr.count; rw [List.length_append] at this; omega⟩
  refine ⟨run_pinv hc hr' e, hr.fits x (List.mem_append_right _ (List.mem_singleton.mpr rfl)), hr.clock, ?_⟩
  have := hr.count
  rw [List.length_append] at this
  omega

/-- **C76** whatever happens, a peer that stays connected keeps its address, its role and its score, but for the misbehaviour reported of it,
which is added to the score of a peer that is not whitelisted -/
theorem C76_scores {c : Cfg} (hc : c.WF) {T t0 : Nat} {steps : List Step} {x : Step} (hr : Runs T t0 (steps ++ [x]))
    {bootNodes reserved : List Addr} {s s' : State} (e : run c bootNodes reserved t0 steps = .ok s) (ex : s.step c x = .ok s')
    {id : Nat} {p p' : Ctx} (hp : s.peers.get id = some p) (hp' : s'.peers.get id = some p') :
    p'.addr = p.addr ∧ p'.role = p.role ∧ p'.created = p.created ∧
    ((∀ k, x.ev ≠ .misbehaved id k) → p'.score = p.score) ∧
    (∀ k, x.ev = .misbehaved id k → p'.score = if c.whitelisted p.role p.addr = true then p.score else min (p.score + k) (2 ^ 32 - 1)) := by
  obtain ⟨h, hx, hT, hk⟩ := run_step hc hr e
  exact (step_effect hc h hx hT hk ex).same id p p' hp hp'

example : okAnd (run exCfg [] [] 0 (exRun.take 12)) (fun s => (s.peers.get 4).map (·.score) = some 60 ∧ s.closing.contains 4 = false) ∧
    okAnd (run exCfg [] [] 0 (exRun.take 13)) (fun s => (s.peers.get 4).map (·.score) = some 120 ∧ s.closing.contains 4 = true ∧
      s.book.discouraged.contains 401 = true) := by decide +kernel

/-- **C76** when the misbehaviour of a peer that is not whitelisted has reached the threshold, its address is discouraged and all connections
with that address are closed -/
theorem C76_misbehaving {c : Cfg} (hc : c.WF) {T t0 : Nat} {steps : List Step} {x : Step} (hr : Runs T t0 (steps ++ [x]))
    {bootNodes reserved : List Addr} {s s' : State} (e : run c bootNodes reserved t0 steps = .ok s) (ex : s.step c x = .ok s')
    {id k : Nat} {p : Ctx} (hp : s.peers.get id = some p) (hw : c.whitelisted p.role p.addr = false) (hev : x.ev = .misbehaved id k)
    (ht : c.threshold ≤ p.score + k) (ht' : c.threshold < 2 ^ 32) :
    s'.book.discouraged.get (c.db.ip p.addr) = some (min (x.now + c.db.discourageTime) (maxTime - 1)) ∧
    ∀ j q, s.peers.get j = some q → c.db.ip q.addr = c.db.ip p.addr → s'.closing.contains j = true := by
  obtain ⟨h, hx, hT, hk⟩ := run_step hc hr e
  obtain ⟨ev, now, r⟩ := x
  cases hev
  change s.adjustScore c id k now = .ok s' at ex
  unfold State.adjustScore at ex
  rw [hp] at ex
  dsimp only at ex
  rw [if_neg (by rw [hw]; nofun), if_pos (by rw [Nat.le_min]; exact ⟨ht, by omega⟩)] at ex
  generalize hv : min (p.score + k) (2 ^ 32 - 1) = v at ex
  have core := h.core.update hp (p' := { p with score := v }) rfl rfl
  unfold State.discourage at ex
  obtain ⟨b', h1, _, _, h3, _⟩ := db_raw hc core.book (.discourage (c.db.ip p.addr)) hx.now randLimit_pos hT (by omega)
  rw [h1] at ex
  cases ex
  have hcl := disconnectAll_closes (({ s with peers := s.peers.insert id { p with score := v } } : State).peersAt c (c.db.ip p.addr))
    { s with peers := s.peers.insert id { p with score := v }, book := b' }
  refine ⟨?_, ?_⟩
  · have := hcl.book
    rw [this]
    change b'.discouraged.get _ = _
    rw [h3]
    exact if_pos rfl
  · intro j q hq hip
    have hget : ∃ q', (s.peers.insert id { p with score := v }).get j = some q' ∧ q'.addr = q.addr := by
      rw [BMap.get_insert]
      split
      · rename_i hj
        subst hj
        rw [hp] at hq
        cases hq
        exact ⟨_, rfl, rfl⟩
      · exact ⟨q, hq, rfl⟩
    obtain ⟨q', g1, g2⟩ := hget
    have hm : j ∈ ({ s with peers := s.peers.insert id { p with score := v } } : State).peersAt c (c.db.ip p.addr) :=
      mem_peersAt.mpr ⟨q', g1, by rw [g2]; exact hip⟩
    have := hcl.self j hm (by change (s.peers.insert id _).get j ≠ none; rw [g1]; nofun)
    cases e' : State.closing _ |>.contains j with
    | true => rfl
    | false => exact absurd ((contains_false _ _).mp e') this

/-- **C76** who is connected: a new peer is one whose connection was reported, while networking was enabled, from an address that is not
banned, with all checks of the peer passed; if it is outbound, its address was being dialled, with that role.  A peer leaves when its
connection is reported closed, or the node is started again. -/
theorem C76_admission {c : Cfg} (hc : c.WF) {T t0 : Nat} {steps : List Step} {x : Step} (hr : Runs T t0 (steps ++ [x]))
    {bootNodes reserved : List Addr} {s s' : State} (e : run c bootNodes reserved t0 steps = .ok s) (ex : s.step c x = .ok s') (id : Nat) :
    (∀ p, s.peers.get id = none → s'.peers.get id = some p →
      s.on = true ∧ s.book.banned.contains (c.db.ip p.addr) = false ∧ p.score = 0 ∧ p.created = x.now ∧
      ∃ score, (p.role = none ∧ x.ev = .inbound id p.addr true score) ∨
        (∃ ro, p.role = some ro ∧ s.dialing.get p.addr = some ro ∧ x.ev = .outbound p.addr id true score)) ∧
    (∀ p, s.peers.get id = some p → s'.peers.get id = none → x.ev = .closed id ∨ ∃ on l l', x.ev = .restart on l l') := by
  obtain ⟨h, hx, hT, hk⟩ := run_step hc hr e
  have hf := step_effect hc h hx hT hk ex
  refine ⟨fun p h1 h2 => ?_, fun p => hf.gone id p⟩
  obtain ⟨g1, g2, role, score, g3, g4⟩ := hf.new id p h1 h2
  have hro : p.role = role := by rw [g3]; rfl
  refine ⟨g1, (contains_false _ _).mpr g2, by rw [g3]; rfl, by rw [g3]; rfl, score, ?_⟩
  rw [hro]
  exact g4

/-- **C76** who is dialled: while networking is enabled, addresses that are neither banned nor discouraged, and reserved nodes; and, unless
that is enabled, no address from which there is an inbound connection, but for those the operator asks for and feelers -/
theorem C76_dialled {c : Cfg} (hc : c.WF) {T t0 : Nat} {steps : List Step} {x : Step} (hr : Runs T t0 (steps ++ [x]))
    {bootNodes reserved : List Addr} {s s' : State} (e : run c bootNodes reserved t0 steps = .ok s) (ex : s.step c x = .ok s')
    {a : Addr} {ro : Role} (hd : s'.dialing.get a = some ro) : s.dialing.get a = some ro ∨
      (s'.on = true ∧ ((s'.book.banned.contains (c.db.ip a) = false ∧ s'.book.discouraged.contains (c.db.ip a) = false) ∨
        s'.book.reserved.contains a = true) ∧
      (ro ≠ .manual → ro ≠ .feeler → c.sameIp = false →
        ∀ id p, s'.peers.get id = some p → p.role = none → c.db.ip p.addr ≠ c.db.ip a)) := by
  obtain ⟨h, hx, hT, hk⟩ := run_step hc hr e
  rcases (step_effect hc h hx hT hk ex).dialled a ro hd with h | ⟨h1, h2, h3⟩
  · exact Or.inl h
  · refine Or.inr ⟨h1, ?_, h3⟩
    rw [contains_false, contains_false]
    exact h2

/-- a peer from 302 has connected: 302 is not dialled, 403 is -/
example : okAnd (run exCfg [] [] 0 [ev 0 (.discovered 302), ev 0 (.discovered 403), ev 0 (.enable true), ev 1 (.dialFailed 302),
      ev 2 (.inbound 3 302 true 0), ev 10000000000000 .heartbeat])
    (fun s => s.dialing.contains 302 = false ∧ s.dialing.contains 403 = true) := by decide +kernel

end Verif.PeerManager
