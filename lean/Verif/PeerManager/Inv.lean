import Verif.PeerManager.Conns

/-! What holds in every reachable state of the peer manager. -/

namespace Verif.PeerManager

open Verif Verif.PeerDb

/-- what is needed of the configuration -/
structure Cfg.WF (c : Cfg) : Prop where
  db : c.db.WF
  threshold : 0 < c.threshold

/-- the part of the invariant that does not speak of bans, scores and feelers; `k` and `T` are those of the invariant of the address book -/
structure Core (c : Cfg) (k T : Nat) (s : State) : Prop where
  book : PeerDb.Inv c.db k T s.book
  good : Good c s.conns
  anchors : ∃ l, s.book.anchors = PeerDb.setOf l ∧ l.length ≤ c.blockCount ∧ (l.map c.group).Nodup
  closing : ∀ id, s.peers.get id = none → s.closing.get id = none
  inb : (s.active none).length ≤ c.maxInbound

/-- a connected peer that is not being disconnected is not banned -/
def NotBanned (c : Cfg) (s : State) : Prop :=
  ∀ id p, s.peers.get id = some p → s.closing.get id = none → s.book.banned.get (c.db.ip p.addr) = none

/-- such a peer has a low score, or is whitelisted -/
def Scored (c : Cfg) (s : State) : Prop :=
  ∀ id p, s.peers.get id = some p → s.closing.get id = none → c.whitelisted p.role p.addr = false → p.score < c.threshold

/-- feelers are disconnected at once -/
def Feelers (s : State) : Prop := ∀ id p, s.peers.get id = some p → p.role = some .feeler → s.closing.get id ≠ none

/-- the invariant -/
structure PInv (c : Cfg) (k T : Nat) (s : State) : Prop where
  core : Core c k T s
  banned : NotBanned c s
  scored : Scored c s
  feelers : Feelers s

theorem Core.mono {c : Cfg} {k k' T : Nat} {s : State} (h : Core c k T s) (hk : k ≤ k') : Core c k' T s :=
  { h with book := h.book.mono hk }

theorem PInv.mono {c : Cfg} {k k' T : Nat} {s : State} (h : PInv c k T s) (hk : k ≤ k') : PInv c k' T s :=
  { h with core := h.core.mono hk }

/-! ### Active peers -/

theorem mem_active {s : State} {role : PeerRole} {x : Nat × Ctx} : x ∈ s.active role ↔
    s.peers.get x.1 = some x.2 ∧ x.2.role = role ∧ s.closing.get x.1 = none := by
  unfold State.active
  rw [List.mem_filter, mem_entries', Bool.and_eq_true, decide_eq_true_eq, Bool.not_eq_true', contains_false]

theorem keys_nodup {K V : Type} [LinearOrder K] (m : BMap K V) : (m.entries.map (·.1)).Nodup := by
  rw [List.Nodup, List.pairwise_map]
  exact m.sorted.imp fun {a b} h => ne_of_lt h

theorem active_nodup (s : State) (role : PeerRole) : ((s.active role).map (·.1)).Nodup :=
  (keys_nodup s.peers).sublist (List.Sublist.map _ List.filter_sublist)

/-- the number of active peers does not grow if the new ones are among the old ones -/
theorem active_le {s s' : State} {role : PeerRole} (h : ∀ x ∈ s'.active role, ∃ p, (x.1, p) ∈ s.active role) :
    (s'.active role).length ≤ (s.active role).length := by
  have := (List.subperm_of_subset (active_nodup s' role) (l₂ := (s.active role).map (·.1)) (by
    intro id hid
    obtain ⟨x, hx, rfl⟩ := List.mem_map.mp hid
    obtain ⟨p, hp⟩ := h x hx
    exact List.mem_map.mpr ⟨_, hp, rfl⟩)).length_le
  simpa using this

/-! ### Disconnecting -/

/-- some peers have been told to disconnect -/
structure Closes (s s' : State) (l : List Nat) : Prop where
  book : s'.book = s.book
  peers : s'.peers = s.peers
  dialing : s'.dialing = s.dialing
  on : s'.on = s.on
  mono : ∀ x, s'.closing.get x = none → s.closing.get x = none
  self : ∀ x ∈ l, s.peers.get x ≠ none → s'.closing.get x ≠ none
  dom : ∀ x, s.peers.get x = none → s.closing.get x = none → s'.closing.get x = none
  other : ∀ x, x ∉ l → s'.closing.get x = s.closing.get x

theorem Closes.refl (s : State) : Closes s s [] :=
  ⟨rfl, rfl, rfl, rfl, fun _ h => h, by nofun, fun _ _ h => h, fun _ _ => rfl⟩

theorem disconnect_closes (s : State) (id : Nat) (rem : Bool) : Closes s (s.disconnect id rem) [id] := by
  unfold State.disconnect
  by_cases h : (s.closing.contains id || !s.peers.contains id) = true
  · rw [if_pos h]
    refine ⟨rfl, rfl, rfl, rfl, fun _ h => h, ?_, fun _ _ h => h, fun _ _ => rfl⟩
    intro x hx hp
    cases List.mem_singleton.mp hx
    rw [Bool.or_eq_true, contains_iff, Bool.not_eq_true', contains_false] at h
    rcases h with ⟨v, h⟩ | h
    · rw [h]; nofun
    · exact absurd h hp
  · rw [if_neg h]
    rw [Bool.not_eq_true, Bool.or_eq_false_iff, contains_false, Bool.not_eq_false', contains_iff] at h
    obtain ⟨h1, v, h2⟩ := h
    refine ⟨rfl, rfl, rfl, rfl, ?_, ?_, ?_, ?_⟩
    · intro x hx
      change (s.closing.insert id rem).get x = none at hx
      rw [BMap.get_insert] at hx
      split at hx
      · nomatch hx
      · exact hx
    · intro x hx _
      cases List.mem_singleton.mp hx
      change (s.closing.insert id rem).get id ≠ none
      rw [BMap.get_insert, if_pos rfl]; nofun
    · intro x hx hcl
      change (s.closing.insert id rem).get x = none
      rw [BMap.get_insert, if_neg]
      · exact hcl
      · rintro rfl; rw [h2] at hx; nomatch hx
    · intro x hx
      change (s.closing.insert id rem).get x = _
      rw [BMap.get_insert, if_neg (fun e => hx (List.mem_singleton.mpr e))]

theorem Closes.trans {s s' s'' : State} {l l' : List Nat} (h : Closes s s' l) (h' : Closes s' s'' l') : Closes s s'' (l ++ l') where
  book := h'.book.trans h.book
  peers := h'.peers.trans h.peers
  dialing := h'.dialing.trans h.dialing
  on := h'.on.trans h.on
  mono x hx := h.mono x (h'.mono x hx)
  self x hx hp := by
    rcases List.mem_append.mp hx with h1 | h1
    · exact fun e => h.self x h1 hp (h'.mono x e)
    · exact h'.self x h1 (by rw [h.peers]; exact hp)
  dom x hp hcl := h'.dom x (by rw [h.peers]; exact hp) (h.dom x hp hcl)
  other x hx := by
    rw [List.mem_append, not_or] at hx
    rw [h'.other x hx.2, h.other x hx.1]

theorem disconnectAll_closes : ∀ (l : List Nat) (s : State), Closes s (s.disconnectAll l) l
  | [], s => Closes.refl s
  | id :: l, s => (disconnect_closes s id false).trans (disconnectAll_closes l (s.disconnect id false))

theorem evict_closes (s : State) (o : Option Nat) : Closes s (s.evict o) o.toList := by
  cases o with
  | none => exact Closes.refl s
  | some id => exact disconnect_closes s id false

theorem Closes.conns {s s' : State} {l : List Nat} (h : Closes s s' l) : s'.conns = s.conns := by
  unfold State.conns
  rw [h.peers, h.dialing]

theorem Closes.active {s s' : State} {l : List Nat} (h : Closes s s' l) (role : PeerRole) {x : Nat × Ctx} (hx : x ∈ s'.active role) :
    x ∈ s.active role := by
  obtain ⟨h1, h2, h3⟩ := mem_active.mp hx
  rw [h.peers] at h1
  exact mem_active.mpr ⟨h1, h2, h.mono _ h3⟩

theorem Core.closes {c : Cfg} {k T : Nat} {s s' : State} {l : List Nat} (h : Core c k T s) (hc : Closes s s' l) : Core c k T s' where
  book := by rw [hc.book]; exact h.book
  good := by rw [hc.conns]; exact h.good
  anchors := by rw [hc.book]; exact h.anchors
  closing id hp := by rw [hc.peers] at hp; exact hc.dom id hp (h.closing id hp)
  inb := (active_le (s := s) fun x hx => ⟨x.2, hc.active none hx⟩).trans h.inb

theorem NotBanned.closes {c : Cfg} {s s' : State} {l : List Nat} (h : NotBanned c s) (hc : Closes s s' l) : NotBanned c s' := by
  intro id p hp hcl
  rw [hc.peers] at hp
  rw [hc.book]
  exact h id p hp (hc.mono id hcl)

theorem Scored.closes {c : Cfg} {s s' : State} {l : List Nat} (h : Scored c s) (hc : Closes s s' l) : Scored c s' := by
  intro id p hp hcl
  rw [hc.peers] at hp
  exact h id p hp (hc.mono id hcl)

theorem Feelers.closes {s s' : State} {l : List Nat} (h : Feelers s) (hc : Closes s s' l) : Feelers s' := by
  intro id p hp hr e
  rw [hc.peers] at hp
  exact h id p hp hr (hc.mono id e)

theorem PInv.closes {c : Cfg} {k T : Nat} {s s' : State} {l : List Nat} (h : PInv c k T s) (hc : Closes s s' l) : PInv c k T s' :=
  ⟨h.core.closes hc, h.banned.closes hc, h.scored.closes hc, h.feelers.closes hc⟩

/-- a peer that is active and is told to disconnect is one less -/
theorem active_lt {s s' : State} {l : List Nat} (hc : Closes s s' l) {role : PeerRole} {x : Nat × Ctx} (hx : x ∈ s.active role)
    (hl : x.1 ∈ l) : (s'.active role).length < (s.active role).length := by
  have hn : x.1 ∉ (s'.active role).map (·.1) := by
    intro hm
    obtain ⟨y, hy, e⟩ := List.mem_map.mp hm
    have h3 := (mem_active.mp hy).2.2
    rw [e] at h3
    refine hc.self _ hl ?_ h3
    rw [(mem_active.mp hx).1]; nofun
  have := (List.subperm_of_subset (l₁ := x.1 :: (s'.active role).map (·.1)) (l₂ := (s.active role).map (·.1))
    (List.nodup_cons.mpr ⟨hn, active_nodup s' role⟩) (by
      intro id hid
      rcases List.mem_cons.mp hid with rfl | hid
      · exact List.mem_map.mpr ⟨x, hx, rfl⟩
      · obtain ⟨y, hy, rfl⟩ := List.mem_map.mp hid
        exact List.mem_map.mpr ⟨y, hc.active role hy, rfl⟩)).length_le
  rw [List.length_cons, List.length_map, List.length_map] at this
  exact this

/-! ### The address book -/

theorem db_raw {c : Cfg} (hc : c.WF) {k T : Nat} {s : State} (h : PeerDb.Inv c.db k T s.book) (e : PeerDb.Event) {now rand : Nat}
    (hn : now ≤ T) (hr : rand < randLimit) (hT : T + longest false < maxTime) (hk : k + 1 < 2 ^ 32) :
    ∃ b', s.db c e now rand = .ok { s with book := b' } ∧ PeerDb.Inv c.db (k + 1) T b' ∧
      (∀ i, b'.banned.get i = banStep i (s.book.banned.get i) ⟨e, now, rand⟩) ∧
      (∀ i, b'.discouraged.get i = discourageStep c.db.discourageTime i (s.book.discouraged.get i) ⟨e, now, rand⟩) ∧
      (∀ a, b'.reserved.contains a = reservedStep a (s.book.reserved.contains a) ⟨e, now, rand⟩) ∧
      (∀ l, s.book.anchors = PeerDb.setOf l → b'.anchors = PeerDb.setOf (anchorStep l ⟨e, now, rand⟩)) := by
  obtain ⟨b', h1, h2⟩ := inv_step hc.db h (s := ⟨e, now, rand⟩) ⟨hn, hr⟩ hT hk
  refine ⟨b', ?_, h2, step_rest h h1⟩
  unfold State.db
  rw [h1]

/-- events of the address book other than bans and the setting of anchors -/
def Calm : PeerDb.Event → Prop
  | .ban _ _ | .setAnchors _ => False
  | _ => True

theorem banStep_none {e : PeerDb.Event} (h : Calm e) (i now rand : Nat) : banStep i none ⟨e, now, rand⟩ = none := by
  cases e <;> simp [Calm] at h <;> simp [banStep]

theorem anchorStep_calm {e : PeerDb.Event} (h : Calm e) (l : List Addr) (now rand : Nat) : anchorStep l ⟨e, now, rand⟩ = l := by
  cases e <;> simp [Calm] at h <;> rfl

theorem db_spec {c : Cfg} (hc : c.WF) {k T : Nat} {s : State} (h : Core c k T s) {e : PeerDb.Event} (he : Calm e) {now rand : Nat}
    (hn : now ≤ T) (hr : rand < randLimit) (hT : T + longest false < maxTime) (hk : k + 1 < 2 ^ 32) :
    ∃ b', s.db c e now rand = .ok { s with book := b' } ∧ Core c (k + 1) T { s with book := b' } ∧
      (NotBanned c s → NotBanned c { s with book := b' }) := by
  obtain ⟨b', h1, h2, h3, _, _, h4⟩ := db_raw hc h.book e hn hr hT hk
  refine ⟨b', h1, ⟨h2, h.good, ?_, h.closing, h.inb⟩, ?_⟩
  · obtain ⟨l, g1, g2, g3⟩ := h.anchors
    refine ⟨l, ?_, g2, g3⟩
    have := h4 l g1
    rw [anchorStep_calm he] at this
    exact this
  · intro hb id p hp hcl
    have := hb id p hp hcl
    change b'.banned.get _ = none
    rw [h3, this, banStep_none he]

theorem db_pinv {c : Cfg} (hc : c.WF) {k T : Nat} {s : State} (h : PInv c k T s) {e : PeerDb.Event} (he : Calm e) {now rand : Nat}
    (hn : now ≤ T) (hr : rand < randLimit) (hT : T + longest false < maxTime) (hk : k + 1 < 2 ^ 32) :
    ∃ b', s.db c e now rand = .ok { s with book := b' } ∧ PInv c (k + 1) T { s with book := b' } := by
  obtain ⟨b', h1, h2, h3⟩ := db_spec hc h.core he hn hr hT hk
  exact ⟨b', h1, h2, h3 h.banned, h.scored, h.feelers⟩

/-! ### Bans -/

theorem mem_peersAt {c : Cfg} {s : State} {ip id : Nat} : id ∈ s.peersAt c ip ↔ ∃ p, s.peers.get id = some p ∧ c.db.ip p.addr = ip := by
  unfold State.peersAt
  rw [List.mem_map]
  constructor
  · rintro ⟨x, hx, rfl⟩
    rw [List.mem_filter, mem_entries', decide_eq_true_eq] at hx
    exact ⟨x.2, hx⟩
  · rintro ⟨p, h1, h2⟩
    exact ⟨(id, p), List.mem_filter.mpr ⟨BMap.mem_entries.mpr h1, decide_eq_true h2⟩, rfl⟩

theorem randLimit_pos : 0 < randLimit := by decide

theorem ban_spec {c : Cfg} (hc : c.WF) {k T : Nat} {s : State} (h : PInv c k T s) (ip dur : Nat) {now : Nat}
    (hn : now ≤ T) (hT : T + longest false < maxTime) (hk : k + 1 < 2 ^ 32) :
    ∃ s', s.ban c ip now dur = .ok s' ∧ PInv c (k + 1) T s' := by
  obtain ⟨b', h1, h2, h3, _, _, h4⟩ := db_raw hc h.core.book (.ban ip dur) hn randLimit_pos hT hk
  refine ⟨({ s with book := b' } : State).disconnectAll (s.peersAt c ip), ?_, ?_⟩
  · unfold State.ban
    rw [h1]; rfl
  · have hcl := disconnectAll_closes (s.peersAt c ip) { s with book := b' }
    have core : Core c (k + 1) T { s with book := b' } := by
      refine ⟨h2, h.core.good, ?_, h.core.closing, h.core.inb⟩
      obtain ⟨l, g1, g2, g3⟩ := h.core.anchors
      exact ⟨l, h4 l g1, g2, g3⟩
    refine ⟨core.closes hcl, ?_, Scored.closes (s := { s with book := b' }) h.scored hcl,
      Feelers.closes (s := { s with book := b' }) h.feelers hcl⟩
    intro id p hp hcl'
    rw [hcl.peers] at hp
    rw [hcl.book]
    change b'.banned.get _ = none
    have hold := h.banned id p hp (hcl.mono id hcl')
    rw [h3]
    unfold banStep
    dsimp only
    rw [if_neg, hold]
    intro e
    refine hcl.self id (mem_peersAt.mpr ⟨p, hp, e.symm⟩) ?_ hcl'
    rw [hp]; nofun

/-- discouraging an address, also where a score is too high -/
theorem discourage_spec {c : Cfg} (hc : c.WF) {k T : Nat} {s : State} (h : Core c k T s) (hb : NotBanned c s) (hf : Feelers s)
    (ip : Nat) {now : Nat} (hn : now ≤ T) (hT : T + longest false < maxTime) (hk : k + 1 < 2 ^ 32)
    (hs : ∀ id p, s.peers.get id = some p → s.closing.get id = none → c.whitelisted p.role p.addr = false → c.db.ip p.addr ≠ ip →
      p.score < c.threshold) :
    ∃ s', s.discourage c ip now = .ok s' ∧ PInv c (k + 1) T s' := by
  obtain ⟨b', h1, h2, h3⟩ := db_spec hc h (e := .discourage ip) trivial hn randLimit_pos hT hk
  refine ⟨({ s with book := b' } : State).disconnectAll (s.peersAt c ip), ?_, ?_⟩
  · unfold State.discourage
    rw [h1]; rfl
  · have hcl := disconnectAll_closes (s.peersAt c ip) { s with book := b' }
    refine ⟨h2.closes hcl, (h3 hb).closes hcl, ?_, Feelers.closes (s := { s with book := b' }) hf hcl⟩
    intro id p hp hcl' hw
    rw [hcl.peers] at hp
    refine hs id p hp (hcl.mono id hcl') hw fun e => ?_
    refine hcl.self id (mem_peersAt.mpr ⟨p, hp, e⟩) ?_ hcl'
    rw [hp]; nofun

theorem adjustFailed_spec {c : Cfg} (hc : c.WF) {k T : Nat} {s : State} (h : PInv c k T s) (a : Addr) (role : PeerRole) (score : Nat)
    {now : Nat} (hn : now ≤ T) (hT : T + longest false < maxTime) (hk : k + 1 < 2 ^ 32) :
    ∃ s', s.adjustFailed c a role score now = .ok s' ∧ PInv c (k + 1) T s' := by
  unfold State.adjustFailed
  split
  · exact ⟨s, rfl, h.mono (Nat.le_succ k)⟩
  · split
    · exact ⟨s, rfl, h.mono (Nat.le_succ k)⟩
    · exact discourage_spec hc h.core h.banned h.feelers _ hn hT hk fun id p h1 h2 h3 _ => h.scored id p h1 h2 h3

/-! ### A change of a peer -/

theorem conns_update {s : State} {id : Nat} {p p' : Ctx} (hp : s.peers.get id = some p) (ha : p'.addr = p.addr) (hr : p'.role = p.role) :
    ({ s with peers := s.peers.insert id p' } : State).conns.Perm s.conns := by
  unfold State.conns
  refine List.Perm.append_right _ ?_
  have h1 := (entries_update (m := s.peers) (k := id) p').map fun p => (p.2.addr, p.2.role)
  have h2 := (entries_erase hp).map fun p => (p.2.addr, p.2.role)
  rw [List.map_cons] at h1 h2
  dsimp only at h1 h2
  rw [ha, hr] at h1
  exact h1.trans h2.symm

theorem Core.update {c : Cfg} {k T : Nat} {s : State} (h : Core c k T s) {id : Nat} {p p' : Ctx} (hp : s.peers.get id = some p)
    (ha : p'.addr = p.addr) (hr : p'.role = p.role) : Core c k T { s with peers := s.peers.insert id p' } where
  book := h.book
  good := h.good.perm (conns_update hp ha hr)
  anchors := h.anchors
  closing x hx := by
    refine h.closing x ?_
    change (s.peers.insert id p').get x = none at hx
    rw [BMap.get_insert] at hx
    split at hx
    · nomatch hx
    · exact hx
  inb := by
    refine (active_le (s := s) fun x hx => ?_).trans h.inb
    obtain ⟨h1, h2, h3⟩ := mem_active.mp hx
    change (s.peers.insert id p').get x.1 = _ at h1
    rw [BMap.get_insert] at h1
    split at h1
    · rename_i e
      cases h1
      exact ⟨p, mem_active.mpr ⟨by rw [e]; exact hp, hr ▸ h2, h3⟩⟩
    · exact ⟨x.2, mem_active.mpr ⟨h1, h2, h3⟩⟩

theorem NotBanned.update {c : Cfg} {s : State} (h : NotBanned c s) {id : Nat} {p p' : Ctx} (hp : s.peers.get id = some p)
    (ha : p'.addr = p.addr) : NotBanned c { s with peers := s.peers.insert id p' } := by
  intro x q hq hcl
  change (s.peers.insert id p').get x = _ at hq
  rw [BMap.get_insert] at hq
  split at hq
  · rename_i e
    cases hq
    subst e
    rw [ha]
    exact h x p hp hcl
  · exact h x q hq hcl

theorem Feelers.update {s : State} (h : Feelers s) {id : Nat} {p p' : Ctx} (hp : s.peers.get id = some p) (hr : p'.role = p.role) :
    Feelers { s with peers := s.peers.insert id p' } := by
  intro x q hq hro
  change (s.peers.insert id p').get x = _ at hq
  rw [BMap.get_insert] at hq
  split at hq
  · rename_i e
    cases hq
    subst e
    exact h x p hp (hr ▸ hro)
  · exact h x q hq hro

theorem adjustScore_spec {c : Cfg} (hc : c.WF) {k T : Nat} {s : State} (h : PInv c k T s) (id score : Nat)
    {now : Nat} (hn : now ≤ T) (hT : T + longest false < maxTime) (hk : k + 1 < 2 ^ 32) :
    ∃ s', s.adjustScore c id score now = .ok s' ∧ PInv c (k + 1) T s' := by
  unfold State.adjustScore
  cases hp : s.peers.get id with
  | none => exact ⟨s, rfl, h.mono (Nat.le_succ k)⟩
  | some p =>
    dsimp only
    by_cases hw : c.whitelisted p.role p.addr = true
    · rw [if_pos hw]; exact ⟨s, rfl, h.mono (Nat.le_succ k)⟩
    · rw [if_neg hw]
      generalize min (p.score + score) (2 ^ 32 - 1) = v
      have core := h.core.update hp (p' := { p with score := v }) rfl rfl
      have hb := h.banned.update hp (p' := { p with score := v }) rfl
      have hf := h.feelers.update hp (p' := { p with score := v }) rfl
      by_cases hv : c.threshold ≤ v
      · rw [if_pos hv]
        refine discourage_spec hc core hb hf _ hn hT hk fun x q hq hcl hwq hne => ?_
        change (s.peers.insert id _).get x = _ at hq
        rw [BMap.get_insert] at hq
        split at hq
        · cases hq; exact absurd rfl hne
        · exact h.scored x q hq hcl hwq
      · rw [if_neg hv]
        refine ⟨_, rfl, (core.mono (Nat.le_succ k)), hb, ?_, hf⟩
        intro x q hq hcl hwq
        change (s.peers.insert id _).get x = _ at hq
        rw [BMap.get_insert] at hq
        split at hq
        · cases hq; exact Nat.lt_of_not_le hv
        · exact h.scored x q hq hcl hwq

end Verif.PeerManager
