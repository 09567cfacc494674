import Verif.PeerManager.Props

/-! Which peers are evicted. -/

namespace Verif.PeerManager

open Verif Verif.PeerDb

set_option maxRecDepth 100000

/-- the number of protected inbound peers -/
def protectedPeers (c : Cfg) : Nat := c.keepGroup + c.keepPing + c.keepBlocks + c.keepTxs

theorem choose_none_iff {r : Rand} (hr : r.Ok) {l : List Cand} : r.choose l = none ↔ l = [] := by
  refine ⟨hr.none l, fun h => ?_⟩
  cases e : r.choose l with
  | none => rfl
  | some x => exact absurd (hr.mem l x e) (by rw [h]; exact List.not_mem_nil)

theorem no_bad {l : List Cand} (h : l.filter (fun x => x.bad) = []) : ∀ x ∈ l, x.bad = false := by
  intro x hx
  by_contra hb
  have : x ∈ l.filter fun x => x.bad := List.mem_filter.mpr ⟨hx, by simpa using hb⟩
  rw [h] at this
  nomatch this

/-! ## Inbound peers -/

/-- **C76** an inbound peer is found for eviction just when there are more of them than are protected -/
theorem C76_inbound_evict_iff {c : Cfg} {r : Rand} (hr : r.Ok) (l : List Cand) :
    (∃ id, selectInbound c r l = some id) ↔ protectedPeers c < l.length := by
  have hk : c.keepTotal = protectedPeers c := rfl
  constructor
  · rintro ⟨id, h⟩
    unfold selectInbound at h
    split at h
    · nomatch h
    · omega
  · intro h
    unfold selectInbound
    rw [if_neg (by omega)]
    cases e : r.choose (l.filter fun x => x.bad) with
    | some x => exact ⟨x.id, rfl⟩
    | none =>
      obtain ⟨left, _, _, _, _, _, hn, _, _, _, _, _, hleft⟩ := filters_spec (c := c) hr (l := l) (by omega)
      obtain ⟨id, hid⟩ := findGroup_ne_nil hn
      rw [hleft] at hid
      exact ⟨id, hid⟩

/-- **C76** the inbound peer that is evicted is a banned or discouraged one if there is one.  Otherwise the peers can be divided into those kept
for their address group, for their ping, for the time of their last new block and for that of their last new transaction – as many as are to be
kept for each reason, each no worse in that respect than any of the others – and the others, of which the evicted one is the newest of a group
that has the most peers. -/
theorem C76_inbound_evicted {c : Cfg} {r : Rand} (hr : r.Ok) {l : List Cand} {id : Nat} (h : selectInbound c r l = some id) :
    ((∃ x ∈ l, x.bad = true) → ∃ x ∈ l, x.bad = true ∧ x.id = id) ∧
    ((∀ x ∈ l, x.bad = false) → ∃ others byGroup byPing byBlock byTx : List Cand,
      l.Perm (others ++ (byTx ++ (byBlock ++ (byPing ++ byGroup)))) ∧
      byGroup.length = c.keepGroup ∧ byPing.length = c.keepPing ∧ byBlock.length = c.keepBlocks ∧ byTx.length = c.keepTxs ∧
      (∀ x ∈ others, (∀ y ∈ byGroup, x.group ≤ y.group) ∧ (∀ y ∈ byPing, y.ping ≤ x.ping) ∧
        (∀ y ∈ byBlock, timeKey x.lastBlock ≤ timeKey y.lastBlock) ∧ (∀ y ∈ byTx, timeKey x.lastTx ≤ timeKey y.lastTx)) ∧
      ∃ x ∈ others, x.id = id ∧
        (∀ g, (others.countP fun y => y.group = g) ≤ others.countP fun y => y.group = x.group) ∧
        ∀ y ∈ others, y.group = x.group → y.id ≤ x.id) := by
  unfold selectInbound at h
  split at h
  · nomatch h
  · rename_i hlen
    cases e : r.choose (l.filter fun x => x.bad) with
    | some y =>
      rw [e] at h
      cases h
      obtain ⟨h1, h2⟩ := List.mem_filter.mp (hr.mem _ _ e)
      refine ⟨fun _ => ⟨y, h1, h2, rfl⟩, fun hb => ?_⟩
      have := hb y h1
      rw [this] at h2
      nomatch h2
    | none =>
      rw [e] at h
      have hnb := no_bad ((choose_none_iff hr).mp e)
      refine ⟨fun ⟨x, hx, hb⟩ => ?_, fun _ => ?_⟩
      · rw [hnb x hx] at hb; nomatch hb
      · obtain ⟨left, k1, k2, k3, k4, hp, _, n1, n2, n3, n4, ho, hleft⟩ := filters_spec (c := c) hr (l := l) (by omega)
        refine ⟨left, k1, k2, k3, k4, hp, n1, n2, n3, n4, ho, ?_⟩
        dsimp only at h
        rw [← hleft] at h
        exact findGroup_spec h

theorem count_better {others k rest l : List Cand} {x : Cand} {p : Cand → Prop} [DecidablePred p] (hn : (l.map (·.id)).Nodup)
    (hp : l.Perm (others ++ (k ++ rest))) (hx : x ∈ others) (hk : ∀ y ∈ k, p y) :
    k.length ≤ l.countP fun y => y.id ≠ x.id ∧ p y := by
  rw [hp.countP_eq, List.countP_append, List.countP_append]
  have hd : ∀ y ∈ k, y.id ≠ x.id := by
    intro y hy e
    have h1 := (hp.map (·.id)).nodup_iff.mp hn
    rw [List.map_append] at h1
    exact (List.nodup_append.mp h1).2.2 x.id (List.mem_map.mpr ⟨x, hx, rfl⟩) y.id
      (List.mem_map.mpr ⟨y, List.mem_append_left _ hy, rfl⟩) e.symm
  have : k.countP (fun y => decide (y.id ≠ x.id ∧ p y)) = k.length := by
    rw [List.countP_eq_length]
    exact fun y hy => decide_eq_true ⟨hd y hy, hk y hy⟩
  omega

/-- **C76** an attacker cannot have a peer evicted that is among the best in any of the four respects: of the peer evicted for another reason
than being bad there are as many others as are protected that are no worse – in address group, in ping, in the last block, in the last
transaction.  And its group is among the largest, up to the number of protected peers. -/
theorem C76_inbound_protects {c : Cfg} {r : Rand} (hr : r.Ok) {l : List Cand} {id : Nat} (hn : (l.map (·.id)).Nodup)
    (hb : ∀ x ∈ l, x.bad = false) (h : selectInbound c r l = some id) :
    ∃ x ∈ l, x.id = id ∧
      c.keepGroup ≤ (l.countP fun y => y.id ≠ id ∧ x.group ≤ y.group) ∧
      c.keepPing ≤ (l.countP fun y => y.id ≠ id ∧ y.ping ≤ x.ping) ∧
      c.keepBlocks ≤ (l.countP fun y => y.id ≠ id ∧ timeKey x.lastBlock ≤ timeKey y.lastBlock) ∧
      c.keepTxs ≤ (l.countP fun y => y.id ≠ id ∧ timeKey x.lastTx ≤ timeKey y.lastTx) ∧
      (∀ g, (l.countP fun y => y.group = g) ≤ (l.countP fun y => y.group = x.group) + protectedPeers c) ∧
      (l.countP fun y => y.group = x.group ∧ id < y.id) ≤ protectedPeers c := by
  obtain ⟨others, k1, k2, k3, k4, hp, n1, n2, n3, n4, ho, x, hx, rfl, hg, hnew⟩ := (C76_inbound_evicted hr h).2 hb
  obtain ⟨o1, o2, o3, o4⟩ := ho x hx
  have hlen : (k4 ++ (k3 ++ (k2 ++ k1))).length = protectedPeers c := by
    simp only [List.length_append]
    unfold protectedPeers
    omega
  refine ⟨x, hp.symm.subset (List.mem_append_left _ hx), rfl, ?_, ?_, ?_, ?_, fun g => ?_, ?_⟩
  · rw [← n1]
    refine count_better hn (others := others) (rest := k4 ++ (k3 ++ k2)) (hp.trans (List.Perm.append_left _ ?_)) hx o1
    refine List.Perm.trans (l₂ := (k4 ++ (k3 ++ k2)) ++ k1) (by simp only [List.append_assoc]; rfl) List.perm_append_comm
  · rw [← n2]
    refine count_better hn (others := others) (rest := (k4 ++ k3) ++ k1) (hp.trans (List.Perm.append_left _ ?_)) hx o2
    refine List.Perm.trans (l₂ := (k4 ++ k3) ++ (k2 ++ k1)) (by simp only [List.append_assoc]; rfl) ?_
    refine List.perm_append_comm.trans ?_
    rw [List.append_assoc]
    exact List.Perm.append_left _ List.perm_append_comm
  · rw [← n3]
    refine count_better hn (others := others) (rest := (k2 ++ k1) ++ k4) (hp.trans (List.Perm.append_left _ ?_)) hx o3
    refine List.perm_append_comm.trans ?_
    rw [List.append_assoc]
  · rw [← n4]
    exact count_better hn (others := others) (rest := k3 ++ (k2 ++ k1)) hp hx o4
  · have h1 := hp.countP_eq (fun y => decide (y.group = g))
    have h2 := hp.countP_eq (fun y => decide (y.group = x.group))
    rw [List.countP_append] at h1 h2
    have h3 := hg g
    have h4 := List.countP_le_length (p := fun y => decide (y.group = g)) (l := k4 ++ (k3 ++ (k2 ++ k1)))
    omega
  · rw [hp.countP_eq, List.countP_append]
    have h0 : others.countP (fun y => decide (y.group = x.group ∧ x.id < y.id)) = 0 := by
      rw [List.countP_eq_zero]
      intro y hy hd
      have := of_decide_eq_true hd
      have := hnew y hy this.1
      omega
    have h4 := List.countP_le_length (p := fun y => decide (y.group = x.group ∧ x.id < y.id)) (l := k4 ++ (k3 ++ (k2 ++ k1)))
    omega

/-- 1 is kept for its group, 2 for its ping; of the rest, 5 is the newest of the group with the most peers -/
def exCands : List Cand :=
  [⟨1, 50, 9, 80, none, none, none, false⟩, ⟨2, 50, 4, 10, none, none, none, false⟩, ⟨3, 40, 4, 90, none, none, none, false⟩,
   ⟨4, 40, 7, 95, none, none, none, false⟩, ⟨5, 30, 4, 90, none, none, none, false⟩]

example : selectInbound exCfg exRand exCands = some 5 ∧
    selectInbound exCfg exRand (⟨6, 3, 9, 1, some 1, some 2, none, true⟩ :: exCands) = some 6 ∧
    selectInbound exCfg exRand (exCands.take 2) = none := by decide +kernel

/-! ## Outbound peers -/

/-- the time of the last news of a peer: now, if blocks have been expected of it for no more than five seconds -/
def news (now : Nat) (x : Cand) : Option Nat :=
  if ∃ t, x.expecting = some t ∧ now ≤ t + 5 * second then some now else x.lastBlock

theorem news_eq (now : Nat) (x : Cand) : tipTime now x = news now x := by
  unfold tipTime news expectationMax
  cases x.expecting with
  | none => rw [if_neg (by nofun)]
  | some t =>
    dsimp only
    split
    · rename_i h
      rw [if_pos ⟨t, rfl, h⟩]
    · rename_i h
      rw [if_neg (by rintro ⟨t', h1, h2⟩; cases h1; exact h h2)]

theorem timeKey_le {a b : Nat} : timeKey (some a) ≤ timeKey (some b) ↔ a ≤ b := by
  change (a : Int) ≤ b ↔ _; omega

/-- **C76** an outbound peer is found for eviction just when there are more of them than wanted and there is a banned or discouraged one, or more
than wanted are old enough -/
theorem C76_outbound_evict_iff {r : Rand} (hr : r.Ok) (minAge wanted now : Nat) (l : List Cand) :
    (∃ id, selectOutbound r minAge wanted now l = some id) ↔
      wanted < l.length ∧ ((∃ x ∈ l, x.bad = true) ∨ wanted < l.countP fun x => minAge ≤ x.age) := by
  unfold selectOutbound
  by_cases h1 : l.length ≤ wanted
  · rw [if_pos h1]
    exact ⟨nofun, fun h => absurd h.1 (by omega)⟩
  · rw [if_neg h1]
    cases e : r.choose (l.filter fun x => x.bad) with
    | some y =>
      obtain ⟨g1, g2⟩ := List.mem_filter.mp (hr.mem _ _ e)
      exact ⟨fun _ => ⟨by omega, Or.inl ⟨y, g1, g2⟩⟩, fun _ => ⟨y.id, rfl⟩⟩
    | none =>
      have hnb := no_bad ((choose_none_iff hr).mp e)
      dsimp only
      rw [List.countP_eq_length_filter]
      by_cases h2 : (l.filter fun x => decide (minAge ≤ x.age)).length ≤ wanted
      · rw [if_pos h2]
        refine ⟨nofun, ?_⟩
        rintro ⟨_, ⟨x, hx, hb⟩ | h⟩
        · rw [hnb x hx] at hb; nomatch hb
        · omega
      · rw [if_neg h2]
        refine ⟨fun _ => ⟨by omega, Or.inr (by omega)⟩, fun _ => ?_⟩
        cases e2 : (r.sort (fun x => x.age) (l.filter fun x => decide (minAge ≤ x.age))).find? (fun x => (tipTime now x).isNone) with
        | some x => exact ⟨x.id, rfl⟩
        | none =>
          obtain ⟨x, hx⟩ := minBy_ne_nil (fun x => timeKey (tipTime now x))
            (l := r.sort (fun x => x.age) (l.filter fun x => decide (minAge ≤ x.age))) (by
              intro h
              have := (hr.perm (fun x => x.age) (l.filter fun x => decide (minAge ≤ x.age))).length_eq
              rw [h] at this
              exact h2 (by rw [← this]; exact Nat.zero_le _))
          exact ⟨x.id, by rw [hx]; rfl⟩

/-- **C76** the outbound peer that is evicted is a banned or discouraged one if there is one.  Otherwise it is old enough; it is the youngest of
those old enough that never had news of the chain if there are any, or the one whose news are the oldest. -/
theorem C76_outbound_evicted {r : Rand} (hr : r.Ok) {minAge wanted now : Nat} {l : List Cand} {id : Nat}
    (h : selectOutbound r minAge wanted now l = some id) :
    ((∃ x ∈ l, x.bad = true) → ∃ x ∈ l, x.bad = true ∧ x.id = id) ∧
    ((∀ x ∈ l, x.bad = false) → ∃ x ∈ l, x.id = id ∧ minAge ≤ x.age ∧
      (news now x = none → ∀ y ∈ l, minAge ≤ y.age → news now y = none → x.age ≤ y.age) ∧
      (∀ t, news now x = some t → ∀ y ∈ l, minAge ≤ y.age → ∃ t', news now y = some t' ∧ t ≤ t')) := by
  unfold selectOutbound at h
  split at h
  · nomatch h
  · cases e : r.choose (l.filter fun x => x.bad) with
    | some y =>
      rw [e] at h
      cases h
      obtain ⟨h1, h2⟩ := List.mem_filter.mp (hr.mem _ _ e)
      refine ⟨fun _ => ⟨y, h1, h2, rfl⟩, fun hb => ?_⟩
      rw [hb y h1] at h2
      nomatch h2
    | none =>
      rw [e] at h
      have hnb := no_bad ((choose_none_iff hr).mp e)
      refine ⟨fun ⟨x, hx, hb⟩ => absurd hb (by rw [hnb x hx]; nofun), fun _ => ?_⟩
      dsimp only at h
      split at h
      · nomatch h
      · have hs := hr.sorted (fun x => x.age) (l.filter fun x => decide (minAge ≤ x.age))
        have hm : ∀ x, x ∈ r.sort (fun x => (x.age : Int)) (l.filter fun x => decide (minAge ≤ x.age)) ↔ x ∈ l ∧ minAge ≤ x.age := by
          intro x
          rw [(hr.perm (fun x => (x.age : Int)) (l.filter fun x => decide (minAge ≤ x.age))).mem_iff, List.mem_filter, decide_eq_true_eq]
        generalize r.sort (fun x => (x.age : Int)) (l.filter fun x => decide (minAge ≤ x.age)) = m at hs hm h
        cases e2 : m.find? (fun x => (tipTime now x).isNone) with
        | some x =>
          rw [e2] at h
          cases h
          obtain ⟨hx, as, bs, hab, has⟩ := List.find?_eq_some_iff_append.mp e2
          have hxm := (hm x).mp (by rw [hab]; exact List.mem_append_right _ List.mem_cons_self)
          rw [news_eq, Option.isNone_iff_eq_none] at hx
          refine ⟨x, hxm.1, rfl, hxm.2, fun _ y hy hya hyn => ?_, fun t ht => ?_⟩
          · have hym := (hm y).mpr ⟨hy, hya⟩
            rw [hab] at hym hs
            rcases List.mem_append.mp hym with g | g
            · have := has y g
              rw [news_eq, hyn] at this
              nomatch this
            · rcases List.mem_cons.mp g with rfl | g
              · exact Nat.le_refl _
              · have := (List.pairwise_cons.mp (List.pairwise_append.mp hs).2.1).1 y g
                omega
          · rw [hx] at ht; nomatch ht
        | none =>
          rw [e2] at h
          obtain ⟨x, hx, rfl⟩ := Option.map_eq_some_iff.mp h
          obtain ⟨g1, g2⟩ := minBy_some hx
          have hall : ∀ y ∈ m, ∃ t, news now y = some t := by
            intro y hy
            have := List.find?_eq_none.mp e2 y hy
            rw [news_eq] at this
            cases e3 : news now y with
            | none => rw [e3] at this; exact absurd rfl this
            | some t => exact ⟨t, rfl⟩
          have hxm := (hm x).mp g1
          refine ⟨x, hxm.1, rfl, hxm.2, fun hn => ?_, fun t ht y hy hya => ?_⟩
          · obtain ⟨t, ht⟩ := hall x g1
            rw [hn] at ht; nomatch ht
          · have hym := (hm y).mpr ⟨hy, hya⟩
            obtain ⟨t', ht'⟩ := hall y hym
            refine ⟨t', ht', ?_⟩
            have := g2 y hym
            rw [news_eq, news_eq, ht, ht', timeKey_le] at this
            exact this

example :
    let l : List Cand := [⟨1, 50, 9, 80, some 70, none, none, false⟩, ⟨2, 40, 4, 10, none, none, some 95, false⟩,
      ⟨3, 30, 4, 90, none, none, none, false⟩, ⟨4, 20, 7, 95, none, none, none, false⟩, ⟨5, 5, 7, 95, none, none, none, false⟩]
    selectOutbound exRand 10 2 100 l = some 4 ∧ selectOutbound exRand 10 1 100 (l.take 2) = some 1 ∧
    selectOutbound exRand 10 4 100 l = none ∧ selectOutbound exRand 45 2 100 l = none := by decide +kernel

/-! ## What the node does with them -/

/-- the number of inbound peers that are not being disconnected -/
def inboundPeers (s : State) : Nat := s.peers.entries.countP fun p => p.2.role = none ∧ s.closing.contains p.1 = false

theorem inboundPeers_eq (s : State) : (s.active none).length = inboundPeers s := by
  unfold State.active inboundPeers
  rw [← List.countP_eq_length_filter]
  refine List.countP_congr fun x _ => ?_
  simp

theorem makeRoom_iff {c : Cfg} {r : Rand} (hr : r.Ok) (s : State) (a : Addr) (now : Nat) :
    (∃ s1, s.makeRoom c r a now = some s1) ↔ inboundPeers s < c.maxInbound ∨
      (s.book.discouraged.contains (c.db.ip a) = false ∧ protectedPeers c < inboundPeers s) := by
  have hi := C76_inbound_evict_iff (c := c) hr (s.cands c none now)
  have hl : (s.cands c none now).length = inboundPeers s := by
    unfold State.cands
    rw [List.length_map, inboundPeers_eq]
  rw [hl] at hi
  unfold State.makeRoom
  rw [inboundPeers_eq]
  by_cases h1 : c.maxInbound ≤ inboundPeers s
  · rw [if_pos h1]
    cases h2 : s.book.discouraged.contains (c.db.ip a) with
    | true =>
      rw [if_pos rfl]
      refine ⟨nofun, ?_⟩
      rintro (h | ⟨h, _⟩)
      · omega
      · nomatch h
    | false =>
      rw [if_neg (by nofun)]
      cases e : selectInbound c r (s.cands c none now) with
      | none =>
        rw [e] at hi
        refine ⟨nofun, ?_⟩
        rintro (h | ⟨_, h⟩)
        · omega
        · nomatch (hi.mpr h).choose_spec
      | some id => exact ⟨fun _ => Or.inr ⟨rfl, hi.mp ⟨id, e⟩⟩, fun _ => ⟨_, rfl⟩⟩
  · rw [if_neg h1]
    exact ⟨fun _ => Or.inl (by omega), fun _ => ⟨s, rfl⟩⟩

/-- **C76** an inbound connection is accepted just when networking is enabled, all checks of the peer have passed, its address is not banned,
and there is room; or there are more peers than are protected and its address is not discouraged -/
theorem C76_inbound_iff {c : Cfg} {s s' : State} {x : Step} (hr : x.r.Ok) {id : Nat} {a : Addr} {ok : Bool} {score : Nat}
    (hev : x.ev = .inbound id a ok score) (ex : s.step c x = .ok s') (hid : s.peers.get id = none) :
    s'.peers.get id ≠ none ↔ s.on = true ∧ ok = true ∧ s.book.banned.contains (c.db.ip a) = false ∧
      (inboundPeers s < c.maxInbound ∨ (s.book.discouraged.contains (c.db.ip a) = false ∧ protectedPeers c < inboundPeers s)) := by
  obtain ⟨ev, now, r⟩ := x
  cases hev
  change s.accept c r id a none ok score now = .ok s' at ex
  have hv : (∃ s1, s.validate c r id a none ok now = some s1) ↔ s.on = true ∧ ok = true ∧ s.book.banned.contains (c.db.ip a) = false ∧
      (inboundPeers s < c.maxInbound ∨ (s.book.discouraged.contains (c.db.ip a) = false ∧ protectedPeers c < inboundPeers s)) := by
    rw [← makeRoom_iff hr s a now]
    unfold State.validate
    have hp : s.peers.contains id = false := (contains_false _ _).mpr hid
    have hn : s.noConflict c a none = true := rfl
    rw [hp, hn]
    cases s.on <;> cases ok <;> cases s.book.banned.contains (c.db.ip a) <;> simp
  rw [← hv]
  rcases accept_cases ex with ⟨h1, h2⟩ | ⟨s1, h1, h2, _⟩
  · rw [h2.peers, h1]
    exact ⟨fun h => absurd hid h, fun h => nomatch h.choose_spec⟩
  · rw [h1, h2, BMap.get_insert_self]
    exact ⟨fun _ => ⟨s1, rfl⟩, fun _ => by nofun⟩

/-- **C76** an inbound connection costs another one only if it is accepted, all inbound places are taken, and the other one is the inbound peer
selected for eviction; or if it is refused for misbehaviour and the other is with the same address -/
theorem C76_flood {c : Cfg} (hc : c.WF) {T t0 : Nat} {steps : List Step} {x : Step} (hr : Runs T t0 (steps ++ [x]))
    {bootNodes reserved : List Addr} {s s' : State} (e : run c bootNodes reserved t0 steps = .ok s) {id : Nat} {a : Addr} {ok : Bool} {score : Nat}
    (hev : x.ev = .inbound id a ok score) (ex : s.step c x = .ok s') {j : Nat} {p : Ctx} (hp : s.peers.get j = some p)
    (h0 : s.closing.contains j = false) (h1 : s'.closing.contains j = true) :
    (s.peers.get id = none ∧ s'.peers.get id ≠ none ∧ p.role = none ∧ inboundPeers s = c.maxInbound ∧
      selectInbound c x.r (s.cands c none x.now) = some j) ∨
    (s'.peers = s.peers ∧ c.db.ip p.addr = c.db.ip a ∧ c.threshold ≤ score) := by
  obtain ⟨h, hx, hT, hk⟩ := run_step hc hr e
  obtain ⟨ev, now, r⟩ := x
  cases hev
  rw [contains_false] at h0
  change s.accept c r id a none ok score now = .ok s' at ex
  unfold State.accept at ex
  cases hv : s.validate c r id a none ok now with
  | none =>
    rw [hv] at ex
    refine Or.inr ?_
    dsimp only at ex
    rw [bind_eq_ok] at ex
    obtain ⟨s1, g1, g2⟩ := ex
    rw [if_neg (by nofun)] at g2
    cases g2
    refine ⟨(adjustFailed_kept g1).peers, ?_⟩
    unfold State.adjustFailed at g1
    split at g1
    · cases g1
      rw [(contains_false _ _).mpr h0] at h1
      nomatch h1
    · split at g1
      · cases g1
        rw [(contains_false _ _).mpr h0] at h1
        nomatch h1
      · rename_i hlt
        unfold State.discourage at g1
        cases hb : s.book.step c.db ⟨.discourage (c.db.ip a), now, 0⟩ with
        | error q => unfold State.db at g1; rw [hb] at g1; nomatch g1
        | ok b =>
          unfold State.db at g1
          rw [hb] at g1
          cases g1
          have hcl := disconnectAll_closes (s.peersAt c (c.db.ip a)) { s with book := b }
          by_cases hm : j ∈ s.peersAt c (c.db.ip a)
          · obtain ⟨p', q1, q2⟩ := mem_peersAt.mp hm
            rw [hp] at q1
            cases q1
            exact ⟨q2, by omega⟩
          · have := hcl.other j hm
            rw [(contains_false _ _).mpr (this.trans h0)] at h1
            nomatch h1
  | some s1 =>
    refine Or.inl ?_
    have hacc := ex
    rw [hv] at ex
    obtain ⟨_, _, _, hid, _⟩ := validate_ok hv
    rcases accept_cases (c := c) (s := s) (s' := s') (r := r) (id := id) (a := a) (role := none) (ok := ok) (score := score) (now := now)
      (by unfold State.accept; rw [hv]; exact ex) with ⟨q1, _⟩ | ⟨s2, q1, q2, _, _, q3⟩
    · rw [hv] at q1; nomatch q1
    · rw [hv] at q1
      cases q1
      have hcl : s'.closing = s1.closing := q3 (by nofun)
      refine ⟨hid, by rw [q2, BMap.get_insert_self]; nofun, ?_⟩
      unfold State.validate at hv
      split at hv
      · change s.makeRoom c r a now = some s1 at hv
        unfold State.makeRoom at hv
        split at hv
        · rename_i hfull
          split at hv
          · nomatch hv
          · cases e' : selectInbound c r (s.cands c none now) with
            | none => rw [e'] at hv; nomatch hv
            | some i =>
              rw [e'] at hv
              cases hv
              have hij : j = i := by
                by_contra hne
                have := (disconnect_closes s i false).other j (by simpa using hne)
                rw [hcl, (contains_false _ _).mpr (this.trans h0)] at h1
                nomatch h1
              subst hij
              obtain ⟨y, hy, hyi⟩ := selectInbound_mem hx.rand e'
              obtain ⟨z, hz, rfl⟩ := mem_cands.mp hy
              have hzm := mem_active.mp hz
              have hzj : z.1 = j := hyi
              rw [hzj, hp] at hzm
              refine ⟨?_, ?_, rfl⟩
              · rw [Option.some.inj hzm.1]; exact hzm.2.1
              · rw [← inboundPeers_eq]
                exact Nat.le_antisymm h.core.inb hfull
        · cases hv
          rw [hcl, (contains_false _ _).mpr h0] at h1
          nomatch h1
      · nomatch hv

example : okAnd (run exCfg [] [] 0 (exRun.take 10)) (fun s => inboundPeers s = 3 ∧ s.closing.size = 0 ∧
    selectInbound exCfg exRand (s.cands exCfg none 5) = some 3) ∧
    okAnd (run exCfg [] [] 0 (exRun.take 11)) (fun s => s.peers.contains 6 = true ∧ s.closing.contains 3 = true) := by decide +kernel

/-- the number of peers of a role that are not being disconnected -/
def staying (s : State) (role : Role) : Nat := s.peers.entries.countP fun p => p.2.role = some role ∧ s.closing.contains p.1 = false

theorem staying_eq (s : State) (role : Role) : (s.active (some role)).length = staying s role := by
  unfold State.active staying
  rw [← List.countP_eq_length_filter]
  refine List.countP_congr fun x _ => ?_
  simp

theorem evict_other {c : Cfg} {r : Rand} (hr : r.Ok) (s : State) (minAge wanted now : Nat) (role other : Role) :
    min (s.active (some other)).length (if other = role then wanted else (s.active (some other)).length) ≤
      ((s.evict (selectOutbound r minAge wanted now (s.cands c (some role) now))).active (some other)).length := by
  cases e : selectOutbound r minAge wanted now (s.cands c (some role) now) with
  | none => exact Nat.min_le_left _ _
  | some id =>
    have hcl := evict_closes s (some id)
    have hsub : ((s.active (some other)).map (·.1)) ⊆ id :: (((s.evict (some id)).active (some other)).map (·.1)) := by
      intro i hi
      obtain ⟨y, hy, rfl⟩ := List.mem_map.mp hi
      by_cases hid : y.1 = id
      · exact List.mem_cons.mpr (Or.inl hid)
      · refine List.mem_cons_of_mem _ (List.mem_map.mpr ⟨y, ?_, rfl⟩)
        have hm := mem_active.mp hy
        refine mem_active.mpr ⟨by rw [hcl.peers]; exact hm.1, hm.2.1, ?_⟩
        rw [hcl.other _ (by simpa using hid)]
        exact hm.2.2
    by_cases ho : other = role
    · subst ho
      rw [if_pos rfl]
      have h1 := ((C76_outbound_evict_iff hr minAge wanted now _).mp ⟨id, e⟩).1
      unfold State.cands at h1
      rw [List.length_map] at h1
      have h2 := (List.subperm_of_subset (active_nodup s (some other)) hsub).length_le
      simp only [List.length_cons, List.length_map] at h2
      omega
    · rw [if_neg ho]
      have hmem : ∃ x ∈ s.cands c (some role) now, x.id = id := by
        have g := C76_outbound_evicted hr e
        by_cases hb : ∃ x ∈ s.cands c (some role) now, x.bad = true
        · obtain ⟨x, g1, _, g2⟩ := g.1 hb
          exact ⟨x, g1, g2⟩
        · obtain ⟨x, g1, g2, _⟩ := g.2 (fun x hx => by
            by_contra hn
            exact hb ⟨x, hx, by simpa using hn⟩)
          exact ⟨x, g1, g2⟩
      obtain ⟨x, hx, hxi⟩ := hmem
      obtain ⟨z, hz, rfl⟩ := mem_cands.mp hx
      have hzm := mem_active.mp hz
      have hzi : z.1 = id := hxi
      have h2 := (List.subperm_of_subset (active_nodup s (some other)) (l₂ := ((s.evict (some id)).active (some other)).map (·.1)) (by
        intro i hi
        rcases List.mem_cons.mp (hsub hi) with rfl | h
        · exfalso
          obtain ⟨y, hy, hyi⟩ := List.mem_map.mp hi
          have hym := mem_active.mp hy
          rw [hyi, ← hzi, hzm.1] at hym
          have : z.2 = y.2 := Option.some.inj hym.1
          rw [← this, hzm.2.1] at hym
          exact ho (Option.some.inj hym.2.1).symm
        · exact h)).length_le
      simp only [List.length_map] at h2
      omega

/-- **C76** the outbound evictions never leave the node with fewer full relay or block relay peers than it wants, if it had them -/
theorem C76_outbound_kept {c : Cfg} (hc : c.WF) {T t0 : Nat} {steps : List Step} {x : Step} (hr : Runs T t0 (steps ++ [x]))
    {bootNodes reserved : List Addr} {s s' : State} (e : run c bootNodes reserved t0 steps = .ok s)
    (hev : x.ev = .heartbeat) (ex : s.step c x = .ok s') :
    min (staying s .fullRelay) c.fullCount ≤ staying s' .fullRelay ∧ min (staying s .blockRelay) c.blockCount ≤ staying s' .blockRelay := by
  obtain ⟨h, hx, hT, hk⟩ := run_step hc hr e
  obtain ⟨ev, now, r⟩ := x
  cases hev
  change s.heartbeat c r now = .ok s' at ex
  unfold State.heartbeat at ex
  obtain ⟨b1, h1, h2⟩ := db_pinv hc h (e := .heartbeat) trivial hx.now randLimit_pos hT (by omega)
  rw [h1] at ex
  change (if s.on = true then _ else _) = _ at ex
  simp only [← staying_eq]
  split at ex
  · obtain ⟨s1, g1, g2, _, _⟩ := establish_spec h2 hx.rand now
    rw [g1] at ex
    cases ex
    have ha : ∀ role, s1.active role = s.active role := by
      intro role
      unfold State.active
      rw [g2.peers, g2.closing]
    have q := fun role => evict_other (c := c) (r := r) hx.rand s1 c.blockAge c.blockCount now .blockRelay role
    simp only [ha] at q
    have q' := fun role => evict_other (c := c) (r := r) hx.rand
      (s1.evict (selectOutbound r c.blockAge c.blockCount now (s1.cands c (some .blockRelay) now))) c.fullAge c.fullCount now .fullRelay role
    have f1 := q .fullRelay
    have f2 := q .blockRelay
    have f3 := q' .fullRelay
    have f4 := q' .blockRelay
    rw [if_neg (by nofun)] at f1 f4
    rw [if_pos rfl] at f2 f3
    constructor <;> omega
  · cases ex
    exact ⟨Nat.min_le_left _ _, Nat.min_le_left _ _⟩

/-- two block relay peers, of which one is wanted: that without news is disconnected when both are old enough -/
example : okAnd (run exCfg [] [] 0 (exFeeler ++ [ev 5 (.attrs 2 none (some 5) none none), ev 20 .heartbeat]))
    (fun s => staying s .blockRelay = 1 ∧ s.closing.contains 3 = true ∧ staying s .fullRelay = 1) := by decide +kernel

/-! ## What is not kept -/

/-- **C76** an outbound connection to an address that is discouraged is accepted, if it was discouraged while it was being dialled; the peer
stays until the next heartbeat that finds more peers of its role than are wanted -/
theorem C76_discouraged_accepted :
    okAnd (run exCfg [] [] 0 [ev 0 (.discovered 100), ev 1 (.enable true), ev 2 (.inbound 3 100 true 0), ev 3 (.misbehaved 3 100),
        ev 4 (.closed 3), ev 5 (.outbound 100 1 true 0), ev 6 .heartbeat])
      (fun s => s.book.discouraged.contains 100 = true ∧ (s.peers.get 1).map (·.role) = some (some .fullRelay) ∧
        s.closing.contains 1 = false) := by decide +kernel

/-- **C76** a reserved node that is banned is dialled all the same, and refused each time the connection has been made, which counts as a
failure of the address -/
theorem C76_banned_reserved_refused :
    okAnd (run exCfg [] [] 0 [ev 0 (.enable true), ev 1 (.ban 700 100), ev 2 (.addReserved 700)])
      (fun s => s.dialing.get 700 = some .reserved ∧ s.book.banned.contains 700 = true) ∧
    okAnd (run exCfg [] [] 0 [ev 0 (.enable true), ev 1 (.ban 700 100), ev 2 (.addReserved 700), ev 3 (.outbound 700 1 true 0)])
      (fun s => s.peers.size = 0 ∧ s.book.addresses.get 700 = some ⟨.disconnected false 1 3, true, 0⟩) := by
  decide +kernel

/-- **C76** there can be two connections to one address: that of a feeler is not checked against the others, and the address of a connected peer
can be found among the new addresses when it has been displaced from the address book and been heard of again -/
theorem C76_feeler_doubles :
    okAnd (run exCfg [] [] 0 [ev 0 (.enable true), ev 1 (.connect 0), ev 1 (.outbound 0 1 true 0), ev 1 (.connect 4), ev 1 (.outbound 4 2 true 0),
        ev 1 (.connect 2), ev 1 (.outbound 2 3 true 0), ev 2 (.disconnect 2 true), ev 2 (.closed 2), ev 2 (.discovered 0), ev 3 .heartbeat, ev 4 (.outbound 0 4 true 0)])
      (fun s => (s.peers.get 1).map (fun p => (p.addr, p.role)) = some (0, some .manual) ∧
        (s.peers.get 4).map (fun p => (p.addr, p.role)) = some (0, some .feeler)) := by decide +kernel

end Verif.PeerManager
