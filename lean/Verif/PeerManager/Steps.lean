import Verif.PeerManager.Inv

/-! Every event keeps the invariant. -/

namespace Verif.PeerManager

open Verif Verif.PeerDb

/-! ### Accepting a connection -/

theorem selectInbound_mem {c : Cfg} {r : Rand} (hr : r.Ok) {l : List Cand} {id : Nat} (h : selectInbound c r l = some id) :
    ∃ x ∈ l, x.id = id := by
  unfold selectInbound at h
  split at h
  · nomatch h
  · rename_i hl
    cases e : r.choose (l.filter fun x => x.bad) with
    | some x =>
      rw [e] at h
      cases h
      exact ⟨x, (List.mem_filter.mp (hr.mem _ _ e)).1, rfl⟩
    | none =>
      rw [e] at h
      dsimp only at h
      obtain ⟨left, k1, k2, k3, k4, hp, _, _, _, _, _, _, he⟩ := filters_spec hr (Nat.lt_of_not_le hl)
      rw [← he] at h
      obtain ⟨x, hx, h1, _⟩ := findGroup_spec h
      exact ⟨x, hp.symm.subset (List.mem_append_left _ hx), h1⟩

theorem mem_cands {c : Cfg} {s : State} {role : PeerRole} {now : Nat} {x : Cand} : x ∈ s.cands c role now ↔
    ∃ p ∈ s.active role, s.cand c now p = x := List.mem_map

theorem makeRoom_spec {c : Cfg} {s s' : State} {r : Rand} (hr : r.Ok) {a : Addr} {now : Nat} (h : s.makeRoom c r a now = some s') :
    (∃ l, Closes s s' l) ∧ (s'.active none).length < c.maxInbound ∨ ¬ (s.active none).length ≤ c.maxInbound := by
  by_cases hi : (s.active none).length ≤ c.maxInbound
  · refine Or.inl ?_
    unfold State.makeRoom at h
    split at h
    · split at h
      · nomatch h
      · cases e : selectInbound c r (s.cands c none now) with
        | none => rw [e] at h; nomatch h
        | some id =>
          rw [e] at h
          cases h
          have hc := disconnect_closes s id false
          refine ⟨⟨_, hc⟩, ?_⟩
          obtain ⟨x, hx, rfl⟩ := selectInbound_mem hr e
          obtain ⟨p, hp, rfl⟩ := mem_cands.mp hx
          have := active_lt hc hp (List.mem_singleton.mpr rfl)
          exact Nat.lt_of_lt_of_le this hi
    · rename_i hlt
      cases h
      exact ⟨⟨_, Closes.refl s⟩, Nat.lt_of_not_le hlt⟩
  · exact Or.inr hi

theorem validate_spec {c : Cfg} {k T : Nat} {s s' : State} {r : Rand} (hr : r.Ok) (h : PInv c k T s) {id : Nat} {a : Addr} {role : PeerRole}
    {ok : Bool} {now : Nat} (hv : s.validate c r id a role ok now = some s') :
    s.on = true ∧ s.noConflict c a role = true ∧ s.book.banned.get (c.db.ip a) = none ∧ s.peers.get id = none ∧
    (∃ l, Closes s s' l) ∧ (role = none → (s'.active none).length < c.maxInbound) := by
  unfold State.validate at hv
  split at hv
  · rename_i hif
    simp only [Bool.and_eq_true, Bool.not_eq_true', contains_false] at hif
    obtain ⟨⟨⟨⟨h1, h2⟩, h3⟩, h4⟩, h5⟩ := hif
    refine ⟨h1, h4, h5, h3, ?_⟩
    cases role with
    | none =>
      rcases makeRoom_spec hr hv with ⟨g1, g2⟩ | g
      · exact ⟨g1, fun _ => g2⟩
      · exact absurd h.core.inb g
    | some ro =>
      cases hv
      exact ⟨⟨[], Closes.refl s⟩, nofun⟩
  · nomatch hv

/-- a new peer -/
def newCtx (a : Addr) (role : PeerRole) (now : Nat) : Ctx := ⟨a, role, 0, now, none, none, none, none⟩

theorem conns_accept {s : State} {id : Nat} (p : Ctx) (hp : s.peers.get id = none) :
    ({ s with peers := s.peers.insert id p } : State).conns.Perm ((p.addr, p.role) :: s.conns) := by
  unfold State.conns
  exact List.Perm.append_right _ ((entries_insert p hp).map fun p => (p.2.addr, p.2.role))

theorem Core.accept {c : Cfg} {k T : Nat} {s : State} (h : Core c k T s) {id : Nat} (p : Ctx) (hp : s.peers.get id = none)
    (hg : Good c ((p.addr, p.role) :: s.conns)) (hi : p.role = none → (s.active none).length < c.maxInbound) :
    Core c k T { s with peers := s.peers.insert id p } where
  book := h.book
  good := hg.perm (conns_accept p hp)
  anchors := h.anchors
  closing x hx := by
    refine h.closing x ?_
    change (s.peers.insert id p).get x = none at hx
    rw [BMap.get_insert] at hx
    split at hx
    · nomatch hx
    · exact hx
  inb := by
    have hsub : ∀ x ∈ ({ s with peers := s.peers.insert id p } : State).active none, x ∈ s.active none ∨ (x.1 = id ∧ p.role = none) := by
      intro x hx
      obtain ⟨h1, h2, h3⟩ := mem_active.mp hx
      change (s.peers.insert id p).get x.1 = _ at h1
      rw [BMap.get_insert] at h1
      split at h1
      · rename_i e
        cases h1
        exact Or.inr ⟨e, h2⟩
      · exact Or.inl (mem_active.mpr ⟨h1, h2, h3⟩)
    by_cases hro : p.role = none
    · have := (List.subperm_of_subset (active_nodup { s with peers := s.peers.insert id p } none)
        (l₂ := id :: (s.active none).map (·.1)) (by
          intro y hy
          obtain ⟨x, hx, rfl⟩ := List.mem_map.mp hy
          rcases hsub x hx with h1 | h1
          · exact List.mem_cons_of_mem _ (List.mem_map.mpr ⟨x, h1, rfl⟩)
          · exact h1.1 ▸ List.mem_cons_self)).length_le
      rw [List.length_cons, List.length_map, List.length_map] at this
      exact this.trans (hi hro)
    · refine (active_le (s := s) fun x hx => ?_).trans h.inb
      rcases hsub x hx with h1 | h1
      · exact ⟨x.2, h1⟩
      · exact absurd h1.2 hro

theorem anchors_nodup {c : Cfg} {s : State} (h : Good c s.conns) : ((s.anchors c).map c.group).Nodup := by
  have h1 : (s.peers.entries.map fun p => (p.2.addr, p.2.role)).Pairwise
      fun x y => auto x.2 = true → auto y.2 = true → c.group x.1 ≠ c.group y.1 :=
    h.groups.sublist (List.sublist_append_left _ _)
  rw [List.pairwise_map] at h1
  unfold State.anchors
  rw [List.Nodup, List.pairwise_map]
  refine List.Pairwise.sublist (List.take_sublist _ _) ?_
  rw [List.pairwise_map, List.pairwise_filter]
  refine h1.imp fun {x y} hxy hx hy => ?_
  rw [decide_eq_true_eq] at hx hy
  exact hxy (by rw [hx]; rfl) (by rw [hy]; rfl)

theorem connected_spec {c : Cfg} (hc : c.WF) {k T : Nat} {s : State} (h : Core c k T s) (hb : NotBanned c s) (a : Addr) (role : PeerRole)
    {now rand : Nat} (hn : now ≤ T) (hr : rand < randLimit) (hT : T + longest false < maxTime) (hk : k + 2 < 2 ^ 32) :
    ∃ b', s.connected c a role now rand = .ok { s with book := b' } ∧ Core c (k + 2) T { s with book := b' } ∧
      NotBanned c { s with book := b' } := by
  unfold State.connected
  cases role with
  | none => exact ⟨s.book, rfl, h.mono (by omega), hb⟩
  | some ro =>
    dsimp only
    obtain ⟨b1, h1, h2, h3⟩ := db_spec hc h (e := .connected a ro) trivial hn hr hT (by omega)
    rw [h1]
    change ∃ b', (if ro = .blockRelay then _ else _) = _ ∧ _
    by_cases hro : ro = .blockRelay
    · rw [if_pos hro]
      obtain ⟨b2, g1, g2, g3, _, _, g4⟩ := db_raw hc h2.book (.setAnchors (({ s with book := b1 } : State).anchors c)) hn hr hT (by omega)
      refine ⟨b2, g1, ⟨g2, h.good, ?_, h.closing, h.inb⟩, ?_⟩
      · obtain ⟨l, l1, _⟩ := h2.anchors
        refine ⟨_, g4 l l1, ?_, anchors_nodup h2.good⟩
        change (List.take c.blockCount _).length ≤ _
        rw [List.length_take]; exact Nat.min_le_left _ _
      · intro id p hp hcl
        have := h3 hb id p hp hcl
        change b2.banned.get _ = none
        rw [g3]
        exact this
    · rw [if_neg hro]
      exact ⟨b1, rfl, h2.mono (Nat.le_succ _), h3 hb⟩

theorem accept_spec {c : Cfg} (hc : c.WF) {k T : Nat} {s : State} (h : PInv c k T s) {r : Rand} (hr : r.Ok) (id : Nat) (a : Addr)
    (role : PeerRole) (ok : Bool) (score : Nat) {now : Nat} (hn : now ≤ T) (hT : T + longest false < maxTime) (hk : k + 2 < 2 ^ 32)
    (hg : Good c ((a, role) :: s.conns)) : ∃ s', s.accept c r id a role ok score now = .ok s' ∧ PInv c (k + 2) T s' := by
  unfold State.accept
  cases hv : s.validate c r id a role ok now with
  | none =>
    dsimp only
    obtain ⟨s1, h1, h2⟩ := adjustFailed_spec hc h a role score hn hT (by omega)
    rw [h1]
    change ∃ s', (if role.isSome = true then _ else _) = _ ∧ _
    split
    · obtain ⟨b', g1, g2⟩ := db_pinv hc h2 (e := .failed a) trivial hn (hr.rand a) hT (by omega)
      exact ⟨_, g1, g2⟩
    · exact ⟨s1, rfl, h2.mono (Nat.le_succ _)⟩
  | some s1 =>
    dsimp only
    obtain ⟨_, _, hban, hid, ⟨l, hcl⟩, hroom⟩ := validate_spec hr h hv
    have p1 := h.closes hcl
    have hid1 : s1.peers.get id = none := by rw [hcl.peers]; exact hid
    rw [if_neg (by rw [(contains_false _ _).mpr hid1]; nofun)]
    have core := p1.core.accept (newCtx a role now) hid1 (by rw [hcl.conns]; exact hg) hroom
    have hb : NotBanned c { s1 with peers := s1.peers.insert id (newCtx a role now) } := by
      intro x p hp hx
      change (s1.peers.insert id _).get x = _ at hp
      rw [BMap.get_insert] at hp
      split at hp
      · cases hp
        change s1.book.banned.get (c.db.ip a) = none
        rw [hcl.book]; exact hban
      · exact p1.banned x p hp hx
    have hs : ∀ b, Scored c { s1 with peers := s1.peers.insert id (newCtx a role now), book := b } := by
      intro b x p hp hx hw
      change (s1.peers.insert id _).get x = _ at hp
      rw [BMap.get_insert] at hp
      split at hp
      · cases hp; exact hc.threshold
      · exact p1.scored x p hp hx hw
    have hf : ∀ x p, (s1.peers.insert id (newCtx a role now)).get x = some p → p.role = some .feeler → x ≠ id ∨ role ≠ some .feeler →
        s1.closing.get x ≠ none := by
      intro x p hp hro hor
      rw [BMap.get_insert] at hp
      split at hp
      · rename_i e
        cases hp
        rcases hor with hor | hor
        · exact absurd e hor
        · exact absurd hro hor
      · exact p1.feelers x p hp hro
    obtain ⟨b', g1, g2, g3⟩ := connected_spec hc core hb a role hn (hr.rand a) hT hk
    change ∃ s', (State.connected c { s1 with peers := s1.peers.insert id (newCtx a role now) } a role now (r.rand a) >>= _) = _ ∧ _
    rw [g1]
    refine ⟨_, rfl, ?_⟩
    by_cases hro : role = some .feeler
    · rw [if_pos hro]
      have hcl2 := disconnect_closes { s1 with peers := s1.peers.insert id (newCtx a role now), book := b' } id false
      refine ⟨g2.closes hcl2, g3.closes hcl2, (hs b').closes hcl2, ?_⟩
      intro x p hp hpr
      rw [hcl2.peers] at hp
      by_cases hx : x = id
      · refine hcl2.self x (List.mem_singleton.mpr hx) ?_
        rw [hp]; nofun
      · exact fun e => hf x p hp hpr (Or.inl hx) (hcl2.mono x e)
    · rw [if_neg hro]
      exact ⟨g2, g3, hs b', fun x p hp hpr => hf x p hp hpr (Or.inr hro)⟩

/-! ### The end of a connection -/

theorem erase_pinv {c : Cfg} {k T : Nat} {s : State} (h : PInv c k T s) {id : Nat} {p : Ctx} (hp : s.peers.get id = some p) :
    PInv c k T { s with peers := s.peers.erase id, closing := s.closing.erase id } := by
  have hget : ∀ {x q}, (s.peers.erase id).get x = some q → x ≠ id ∧ s.peers.get x = some q := by
    intro x q hq
    rw [BMap.get_erase] at hq
    split at hq
    · nomatch hq
    · exact ⟨‹_›, hq⟩
  have hcl : ∀ {x}, x ≠ id → (s.closing.erase id).get x = s.closing.get x := fun hx => BMap.get_erase_ne _ hx
  refine ⟨⟨h.core.book, ?_, h.core.anchors, ?_, ?_⟩, ?_, ?_, ?_⟩
  · refine h.core.good.sub ?_
    unfold State.conns
    refine List.Subperm.append ?_ (List.Subperm.refl _)
    have := (entries_erase hp).map fun p => (p.2.addr, p.2.role)
    exact List.Subperm.trans (List.Sublist.subperm (List.sublist_cons_self _ _)) this.symm.subperm
  · intro x hx
    change (s.peers.erase id).get x = none at hx
    change (s.closing.erase id).get x = none
    rw [BMap.get_erase] at hx ⊢
    split
    · rfl
    · rename_i hne
      rw [if_neg hne] at hx
      exact h.core.closing x hx
  · refine (active_le (s := s) fun x hx => ?_).trans h.core.inb
    obtain ⟨h1, h2, h3⟩ := mem_active.mp hx
    obtain ⟨g1, g2⟩ := hget h1
    change (s.closing.erase id).get x.1 = none at h3
    rw [hcl g1] at h3
    exact ⟨x.2, mem_active.mpr ⟨g2, h2, h3⟩⟩
  · intro x q hq hc'
    obtain ⟨g1, g2⟩ := hget hq
    exact h.banned x q g2 (by rw [← hcl g1]; exact hc')
  · intro x q hq hc'
    obtain ⟨g1, g2⟩ := hget hq
    exact h.scored x q g2 (by rw [← hcl g1]; exact hc')
  · intro x q hq hro
    obtain ⟨g1, g2⟩ := hget hq
    change (s.closing.erase id).get x ≠ none
    rw [hcl g1]
    exact h.feelers x q g2 hro

theorem closed_spec {c : Cfg} (hc : c.WF) {k T : Nat} {s : State} (h : PInv c k T s) {r : Rand} (hr : r.Ok) (id : Nat)
    {now : Nat} (hn : now ≤ T) (hT : T + longest false < maxTime) (hk : k + 2 < 2 ^ 32) :
    ∃ s', s.closed c r id now = .ok s' ∧ PInv c (k + 2) T s' := by
  unfold State.closed
  cases hp : s.peers.get id with
  | none => exact ⟨s, rfl, h.mono (by omega)⟩
  | some p =>
    dsimp only
    have h0 := erase_pinv h hp
    split
    · obtain ⟨b1, h1, h2⟩ := db_pinv hc h0 (e := .disconnected p.addr) trivial hn (hr.rand p.addr) hT (by omega)
      rw [h1]
      change ∃ s', (if s.closing.get id = some true then _ else _) = _ ∧ _
      split
      · obtain ⟨b2, g1, g2⟩ := db_pinv hc h2 (e := .remove p.addr) trivial hn randLimit_pos hT (by omega)
        exact ⟨_, g1, g2⟩
      · exact ⟨_, rfl, h2.mono (by omega)⟩
    · exact ⟨_, rfl, h0.mono (by omega)⟩

end Verif.PeerManager
