import Verif.PeerManager.Heart

/-! What one event changes: who is connected, who is dialled, and the scores. -/

namespace Verif.PeerManager

open Verif Verif.PeerDb

theorem pairwise_of_ne {A : Type} {R : A → A → Prop} (hs : ∀ x y, R x y → R y x) : ∀ {l : List A}, l.Pairwise R → ∀ {a b}, a ∈ l → b ∈ l →
    a ≠ b → R a b
  | [], _, _, _, h, _, _ => nomatch h
  | x :: l, h, a, b, ha, hb, hne => by
    rw [List.pairwise_cons] at h
    rcases List.mem_cons.mp ha with ha' | ha' <;> rcases List.mem_cons.mp hb with hb' | hb'
    · exact absurd (ha'.trans hb'.symm) hne
    · rw [ha']; exact h.1 b hb'
    · rw [hb']; exact hs _ _ (h.1 a ha')
    · exact pairwise_of_ne hs h.2 ha' hb' hne

theorem pairs {R : Addr × PeerRole → Addr × PeerRole → Prop} (hs : ∀ x y, R x y → R y x) {s : State} (h : s.conns.Pairwise R) :
    (∀ i j p q, i ≠ j → s.peers.get i = some p → s.peers.get j = some q → R (p.addr, p.role) (q.addr, q.role)) ∧
    (∀ i p a r, s.peers.get i = some p → s.dialing.get a = some r → R (p.addr, p.role) (a, some r)) ∧
    (∀ a b r q, a ≠ b → s.dialing.get a = some r → s.dialing.get b = some q → R (a, some r) (b, some q)) := by
  unfold State.conns at h
  rw [List.pairwise_append, List.pairwise_map, List.pairwise_map] at h
  obtain ⟨h1, h2, h3⟩ := h
  refine ⟨fun i j p q hne hp hq => ?_, fun i p a r hp hr => ?_, fun a b r q hne hr hq => ?_⟩
  · exact pairwise_of_ne (fun x y h => hs _ _ h) h1 (BMap.mem_entries.mpr hp) (BMap.mem_entries.mpr hq) (fun e => hne (congrArg Prod.fst e))
  · exact h3 _ (List.mem_map.mpr ⟨_, BMap.mem_entries.mpr hp, rfl⟩) _ (List.mem_map.mpr ⟨_, BMap.mem_entries.mpr hr, rfl⟩)
  · exact pairwise_of_ne (fun x y h => hs _ _ h) h2 (BMap.mem_entries.mpr hr) (BMap.mem_entries.mpr hq) (fun e => hne (congrArg Prod.fst e))

/-- the peers, those dialled and whether networking is enabled are as before -/
structure Kept (s s' : State) : Prop where
  peers : s'.peers = s.peers
  dialing : s'.dialing = s.dialing
  on : s'.on = s.on

theorem Kept.rfl {s : State} : Kept s s := ⟨Eq.refl _, Eq.refl _, Eq.refl _⟩

theorem Kept.trans {s s' s'' : State} (h : Kept s s') (h' : Kept s' s'') : Kept s s'' :=
  ⟨h'.peers.trans h.peers, h'.dialing.trans h.dialing, h'.on.trans h.on⟩

theorem Closes.kept {s s' : State} {l : List Nat} (h : Closes s s' l) : Kept s s' := ⟨h.peers, h.dialing, h.on⟩

theorem db_kept {c : Cfg} {s s' : State} {e : PeerDb.Event} {now rand : Nat} (h : s.db c e now rand = .ok s') :
    Kept s s' ∧ s'.closing = s.closing ∧ s.book.step c.db ⟨e, now, rand⟩ = .ok s'.book := by
  unfold State.db at h
  split at h
  · rename_i hb
    cases h; exact ⟨⟨rfl, rfl, rfl⟩, rfl, hb⟩
  · nomatch h

theorem ban_kept {c : Cfg} {s s' : State} {ip now dur : Nat} (h : s.ban c ip now dur = .ok s') : Kept s s' := by
  unfold State.ban at h
  rw [bind_eq_ok] at h
  obtain ⟨s1, h1, h2⟩ := h
  cases h2
  exact (db_kept h1).1.trans (disconnectAll_closes _ _).kept

theorem discourage_kept {c : Cfg} {s s' : State} {ip now : Nat} (h : s.discourage c ip now = .ok s') : Kept s s' := by
  unfold State.discourage at h
  rw [bind_eq_ok] at h
  obtain ⟨s1, h1, h2⟩ := h
  cases h2
  exact (db_kept h1).1.trans (disconnectAll_closes _ _).kept

theorem adjustFailed_kept {c : Cfg} {s s' : State} {a : Addr} {role : PeerRole} {score now : Nat}
    (h : s.adjustFailed c a role score now = .ok s') : Kept s s' := by
  unfold State.adjustFailed at h
  split at h
  · cases h; exact Kept.rfl
  · split at h
    · cases h; exact Kept.rfl
    · exact discourage_kept h

theorem connected_kept {c : Cfg} {s s' : State} {a : Addr} {role : PeerRole} {now rand : Nat}
    (h : s.connected c a role now rand = .ok s') : Kept s s' ∧ s'.closing = s.closing := by
  unfold State.connected at h
  cases role with
  | none => cases h; exact ⟨Kept.rfl, rfl⟩
  | some ro =>
    dsimp only at h
    rw [bind_eq_ok] at h
    obtain ⟨s1, h1, h2⟩ := h
    obtain ⟨k1, c1, _⟩ := db_kept h1
    split at h2
    · obtain ⟨k2, c2, _⟩ := db_kept h2
      exact ⟨k1.trans k2, c2.trans c1⟩
    · cases h2; exact ⟨k1, c1⟩

/-- a connection is refused, or accepted -/
theorem accept_cases {c : Cfg} {s s' : State} {r : Rand} {id : Nat} {a : Addr} {role : PeerRole} {ok : Bool} {score now : Nat}
    (h : s.accept c r id a role ok score now = .ok s') :
    (s.validate c r id a role ok now = none ∧ Kept s s') ∨
    (∃ s1, s.validate c r id a role ok now = some s1 ∧ s'.peers = s1.peers.insert id (newCtx a role now) ∧ s'.dialing = s1.dialing ∧
      s'.on = s1.on ∧ (role ≠ some .feeler → s'.closing = s1.closing)) := by
  unfold State.accept at h
  cases hv : s.validate c r id a role ok now with
  | none =>
    rw [hv] at h
    dsimp only at h
    rw [bind_eq_ok] at h
    obtain ⟨s1, h1, h2⟩ := h
    refine Or.inl ⟨rfl, (adjustFailed_kept h1).trans ?_⟩
    split at h2
    · exact (db_kept h2).1
    · cases h2; exact Kept.rfl
  | some s1 =>
    rw [hv] at h
    dsimp only at h
    split at h
    · nomatch h
    · rw [bind_eq_ok] at h
      obtain ⟨s2, h1, h2⟩ := h
      obtain ⟨k, hcl⟩ := connected_kept h1
      refine Or.inr ⟨s1, rfl, ?_⟩
      cases h2
      split
      · have k2 := (disconnect_closes s2 id false).kept
        exact ⟨k2.peers.trans k.peers, k2.dialing.trans k.dialing, k2.on.trans k.on, fun hne => absurd ‹role = _› hne⟩
      · exact ⟨k.peers, k.dialing, k.on, fun _ => hcl⟩

/-- new entries among the addresses being dialled -/
def Dialled (c : Cfg) (s s' : State) : Prop := ∀ a ro, s'.dialing.get a = some ro → s.dialing.get a = some ro ∨
  (s'.on = true ∧ Allowed c s'.book a ∧ Foreign c s'.peers a ro)

theorem Kept.dialled {c : Cfg} {s s' : State} (h : Kept s s') : Dialled c s s' := by
  intro a ro e
  rw [h.dialing] at e
  exact Or.inl e

theorem Fresh.dialled {c : Cfg} {s s' : State} (hs : Same s s') (h : Fresh c s s') : Dialled c s s' := by
  intro a ro e
  rcases h a ro e with h1 | ⟨h1, h2⟩
  · exact Or.inl h1
  · exact Or.inr ⟨by rw [hs.on]; exact h1, by rw [hs.book, hs.peers]; exact h2⟩

theorem heartbeat_effect {c : Cfg} (hc : c.WF) {k T : Nat} {s s' : State} (h : PInv c k T s) {r : Rand} (hr : r.Ok)
    {now : Nat} (hn : now ≤ T) (hT : T + longest false < maxTime) (hk : k + 1 < 2 ^ 32) (e : s.heartbeat c r now = .ok s') :
    s'.peers = s.peers ∧ s'.on = s.on ∧ Dialled c s s' := by
  unfold State.heartbeat at e
  obtain ⟨b1, h1, h2⟩ := db_pinv hc h (e := .heartbeat) trivial hn randLimit_pos hT hk
  rw [h1] at e
  change (if s.on = true then _ else _) = _ at e
  split at e
  · obtain ⟨s1, g1, g2, g3, _⟩ := establish_spec h2 hr now
    rw [g1] at e
    cases e
    have c1 := evict_closes s1 (selectOutbound r c.blockAge c.blockCount now (s1.cands c (some .blockRelay) now))
    have c2 := evict_closes (s1.evict (selectOutbound r c.blockAge c.blockCount now (s1.cands c (some .blockRelay) now)))
      (selectOutbound r c.fullAge c.fullCount now
        ((s1.evict (selectOutbound r c.blockAge c.blockCount now (s1.cands c (some .blockRelay) now))).cands c (some .fullRelay) now))
    have cc := c1.trans c2
    refine ⟨cc.peers.trans g2.peers, cc.on.trans g2.on, ?_⟩
    intro a ro ha
    have ha : _ := cc.dialing ▸ ha
    rcases g3 a ro ha with h' | ⟨h', h''⟩
    · exact Or.inl h'
    · refine Or.inr ⟨cc.on.trans (g2.on.trans h'), ?_⟩
      have hbk := cc.book.trans g2.book
      rw [← hbk, ← cc.peers.trans g2.peers] at h''
      exact h''
  · cases e
    exact ⟨rfl, rfl, fun _ _ h => Or.inl h⟩

/-- what a step does to the peers, and to the addresses being dialled -/
structure Effect (c : Cfg) (s s' : State) (x : Step) : Prop where
  /-- a peer that was not there -/
  new : ∀ id p, s.peers.get id = none → s'.peers.get id = some p →
    s.on = true ∧ s.book.banned.get (c.db.ip p.addr) = none ∧ ∃ role score, p = newCtx p.addr role x.now ∧
      ((role = none ∧ x.ev = .inbound id p.addr true score) ∨
       (∃ ro, role = some ro ∧ s.dialing.get p.addr = some ro ∧ x.ev = .outbound p.addr id true score))
  /-- a peer that stays -/
  same : ∀ id p p', s.peers.get id = some p → s'.peers.get id = some p' →
    p'.addr = p.addr ∧ p'.role = p.role ∧ p'.created = p.created ∧
    ((∀ k, x.ev ≠ .misbehaved id k) → p'.score = p.score) ∧
    (∀ k, x.ev = .misbehaved id k → p'.score = if c.whitelisted p.role p.addr = true then p.score else min (p.score + k) (2 ^ 32 - 1))
  /-- a peer that is there no longer -/
  gone : ∀ id p, s.peers.get id = some p → s'.peers.get id = none → x.ev = .closed id ∨ ∃ on l l', x.ev = .restart on l l'
  dialled : Dialled c s s'

theorem Effect.of_peers {c : Cfg} {s s' : State} {x : Step} (h : s'.peers = s.peers) (hd : Dialled c s s')
    (hx : ∀ id k p, x.ev = .misbehaved id k → s.peers.get id = some p → c.whitelisted p.role p.addr = true) : Effect c s s' x where
  new id p h1 h2 := by rw [h, h1] at h2; nomatch h2
  same id p p' h1 h2 := by
    rw [h, h1] at h2
    cases h2
    exact ⟨rfl, rfl, rfl, fun _ => rfl, fun k e => by rw [if_pos (hx id k p e h1)]⟩
  gone id p h1 h2 := by rw [h, h1] at h2; nomatch h2
  dialled := hd

theorem validate_ok {c : Cfg} {s s1 : State} {r : Rand} {id : Nat} {a : Addr} {role : PeerRole} {ok : Bool} {now : Nat}
    (hv : s.validate c r id a role ok now = some s1) : ok = true ∧ s.on = true ∧ s.book.banned.get (c.db.ip a) = none ∧
      s.peers.get id = none ∧ s.noConflict c a role = true ∧ ∃ l, Closes s s1 l := by
  unfold State.validate at hv
  split at hv
  · rename_i hif
    simp only [Bool.and_eq_true, Bool.not_eq_true', contains_false] at hif
    obtain ⟨⟨⟨⟨h1, h2⟩, h3⟩, h4⟩, h5⟩ := hif
    refine ⟨h2, h1, h5, h3, h4, ?_⟩
    cases role with
    | none =>
      change s.makeRoom c r a now = some s1 at hv
      unfold State.makeRoom at hv
      split at hv
      · split at hv
        · nomatch hv
        · split at hv
          · cases hv; exact ⟨_, disconnect_closes _ _ _⟩
          · nomatch hv
      · cases hv; exact ⟨_, Closes.refl s⟩
    | some ro => cases hv; exact ⟨_, Closes.refl s⟩
  · nomatch hv

/-- the effect of a connection that is refused or accepted -/
theorem accept_effect {c : Cfg} {s0 s s' : State} {r : Rand} {id : Nat} {a : Addr} {role : PeerRole} {ok : Bool} {score now : Nat} {x : Step}
    (h : s.accept c r id a role ok score now = .ok s') (hx : x.now = now) (hp : s.peers = s0.peers) (hb : s.book = s0.book) (ho : s.on = s0.on)
    (hd : ∀ b ro, s.dialing.get b = some ro → s0.dialing.get b = some ro)
    (hev : (role = none ∧ x.ev = .inbound id a ok score) ∨
      (∃ ro, role = some ro ∧ s0.dialing.get a = some ro ∧ x.ev = .outbound a id ok score)) : Effect c s0 s' x := by
  have hnm : ∀ i k, x.ev ≠ .misbehaved i k := by
    rintro i k e
    rcases hev with ⟨_, h1⟩ | ⟨_, _, _, h1⟩ <;> rw [h1] at e <;> nomatch e
  rcases accept_cases h with ⟨_, hk⟩ | ⟨s1, hv, h1, h2, h3, _⟩
  · refine Effect.of_peers (hk.peers.trans hp) ?_ (fun i k p e => absurd e (hnm i k))
    intro b ro e
    rw [hk.dialing] at e
    exact Or.inl (hd b ro e)
  · obtain ⟨hok, v1, v2, v3, _, l, hcl⟩ := validate_ok hv
    subst hok
    rw [hcl.peers, hp] at h1
    rw [hp] at v3
    refine ⟨?_, ?_, ?_, ?_⟩
    · intro i p g1 g2
      rw [h1, BMap.get_insert] at g2
      split at g2
      · rename_i e
        cases g2
        subst e
        refine ⟨ho ▸ v1, hb ▸ v2, role, score, ?_, hev⟩
        rw [hx]; rfl
      · rw [g1] at g2; nomatch g2
    · intro i p p' g1 g2
      rw [h1, BMap.get_insert] at g2
      split at g2
      · rename_i e
        subst e
        rw [v3] at g1; nomatch g1
      · rw [g1] at g2
        cases g2
        exact ⟨rfl, rfl, rfl, fun _ => rfl, fun k e => absurd e (hnm i k)⟩
    · intro i p g1 g2
      rw [h1, BMap.get_insert] at g2
      split at g2
      · nomatch g2
      · rw [g1] at g2; nomatch g2
    · intro b ro e
      rw [h2, hcl.dialing] at e
      exact Or.inl (hd b ro e)

theorem step_effect {c : Cfg} (hc : c.WF) {k T : Nat} {s s' : State} (h : PInv c k T s) {x : Step} (hx : x.Fits T)
    (hT : T + longest false < maxTime) (hk : k + 2 < 2 ^ 32) (e : s.step c x = .ok s') : Effect c s s' x := by
  obtain ⟨ev, now, r⟩ := x
  obtain ⟨hn, hr⟩ := hx
  dsimp only at hn hr
  have hk1 : k + 1 < 2 ^ 32 := by omega
  unfold State.step at e
  have kept : ∀ {ev}, (∀ i k, ev ≠ .misbehaved i k) → Kept s s' → Effect c s s' ⟨ev, now, r⟩ := fun hne hk =>
    Effect.of_peers hk.peers hk.dialled (fun i k p e => absurd e (hne i k))
  cases ev with
  | inbound id a ok score => exact accept_effect e rfl rfl rfl rfl (fun _ _ h => h) (Or.inl ⟨rfl, rfl⟩)
  | outbound a id ok score =>
    dsimp only at e
    cases ed : s.dialing.get a with
    | none => rw [ed] at e; nomatch e
    | some role =>
      rw [ed] at e
      refine accept_effect e rfl rfl rfl rfl ?_ (Or.inr ⟨role, rfl, ed, rfl⟩)
      intro b ro hb
      change (s.dialing.erase a).get b = _ at hb
      rw [BMap.get_erase] at hb
      split at hb
      · nomatch hb
      · exact hb
  | closed id =>
    dsimp only at e
    unfold State.closed at e
    cases hp : s.peers.get id with
    | none => rw [hp] at e; cases e; exact kept nofun Kept.rfl
    | some p =>
      rw [hp] at e
      dsimp only at e
      have hkept : Kept { s with peers := s.peers.erase id, closing := s.closing.erase id } s' := by
        split at e
        · rw [bind_eq_ok] at e
          obtain ⟨s1, e1, e2⟩ := e
          refine (db_kept e1).1.trans ?_
          split at e2
          · exact (db_kept e2).1
          · cases e2; exact Kept.rfl
        · cases e; exact Kept.rfl
      have hps : s'.peers = s.peers.erase id := hkept.peers
      refine ⟨?_, ?_, ?_, ?_⟩
      · intro i q g1 g2
        rw [hps, BMap.get_erase] at g2
        split at g2
        · nomatch g2
        · rw [g1] at g2; nomatch g2
      · intro i q q' g1 g2
        rw [hps, BMap.get_erase] at g2
        split at g2
        · nomatch g2
        · rw [g1] at g2
          cases g2
          exact ⟨rfl, rfl, rfl, fun _ => rfl, nofun⟩
      · intro i q g1 g2
        rw [hps, BMap.get_erase] at g2
        split at g2
        · rename_i hi
          subst hi
          exact Or.inl rfl
        · rw [g1] at g2; nomatch g2
      · intro a ro ha
        rw [hkept.dialing] at ha
        exact Or.inl ha
  | dialFailed a =>
    dsimp only at e
    rw [bind_eq_ok] at e
    obtain ⟨s1, e1, e2⟩ := e
    have k1 := (db_kept e1).1
    split at e2
    · cases e2
      refine Effect.of_peers k1.peers ?_ nofun
      intro b ro hb
      change (s1.dialing.erase a).get b = _ at hb
      rw [BMap.get_erase, k1.dialing] at hb
      split at hb
      · nomatch hb
      · exact Or.inl hb
    · nomatch e2
  | misbehaved id score =>
    dsimp only at e
    unfold State.adjustScore at e
    cases hp : s.peers.get id with
    | none =>
      rw [hp] at e
      cases e
      refine Effect.of_peers rfl Kept.rfl.dialled ?_
      intro i k p ev hi
      cases ev
      rw [hp] at hi; nomatch hi
    | some p =>
      rw [hp] at e
      dsimp only at e
      by_cases hw : c.whitelisted p.role p.addr = true
      · rw [if_pos hw] at e
        cases e
        refine Effect.of_peers rfl Kept.rfl.dialled ?_
        intro i k q ev hi
        cases ev
        rw [hp] at hi
        cases hi; exact hw
      · rw [if_neg hw] at e
        have hkept : Kept { s with peers := s.peers.insert id { p with score := min (p.score + score) (2 ^ 32 - 1) } } s' := by
          split at e
          · exact discourage_kept e
          · cases e; exact Kept.rfl
        have hps : s'.peers = s.peers.insert id { p with score := min (p.score + score) (2 ^ 32 - 1) } := hkept.peers
        refine ⟨?_, ?_, ?_, ?_⟩
        · intro i q g1 g2
          rw [hps, BMap.get_insert] at g2
          split at g2
          · rename_i hi
            subst hi
            rw [hp] at g1; nomatch g1
          · rw [g1] at g2; nomatch g2
        · intro i q q' g1 g2
          rw [hps, BMap.get_insert] at g2
          split at g2
          · rename_i hi
            subst hi
            rw [hp] at g1
            cases g1
            cases g2
            refine ⟨rfl, rfl, rfl, fun hne => absurd rfl (hne score), fun k ek => ?_⟩
            cases ek
            rw [if_neg hw]
          · rename_i hi
            rw [g1] at g2
            cases g2
            refine ⟨rfl, rfl, rfl, fun _ => rfl, fun k ek => ?_⟩
            cases ek
            exact absurd rfl hi
        · intro i q g1 g2
          rw [hps, BMap.get_insert] at g2
          split at g2
          · nomatch g2
          · rw [g1] at g2; nomatch g2
        · intro a ro ha
          rw [hkept.dialing] at ha
          exact Or.inl ha
  | misbehavedOnHandshake a score => exact kept nofun (adjustFailed_kept e)
  | connect a =>
    dsimp only at e
    rw [connect_eq] at e
    cases e
    obtain ⟨g1, g2, _⟩ := dial_spec c s a .manual
    exact Effect.of_peers g1.peers (g2.dialled g1) nofun
  | disconnect id rem => cases e; exact kept nofun (disconnect_closes s id rem).kept
  | addReserved a =>
    dsimp only at e
    rw [bind_eq_ok] at e
    obtain ⟨s1, e1, e2⟩ := e
    have k1 := (db_kept e1).1
    split at e2
    · rw [connect_eq] at e2
      cases e2
      obtain ⟨g1, g2, _⟩ := dial_spec c s1 a .reserved
      refine Effect.of_peers (g1.peers.trans k1.peers) ?_ nofun
      intro b ro hb
      rcases (g2.dialled g1) b ro hb with h' | h'
      · exact Or.inl (k1.dialing ▸ h')
      · exact Or.inr h'
    · cases e2; exact kept nofun k1
  | removeReserved a => exact kept nofun (db_kept e).1
  | ban ip dur => exact kept nofun (ban_kept e)
  | unban ip => exact kept nofun (db_kept e).1
  | undiscourage ip => exact kept nofun (db_kept e).1
  | enable on =>
    dsimp only at e
    split at e
    · cases e; exact kept nofun Kept.rfl
    · split at e
      · have h' : PInv c k T { s with on := true } :=
          ⟨⟨h.core.book, h.core.good, h.core.anchors, h.core.closing, h.core.inb⟩, h.banned, h.scored, h.feelers⟩
        obtain ⟨g1, _, g3⟩ := heartbeat_effect hc h' hr hn hT hk1 e
        exact Effect.of_peers g1 g3 nofun
      · cases e; exact Effect.of_peers rfl (fun _ _ h => Or.inl h) nofun
  | discovered a => exact kept nofun (db_kept e).1
  | activity id =>
    dsimp only at e
    split at e
    · split at e
      · exact kept nofun (db_kept e).1
      · cases e; exact kept nofun Kept.rfl
    · cases e; exact kept nofun Kept.rfl
  | attrs id ping lastBlock lastTx expecting =>
    dsimp only at e
    cases hp : s.peers.get id with
    | none => rw [hp] at e; cases e; exact kept nofun Kept.rfl
    | some p =>
      rw [hp] at e
      cases e
      refine ⟨?_, ?_, ?_, fun _ _ h => Or.inl h⟩
      · intro i q g1 g2
        change (s.peers.insert id _).get i = _ at g2
        rw [BMap.get_insert] at g2
        split at g2
        · rename_i hi
          subst hi
          rw [hp] at g1; nomatch g1
        · rw [g1] at g2; nomatch g2
      · intro i q q' g1 g2
        change (s.peers.insert id _).get i = _ at g2
        rw [BMap.get_insert] at g2
        split at g2
        · rename_i hi
          subst hi
          rw [hp] at g1
          cases g1
          cases g2
          exact ⟨rfl, rfl, rfl, fun _ => rfl, nofun⟩
        · rw [g1] at g2
          cases g2
          exact ⟨rfl, rfl, rfl, fun _ => rfl, nofun⟩
      · intro i q g1 g2
        change (s.peers.insert id _).get i = _ at g2
        rw [BMap.get_insert] at g2
        split at g2
        · nomatch g2
        · rw [g1] at g2; nomatch g2
  | newTip => cases e; exact Effect.of_peers rfl (fun _ _ h => Or.inl h) nofun
  | heartbeat =>
    obtain ⟨g1, _, g3⟩ := heartbeat_effect hc h hr hn hT hk1 e
    exact Effect.of_peers g1 g3 nofun
  | restart on bootNodes reserved =>
    dsimp only at e
    obtain ⟨b, g1, g2⟩ := db_pinv hc h (e := .restart bootNodes reserved) trivial hn randLimit_pos hT hk1
    rw [g1] at e
    change boot c ⟨b, BMap.empty, BMap.empty, BMap.empty, on, r.feeler, now⟩ r now = _ at e
    have h0 : PInv c (k + 1) T ⟨b, BMap.empty, BMap.empty, BMap.empty, on, r.feeler, now⟩ := by
      refine ⟨⟨g2.core.book, Good.nil c, g2.core.anchors, fun _ _ => rfl, Nat.zero_le _⟩, ?_, ?_, ?_⟩ <;> nofun
    generalize hs0 : (⟨b, BMap.empty, BMap.empty, BMap.empty, on, r.feeler, now⟩ : State) = s0 at e h0
    have hp0 : s0.peers = BMap.empty := by rw [← hs0]
    have hd0 : s0.dialing = BMap.empty := by rw [← hs0]
    have key : s'.peers = BMap.empty ∧ Dialled c s0 s' := by
      unfold boot at e
      split at e
      · split at e
        · obtain ⟨m1, _, m3⟩ := heartbeat_effect hc h0 hr hn hT hk e
          exact ⟨m1.trans hp0, m3⟩
        · rw [connectAll_eq] at e
          cases e
          obtain ⟨m1, m2, _⟩ := dialAll_spec c .blockRelay (s0.book.anchors.entries.map (·.1)) s0
          exact ⟨m1.peers.trans hp0, m2.dialled m1⟩
      · cases e; exact ⟨hp0, fun _ _ h => Or.inl h⟩
    refine ⟨?_, ?_, ?_, ?_⟩
    · intro i q _ g2
      rw [key.1] at g2; nomatch g2
    · intro i q q' _ g2
      rw [key.1] at g2; nomatch g2
    · intro i q _ _
      exact Or.inr ⟨_, _, _, rfl⟩
    · intro a ro ha
      rcases key.2 a ro ha with h' | h'
      · rw [hd0] at h'; nomatch h'
      · exact Or.inr h'

end Verif.PeerManager
