import Verif.PeerManager.Evictions

/-! Which connections are sought. -/

namespace Verif.PeerManager

open Verif Verif.PeerDb

set_option maxRecDepth 100000

/-- there is one address with an IP address and a port -/
def Cfg.Sockets (c : Cfg) : Prop := ∀ a b, c.db.ip a = c.db.ip b → c.port a = c.port b → a = b

theorem noConflict_iff {c : Cfg} {s : State} {a : Addr} {ro : Role} (hf : ro ≠ .feeler) : s.noConflict c a (some ro) = true ↔
    ∀ x ∈ s.conns, c.db.ip x.1 = c.db.ip a → c.mayAllow (c.port x.1) x.2 (c.port a) ro = true := by
  unfold State.noConflict
  split
  · rename_i h; nomatch h
  · rename_i h; cases h; exact absurd rfl hf
  · rename_i r _ h
    cases h
    rw [List.all_eq_true]
    refine forall_congr' fun x => forall_congr' fun _ => ?_
    rw [Bool.or_eq_true, Bool.not_eq_true', decide_eq_false_iff_not]
    tauto

theorem mayAllow_outbound {c : Cfg} {p q : Nat} {old : PeerRole} {ro : Role} (hp : p ≠ q) (ho : old.isSome = true) :
    c.mayAllow p old q ro = true := by
  unfold Cfg.mayAllow
  rw [if_neg hp]
  rw [if_pos ho]
  split <;> rfl

theorem mayAllow_congr {c : Cfg} {p q : Nat} {old old' : PeerRole} {ro : Role} (h : old.isSome = old'.isSome) :
    c.mayAllow p old q ro = c.mayAllow p old' q ro := by
  unfold Cfg.mayAllow
  rw [h]

theorem mem_conns {s : State} {x : Addr × PeerRole} : x ∈ s.conns ↔ (∃ i p, s.peers.get i = some p ∧ x = (p.addr, p.role)) ∨
    ∃ b r, s.dialing.get b = some r ∧ x = (b, some r) := by
  unfold State.conns
  rw [List.mem_append, List.mem_map, List.mem_map]
  constructor
  · rintro (⟨y, hy, rfl⟩ | ⟨y, hy, rfl⟩)
    · exact Or.inl ⟨y.1, y.2, mem_entries'.mp hy, rfl⟩
    · exact Or.inr ⟨y.1, y.2, mem_entries'.mp hy, rfl⟩
  · rintro (⟨i, p, h, rfl⟩ | ⟨b, r, h, rfl⟩)
    · exact Or.inl ⟨(i, p), mem_entries'.mpr h, rfl⟩
    · exact Or.inr ⟨(b, r), mem_entries'.mpr h, rfl⟩

/-! ### Dialling a list -/

/-- more is being dialled -/
def Grows (s s' : State) : Prop :=
  (∀ ro, s.count ro ≤ s'.count ro) ∧ ∀ a r, s.dialing.get a = some r → s'.dialing.get a = some r

theorem Grows.refl (s : State) : Grows s s := ⟨fun _ => Nat.le_refl _, fun _ _ h => h⟩

theorem Grows.trans {s s' s'' : State} (h : Grows s s') (h' : Grows s' s'') : Grows s s'' :=
  ⟨fun ro => (h.1 ro).trans (h'.1 ro), fun a r e => h'.2 a r (h.2 a r e)⟩

theorem dial_grows (c : Cfg) (s : State) (a : Addr) (ro : Role) : Grows s (s.dial c a ro) := by
  unfold State.dial
  by_cases h : s.mayDial c a ro = true
  · rw [if_pos h]
    have h2 := (mayDial_iff.mp h).2.1
    refine ⟨fun r => ?_, fun b r hb => ?_⟩
    · unfold State.count
      rw [(conns_insert ro h2).countP_eq, List.countP_cons]
      exact Nat.le_add_right _ _
    · change (s.dialing.insert a ro).get b = _
      rw [BMap.get_insert]
      split
      · rename_i e
        subst e
        rw [h2] at hb; nomatch hb
      · exact hb
  · rw [if_neg h]; exact Grows.refl s

theorem dialAll_grows (c : Cfg) (ro : Role) : ∀ (l : List Addr) (s : State), Grows s (s.dialAll c l ro)
  | [], s => Grows.refl s
  | a :: l, s => by
    rw [dialAll_cons]
    exact (dial_grows c s a ro).trans (dialAll_grows c ro l _)

theorem dialAll_get {c : Cfg} (hs : c.Sockets) {ro : Role} (hf : ro ≠ .feeler) {a : Addr} : ∀ {l : List Addr} {s : State}, a ∈ l →
    s.on = true → Allowed c s.book a → s.noConflict c a (some ro) = true → (s.dialAll c l ro).dialing.get a = some ro
  | [], s, h, _, _, _ => nomatch h
  | b :: l, s, h, hon, hal, hn => by
    rw [dialAll_cons]
    obtain ⟨g1, _, _⟩ := dial_spec c s b ro
    have hdial : s.dialing.get a = none := by
      cases e : s.dialing.get a with
      | none => rfl
      | some r =>
        have := (noConflict_iff hf).mp hn (a, some r) (mem_conns.mpr (Or.inr ⟨a, r, e, rfl⟩)) rfl
        exact absurd rfl (mayAllow_port this)
    by_cases hb : b = a
    · subst hb
      refine (dialAll_grows c ro l _).2 b ro ?_
      have hm : s.mayDial c b ro = true := by
        rw [mayDial_iff]
        refine ⟨hon, hdial, hn, ?_⟩
        rcases hal with ⟨q1, q2⟩ | q
        · exact ⟨Or.inl q1, Or.inl q2⟩
        · exact ⟨Or.inr q, Or.inr q⟩
      unfold State.dial
      rw [if_pos hm]
      exact BMap.get_insert_self ..
    · have ha : a ∈ l := (List.mem_cons.mp h).resolve_left (Ne.symm hb)
      refine dialAll_get hs hf ha (by rw [g1.on]; exact hon) (by rw [g1.book]; exact hal) ?_
      rw [noConflict_iff hf] at hn ⊢
      intro x hx hip
      rcases mem_conns.mp hx with ⟨i, p, h1, rfl⟩ | ⟨b', r, h1, rfl⟩
      · rw [g1.peers] at h1
        exact hn _ (mem_conns.mpr (Or.inl ⟨i, p, h1, rfl⟩)) hip
      · refine mayAllow_outbound ?_ rfl
        intro hp
        have hba : b' = a := hs _ _ hip hp
        subst hba
        unfold State.dial at h1
        split at h1
        · change (s.dialing.insert b ro).get b' = _ at h1
          rw [BMap.get_insert, if_neg (by rintro rfl; exact hb rfl), hdial] at h1
          nomatch h1
        · rw [hdial] at h1; nomatch h1

theorem dialAll_more {c : Cfg} (hs : c.Sockets) {ro : Role} (hf : ro ≠ .feeler) {a : Addr} {l : List Addr} {s : State} (ha : a ∈ l)
    (hon : s.on = true) (hal : Allowed c s.book a) (hn : s.noConflict c a (some ro) = true) :
    s.count ro < (s.dialAll c l ro).count ro := by
  have hg := dialAll_get hs hf ha hon hal hn
  obtain ⟨_, _, l', _, hp⟩ := dialAll_spec c ro l s
  have hne : l' ≠ [] := by
    rintro rfl
    have hm : (a, some ro) ∈ (s.dialAll c l ro).conns := mem_conns.mpr (Or.inr ⟨a, ro, hg, rfl⟩)
    have hm := hp.subset hm
    exact mayAllow_port ((noConflict_iff hf).mp hn (a, some ro) hm rfl) rfl
  unfold State.count
  rw [hp.countP_eq, List.countP_append, List.countP_map]
  have : l'.countP ((fun x : Addr × PeerRole => decide (x.2 = some ro)) ∘ fun a => (a, some ro)) = l'.length := by
    rw [List.countP_eq_length]
    intro _ _
    simp
  rw [this]
  have := List.length_pos_of_ne_nil hne
  omega

/-! ### The map of connections by IP address and port -/

theorem sockets_map (c : Cfg) (l : List (Addr × PeerRole)) : ∀ (m : BMap (Nat ×ₗ Nat) PeerRole),
    (∀ k v, (l.foldl (fun m x => BMap.insert m (toLex (c.db.ip x.1, c.port x.1)) x.2) m).get k = some v →
      (∃ x ∈ l, toLex (c.db.ip x.1, c.port x.1) = k ∧ x.2 = v) ∨ m.get k = some v) ∧
    (∀ k, (m.get k ≠ none ∨ ∃ x ∈ l, toLex (c.db.ip x.1, c.port x.1) = k) →
      (l.foldl (fun m x => BMap.insert m (toLex (c.db.ip x.1, c.port x.1)) x.2) m).get k ≠ none) := by
  induction l with
  | nil =>
    intro m
    refine ⟨fun k v h => Or.inr h, ?_⟩
    rintro k (h | ⟨x, hx, _⟩)
    · exact h
    · nomatch hx
  | cons y l ih =>
    intro m
    obtain ⟨h1, h2⟩ := ih (m.insert (toLex (c.db.ip y.1, c.port y.1)) y.2)
    refine ⟨fun k v h => ?_, ?_⟩
    · rcases h1 k v h with ⟨x, hx, e⟩ | h
      · exact Or.inl ⟨x, List.mem_cons_of_mem _ hx, e⟩
      · rw [BMap.get_insert] at h
        split at h
        · rename_i e
          cases h
          exact Or.inl ⟨y, List.mem_cons_self, e.symm, rfl⟩
        · exact Or.inr h
    · intro k hk
      refine h2 k ?_
      rw [BMap.get_insert]
      split
      · exact Or.inl (by nofun)
      · rename_i hne
        rcases hk with h | ⟨x, hx, e⟩
        · exact Or.inl h
        · rcases List.mem_cons.mp hx with rfl | hx
          · exact absurd e.symm hne
          · exact Or.inr ⟨x, hx, e⟩

theorem allow_iff (c : Cfg) (s : State) (ro : Role) (a : Addr) : s.allow c ro a = true ↔ ∀ k v,
    (s.conns.foldl (fun m x => BMap.insert m (toLex (c.db.ip x.1, c.port x.1)) x.2) (BMap.empty : BMap (Nat ×ₗ Nat) PeerRole)).get k = some v →
      (ofLex k).1 = c.db.ip a → c.mayAllow (ofLex k).2 v (c.port a) ro = true := by
  unfold State.allow
  rw [List.all_eq_true]
  constructor
  · intro h k v hk hip
    have := h (k, v) (mem_entries'.mpr hk)
    rw [Bool.or_eq_true, Bool.not_eq_true', decide_eq_false_iff_not] at this
    exact this.resolve_left fun h => h hip
  · intro h x hx
    rw [Bool.or_eq_true, Bool.not_eq_true', decide_eq_false_iff_not]
    by_cases hip : (ofLex x.1).1 = c.db.ip a
    · exact Or.inr (h x.1 x.2 (mem_entries'.mp hx) hip)
    · exact Or.inl hip

/-- no inbound peer has the IP address and port of an outbound connection -/
def Apart (c : Cfg) (s : State) : Prop := ∀ i p, s.peers.get i = some p → p.role = none →
  (∀ j q, s.peers.get j = some q → q.role ≠ none → ¬ (c.db.ip p.addr = c.db.ip q.addr ∧ c.port p.addr = c.port q.addr)) ∧
  ∀ b r, s.dialing.get b = some r → ¬ (c.db.ip p.addr = c.db.ip b ∧ c.port p.addr = c.port b)

theorem Apart.none {c : Cfg} {s : State} (h : Apart c s) {x y : Addr × PeerRole} (hx : x ∈ s.conns) (hy : y ∈ s.conns)
    (h1 : c.db.ip x.1 = c.db.ip y.1) (h2 : c.port x.1 = c.port y.1) (hn : x.2 = none) : y.2 = none := by
  rcases mem_conns.mp hx with ⟨i, p, g, rfl⟩ | ⟨b, r, g, rfl⟩
  · obtain ⟨q1, q2⟩ := h i p g hn
    rcases mem_conns.mp hy with ⟨j, q, g', rfl⟩ | ⟨b, r, g', rfl⟩
    · by_contra hne
      exact q1 j q g' hne ⟨h1, h2⟩
    · exact absurd ⟨h1, h2⟩ (q2 b r g')
  · nomatch hn

theorem Apart.isSome {c : Cfg} {s : State} (h : Apart c s) {x y : Addr × PeerRole} (hx : x ∈ s.conns) (hy : y ∈ s.conns)
    (h1 : c.db.ip x.1 = c.db.ip y.1) (h2 : c.port x.1 = c.port y.1) : x.2.isSome = y.2.isSome := by
  cases ex : x.2 with
  | none => rw [h.none hx hy h1 h2 ex]
  | some r =>
    cases ey : y.2 with
    | none =>
      have := h.none hy hx h1.symm h2.symm ey
      rw [this] at ex
      nomatch ex
    | some r' => rfl

theorem allow_noConflict {c : Cfg} {s : State} {ro : Role} {a : Addr} (hf : ro ≠ .feeler) (hap : Apart c s) (h : s.allow c ro a = true) :
    s.noConflict c a (some ro) = true := by
  rw [noConflict_iff hf]
  rw [allow_iff] at h
  intro x hx hip
  obtain ⟨h1, h2⟩ := sockets_map c s.conns BMap.empty
  have hne := h2 (toLex (c.db.ip x.1, c.port x.1)) (Or.inr ⟨x, hx, rfl⟩)
  obtain ⟨v, hv⟩ := Option.ne_none_iff_exists'.mp hne
  have hm := h _ v hv hip
  rcases h1 _ v hv with ⟨y, hy, e, rfl⟩ | he
  · have e := congrArg ofLex e
    rw [ofLex_toLex, ofLex_toLex] at e
    injection e with e1 e2
    rw [mayAllow_congr (hap.isSome hx hy e1.symm e2.symm)]
    exact hm
  · rw [BMap.get_empty] at he; nomatch he

theorem allow_of_free {c : Cfg} {s : State} {ro : Role} {a : Addr} (h : ∀ x ∈ s.conns, c.db.ip x.1 ≠ c.db.ip a) : s.allow c ro a = true := by
  rw [allow_iff]
  intro k v hv hip
  rcases (sockets_map c s.conns BMap.empty).1 k v hv with ⟨y, hy, e, _⟩ | he
  · exact absurd (by rw [← hip, ← e]; rfl) (h y hy)
  · rw [BMap.get_empty] at he; nomatch he

/-! ### The heartbeat -/

theorem selectReserved_mem {b : Book} {extra : Addr → Bool} {now : Nat} {l : List Addr} (h : b.selectReserved extra now = .ok l) {a : Addr}
    (ha : b.reserved.contains a = true) {d : Data} (hd : b.addresses.get a = some d) (hnow : d.connectNow now = true) (hx : extra a = true) :
    a ∈ l := by
  unfold Book.selectReserved at h
  rw [bind_eq_ok] at h
  obtain ⟨m, h1, h2⟩ := h
  cases h2
  obtain ⟨_, g2⟩ := mapM_ok_get h1
  obtain ⟨v, hv⟩ := (contains_iff _ _).mp ha
  obtain ⟨i, hlt, hi⟩ := List.mem_iff_getElem.mp ((mem_entries' (x := (a, v))).mpr hv)
  obtain ⟨y, h3, h4⟩ := g2 i _ (List.getElem?_eq_getElem hlt)
  rw [hi] at h4
  dsimp only at h4
  rw [hd] at h4
  change Except.ok (if d.connectNow now && extra a then some a else none) = _ at h4
  rw [hnow, hx] at h4
  cases h4
  rw [List.reduceOption_mem_iff]
  exact List.mem_of_getElem? h3

theorem feel_grows {c : Cfg} {s s' : State} {r : Rand} {now : Nat} (h : s.feel c r now = .ok s') : Grows s s' := by
  unfold State.feel at h
  split at h
  · rename_i a _
    rw [connect_eq, ok_bind] at h
    cases h
    exact dial_grows c s a .feeler
  · cases h; exact Grows.refl s

/-- the steps of `establish_new_connections` -/
theorem establish_shape {c : Cfg} {s s' : State} {r : Rand} {now : Nat} (h : s.establish c r now = .ok s') :
    let full := s.book.select c.db (s.groups c) (s.allow c .fullRelay) (s.fullNeeded c now) now (r.sample false (s.fullNeeded c now)) (r.coin false)
    let s1 := s.dialAll c full .fullRelay
    let block := s.book.select c.db (full.map c.group ++ s.groups c) (s.allow c .blockRelay) (s.blockNeeded c) now
      (r.sample true (s.blockNeeded c)) (r.coin true)
    let s2 := s1.dialAll c block .blockRelay
    ∃ l, s.book.selectReserved (fun a => !s2.dialing.contains a && s.allow c .reserved a) now = .ok l ∧
      Grows (s2.dialAll c l .reserved) s' := by
  intro full s1 block s2
  unfold State.establish at h
  dsimp only at h
  rw [connectAll_eq, ok_bind] at h
  have hb1 : s1.book = s.book := (dialAll_spec c .fullRelay full s).1.book
  have hb2 : s2.book = s.book := (dialAll_spec c .blockRelay block s1).1.book.trans hb1
  change (State.connectAll c s1 (s1.book.select c.db _ _ _ _ _ _) _ >>= _) = _ at h
  rw [hb1, connectAll_eq, ok_bind] at h
  change (match s2.book.selectReserved _ now with | .error p => _ | .ok l => _) = _ at h
  rw [hb2] at h
  change (match s.book.selectReserved (fun a => !s2.dialing.contains a && s.allow c .reserved a) now with | .error p => _ | .ok l => _) = _ at h
  cases e : s.book.selectReserved (fun a => !s2.dialing.contains a && s.allow c .reserved a) now with
  | error p => rw [e] at h; nomatch h
  | ok l =>
    rw [e] at h
    dsimp only at h
    change (State.connectAll c s2 l .reserved >>= _) = _ at h
    rw [connectAll_eq, ok_bind] at h
    refine ⟨l, rfl, ?_⟩
    split at h
    · exact feel_grows h
    · cases h; exact Grows.refl _

/-- a heartbeat while networking is enabled: the book after it, and what is established -/
theorem heartbeat_shape {c : Cfg} (hc : c.WF) {k T : Nat} {s s' : State} (h : PInv c k T s) {r : Rand} (hr : r.Ok)
    {now : Nat} (hn : now ≤ T) (hT : T + longest false < maxTime) (hk : k + 1 < 2 ^ 32) (hon : s.on = true)
    (e : s.heartbeat c r now = .ok s') : PInv c (k + 1) T { s with book := s'.book } ∧
    ∃ s1, ({ s with book := s'.book } : State).establish c r now = .ok s1 ∧ Grows s1 s' := by
  unfold State.heartbeat at e
  obtain ⟨b1, h1, h2⟩ := db_pinv hc h (e := .heartbeat) trivial hn randLimit_pos hT hk
  rw [h1, ok_bind] at e
  rw [if_pos (by exact hon)] at e
  obtain ⟨s1, g1, g2, _, _⟩ := establish_spec h2 hr now
  rw [g1, ok_bind] at e
  cases e
  have c1 := evict_closes s1 (selectOutbound r c.blockAge c.blockCount now (s1.cands c (some .blockRelay) now))
  have c2 := evict_closes (s1.evict (selectOutbound r c.blockAge c.blockCount now (s1.cands c (some .blockRelay) now)))
    (selectOutbound r c.fullAge c.fullCount now
      ((s1.evict (selectOutbound r c.blockAge c.blockCount now (s1.cands c (some .blockRelay) now))).cands c (some .fullRelay) now))
  have cc := c1.trans c2
  have hb := cc.book.trans g2.book
  dsimp only at hb
  rw [hb]
  refine ⟨h2, s1, g1, ?_, ?_⟩
  · intro ro
    unfold State.count
    rw [cc.conns]
  · intro a r' ha
    rw [cc.dialing]
    exact ha

/-! ## What is dialled -/

/-- the number of full relay connections that is wanted: more if the tip of the chain has not changed for long -/
def wantedFull (c : Cfg) (s : State) (now : Nat) : Nat := if c.staleDiff < now - s.lastTip then c.fullCount + c.fullExtra else c.fullCount

/-- an address that can be connected to: it is in a table, it is neither banned, nor discouraged, nor reserved; it is due; there is no
connection with an address of its group – feelers aside – and none with its IP address -/
def Sought (c : Cfg) (s : State) (b : Book) (now : Nat) (a : Addr) : Prop :=
  a ∈ b.tables.new.addrIter ++ b.tables.tried.addrIter ∧ b.reserved.contains a = false ∧ b.banned.contains (c.db.ip a) = false ∧
  b.discouraged.contains (c.db.ip a) = false ∧
  (∃ d was fails next, b.addresses.get a = some d ∧ d.state = .disconnected was fails next ∧ next ≤ now) ∧
  (∀ i p, s.peers.get i = some p → c.db.ip p.addr ≠ c.db.ip a ∧ (p.role ≠ none → p.role ≠ some .feeler → c.group p.addr ≠ c.group a)) ∧
  (∀ x ro, s.dialing.get x = some ro → c.db.ip x ≠ c.db.ip a ∧ (ro ≠ .feeler → c.group x ≠ c.group a))

theorem sought_eligible {c : Cfg} {k T : Nat} {s : State} {now : Nat} {a : Addr} {b : Book} (hi : PeerDb.Inv c.db k T b) (h : Sought c s b now a)
    (ro : Role) : b.eligible c.db (s.groups c) (s.allow c ro) now a = true ∧ (b.tables.New c.db a ∨ b.tables.Tried c.db a) := by
  obtain ⟨h1, h2, h3, h4, ⟨d, was, fails, next, h5, h6, h7⟩, h8, h9⟩ := h
  have hfree : ∀ x ∈ s.conns, c.db.ip x.1 ≠ c.db.ip a := by
    intro x hx
    rcases mem_conns.mp hx with ⟨i, p, g, rfl⟩ | ⟨y, r, g, rfl⟩
    · exact (h8 i p g).1
    · exact (h9 y r g).1
  refine ⟨?_, ?_⟩
  · unfold Book.eligible
    rw [h5]
    have hres : b.reserved.contains a = d.reserved := by
      have := hi.resv_flag h5
      rw [Bool.eq_iff_iff, contains_eq]; exact this
    have hcn : d.connectNow now = true := by
      unfold Data.connectNow
      rw [h6]
      exact decide_eq_true h7
    have hg : (s.groups c).contains (c.db.newH.group a) = false := by
      rw [Bool.eq_false_iff]
      intro hm
      rw [List.contains_iff_mem] at hm
      unfold State.groups at hm
      obtain ⟨x, hx, e⟩ := List.mem_map.mp hm
      obtain ⟨hx, hx'⟩ := List.mem_filter.mp hx
      rw [Bool.and_eq_true, decide_eq_true_eq] at hx'
      rcases mem_conns.mp hx with ⟨i, p, g, rfl⟩ | ⟨y, r, g, rfl⟩
      · exact (h8 i p g).2 (by rintro e'; dsimp only at hx'; rw [e'] at hx'; nomatch hx'.1) hx'.2 e
      · exact (h9 y r g).2 (by rintro rfl; exact hx'.2 rfl) e
    dsimp only
    unfold Book.isBad
    rw [hcn, ← hres, h2, hg, h3, h4, allow_of_free hfree]
    rfl
  · rw [List.mem_append, hi.ts.new.mem_iter, hi.ts.tried.mem_iter] at h1
    exact h1

theorem eligible_extra {c : PeerDb.Cfg} {b : Book} {groups : List Nat} {extra : Addr → Bool} {now : Nat} {a : Addr}
    (h : b.eligible c groups extra now a = true) : extra a = true ∧ b.banned.get (c.ip a) = none ∧ b.discouraged.get (c.ip a) = none := by
  unfold Book.eligible at h
  split at h
  · simp only [Bool.and_eq_true, Book.isBad, Bool.not_eq_true', Bool.or_eq_false_iff] at h
    exact ⟨h.2, (contains_false _ _).mp h.1.2.1, (contains_false _ _).mp h.1.2.2⟩
  · nomatch h

theorem outgoing_count (s : State) (ro : Role) : outgoing s ro = s.count ro := outgoing_eq s ro

/-- **C76** when full relay connections are missing, a heartbeat dials another address, if there is one that can be connected to -/
theorem C76_seeks_full {c : Cfg} (hc : c.WF) (hs : c.Sockets) {T t0 : Nat} {steps : List Step} {x : Step} (hr : Runs T t0 (steps ++ [x]))
    {bootNodes reserved : List Addr} {s s' : State} (e : run c bootNodes reserved t0 steps = .ok s)
    (hev : x.ev = .heartbeat) (ex : s.step c x = .ok s') (hon : s.on = true) (hap : Apart c s)
    (hw : outgoing s .fullRelay < wantedFull c s x.now) {a : Addr} (ha : Sought c s s'.book x.now a) :
    outgoing s .fullRelay < outgoing s' .fullRelay := by
  obtain ⟨h, hx, hT, hk⟩ := run_step hc hr e
  obtain ⟨ev, now, r⟩ := x
  cases hev
  obtain ⟨h1, s1, h2, h3⟩ := heartbeat_shape hc h hx.rand hx.now hT (by omega) hon ex
  obtain ⟨l, _, h5⟩ := establish_shape h2
  have hrand : r.Ok := hx.rand
  rw [outgoing_count] at hw ⊢
  rw [outgoing_count]
  dsimp only at ha hw
  have hneed : ({ s with book := s'.book } : State).fullNeeded c now = wantedFull c s now - s.count .fullRelay := by
    have h0 : ({ s with book := s'.book } : State).count .fullRelay = s.count .fullRelay := rfl
    unfold State.fullNeeded State.stale wantedFull
    rw [h0]
    dsimp only
    split <;> rename_i hst
    · rw [if_pos (of_decide_eq_true hst)]
    · rw [if_neg (fun h => hst (decide_eq_true h))]; rfl
  obtain ⟨_, _, f3, f4⟩ := select_spec h1.core.book (({ s with book := s'.book } : State).groups c)
    (({ s with book := s'.book } : State).allow c .fullRelay) (({ s with book := s'.book } : State).fullNeeded c now) now
    (hrand.sample false (({ s with book := s'.book } : State).fullNeeded c now)) (r.coin false)
  have hne := f4 (by omega) ⟨a, sought_eligible (s := { s with book := s'.book }) h1.core.book ha .fullRelay⟩
  obtain ⟨a', ha'⟩ := List.exists_mem_of_ne_nil _ hne
  obtain ⟨q1, q2, q3⟩ := eligible_extra (f3 a' ha').1
  have hmore := dialAll_more (c := c) hs (ro := .fullRelay) (by nofun) (s := { s with book := s'.book }) ha' hon (Or.inl ⟨q2, q3⟩)
    (allow_noConflict (by nofun) hap q1)
  have h6 := (((dialAll_grows c .blockRelay _ _).trans (dialAll_grows c .reserved l _)).trans (h5.trans h3)).1 .fullRelay
  exact Nat.lt_of_lt_of_le hmore h6

/-- **C76** when no full relay connection is missing but block relay ones are, a heartbeat dials another address for one, if there is one that
can be connected to -/
theorem C76_seeks_block {c : Cfg} (hc : c.WF) (hs : c.Sockets) {T t0 : Nat} {steps : List Step} {x : Step} (hr : Runs T t0 (steps ++ [x]))
    {bootNodes reserved : List Addr} {s s' : State} (e : run c bootNodes reserved t0 steps = .ok s)
    (hev : x.ev = .heartbeat) (ex : s.step c x = .ok s') (hon : s.on = true) (hap : Apart c s)
    (hfull : wantedFull c s x.now ≤ outgoing s .fullRelay) (hw : outgoing s .blockRelay < c.blockCount + c.blockExtra) {a : Addr}
    (ha : Sought c s s'.book x.now a) : outgoing s .blockRelay < outgoing s' .blockRelay := by
  obtain ⟨h, hx, hT, hk⟩ := run_step hc hr e
  obtain ⟨ev, now, r⟩ := x
  cases hev
  obtain ⟨h1, s1, h2, h3⟩ := heartbeat_shape hc h hx.rand hx.now hT (by omega) hon ex
  obtain ⟨l, _, h5⟩ := establish_shape h2
  have hrand : r.Ok := hx.rand
  rw [outgoing_count] at hw hfull ⊢
  rw [outgoing_count]
  dsimp only at ha hw hfull
  have hneed : ({ s with book := s'.book } : State).fullNeeded c now = 0 := by
    have h0 : ({ s with book := s'.book } : State).count .fullRelay = s.count .fullRelay := rfl
    unfold State.fullNeeded State.stale
    unfold wantedFull at hfull
    rw [h0]
    dsimp only
    split <;> rename_i hst
    · rw [if_pos (of_decide_eq_true hst)] at hfull; omega
    · rw [if_neg (fun h => hst (decide_eq_true h))] at hfull; omega
  have hneed' : ({ s with book := s'.book } : State).blockNeeded c = c.blockCount + c.blockExtra - s.count .blockRelay := rfl
  rw [hneed] at h5
  have hnil : ∀ (groups : List Nat) (extra : Addr → Bool) (sample : List Addr → List Addr) (coin : Nat → Bool),
      s'.book.select c.db groups extra 0 now sample coin = [] := by
    intro groups extra sample coin
    unfold Book.select
    exact if_pos rfl
  dsimp only at h5
  rw [hnil] at h5
  change Grows (State.dialAll c (State.dialAll c ({ s with book := s'.book } : State) _ _) l _) s1 at h5
  obtain ⟨_, _, f3, f4⟩ := select_spec h1.core.book (({ s with book := s'.book } : State).groups c)
    (({ s with book := s'.book } : State).allow c .blockRelay) (({ s with book := s'.book } : State).blockNeeded c) now
    (hrand.sample true (({ s with book := s'.book } : State).blockNeeded c)) (r.coin true)
  have hne := f4 (by omega) ⟨a, sought_eligible (s := { s with book := s'.book }) h1.core.book ha .blockRelay⟩
  obtain ⟨a', ha'⟩ := List.exists_mem_of_ne_nil _ hne
  obtain ⟨q1, q2, q3⟩ := eligible_extra (f3 a' ha').1
  have hmore := dialAll_more (c := c) hs (ro := .blockRelay) (by nofun) (s := { s with book := s'.book }) ha' hon (Or.inl ⟨q2, q3⟩)
    (allow_noConflict (by nofun) hap q1)
  have h6 := ((dialAll_grows c .reserved l _).trans (h5.trans h3)).1 .blockRelay
  exact Nat.lt_of_lt_of_le hmore h6

/-- **C76** a reserved node that is due is dialled at the next heartbeat, banned or not, unless there is a connection with its IP address -/
theorem C76_reserved_dialled {c : Cfg} (hc : c.WF) (hs : c.Sockets) {T t0 : Nat} {steps : List Step} {x : Step} (hr : Runs T t0 (steps ++ [x]))
    {bootNodes reserved : List Addr} {s s' : State} (e : run c bootNodes reserved t0 steps = .ok s)
    (hev : x.ev = .heartbeat) (ex : s.step c x = .ok s') (hon : s.on = true) {a : Addr} (ha : s'.book.reserved.contains a = true)
    {d : Data} {was : Bool} {fails next : Nat} (hd : s'.book.addresses.get a = some d) (hst : d.state = .disconnected was fails next)
    (hnow : next ≤ x.now) (hp : ∀ i p, s.peers.get i = some p → c.db.ip p.addr ≠ c.db.ip a)
    (hdi : ∀ b r, s.dialing.get b = some r → c.db.ip b ≠ c.db.ip a) : s'.dialing.contains a = true := by
  obtain ⟨h, hx, hT, hk⟩ := run_step hc hr e
  obtain ⟨ev, now, r⟩ := x
  cases hev
  obtain ⟨h1, s1, h2, h3⟩ := heartbeat_shape hc h hx.rand hx.now hT (by omega) hon ex
  obtain ⟨l, h4, h5⟩ := establish_shape h2
  have h6 := h5.trans h3
  clear h5
  generalize ({ s with book := s'.book } : State).book.select c.db (({ s with book := s'.book } : State).groups c)
    (({ s with book := s'.book } : State).allow c .fullRelay) (({ s with book := s'.book } : State).fullNeeded c now) now
    (r.sample false (({ s with book := s'.book } : State).fullNeeded c now)) (r.coin false) = full at h4 h6
  generalize ({ s with book := s'.book } : State).book.select c.db (full.map c.group ++ ({ s with book := s'.book } : State).groups c)
    (({ s with book := s'.book } : State).allow c .blockRelay) (({ s with book := s'.book } : State).blockNeeded c) now
    (r.sample true (({ s with book := s'.book } : State).blockNeeded c)) (r.coin true) = block at h4 h6
  obtain ⟨g1, _, _⟩ := dialAll_spec c .fullRelay full { s with book := s'.book }
  obtain ⟨g2, _, _⟩ := dialAll_spec c .blockRelay block (({ s with book := s'.book } : State).dialAll c full .fullRelay)
  have g := g1.trans g2
  generalize (({ s with book := s'.book } : State).dialAll c full .fullRelay).dialAll c block .blockRelay = s2 at h4 h6 g
  rw [contains_iff]
  cases ed : s2.dialing.get a with
  | some ro => exact ⟨ro, h6.2 a ro ((dialAll_grows c .reserved l s2).2 a ro ed)⟩
  | none =>
    refine ⟨.reserved, h6.2 a _ (dialAll_get hs (by nofun) ?_ (g.on.trans hon) (Or.inr (by rw [g.book]; exact ha)) ?_)⟩
    · refine selectReserved_mem h4 ha hd (by unfold Data.connectNow; rw [hst]; exact decide_eq_true hnow) ?_
      rw [(contains_false _ _).mpr ed, allow_of_free]
      · rfl
      · intro x hx
        rcases mem_conns.mp hx with ⟨i, p, g, rfl⟩ | ⟨y, r, g, rfl⟩
        · exact hp i p g
        · exact hdi y r g
    · rw [noConflict_iff (by nofun)]
      intro x hx hip
      rcases mem_conns.mp hx with ⟨i, p, q, rfl⟩ | ⟨y, r', q, rfl⟩
      · rw [g.peers] at q
        exact absurd hip (hp i p q)
      · refine mayAllow_outbound ?_ rfl
        intro hpt
        have := hs _ _ hip hpt
        dsimp only at this
        rw [this, ed] at q
        nomatch q

/-- **C76** after a restart the anchors are dialled, but for those that are banned or discouraged -/
theorem C76_anchors_dialled {c : Cfg} (hc : c.WF) (hs : c.Sockets) {T t0 : Nat} {steps : List Step} {x : Step} (hr : Runs T t0 (steps ++ [x]))
    {bootNodes reserved : List Addr} {s s' : State} (e : run c bootNodes reserved t0 steps = .ok s) {boot' res' : List Addr}
    (hev : x.ev = .restart true boot' res') (ex : s.step c x = .ok s') {a : Addr} (ha : s.book.anchors.contains a = true)
    (hb : s'.book.banned.contains (c.db.ip a) = false) (hd : s'.book.discouraged.contains (c.db.ip a) = false) :
    s'.dialing.get a = some .blockRelay := by
  obtain ⟨h, hx, hT, hk⟩ := run_step hc hr e
  obtain ⟨ev, now, r⟩ := x
  cases hev
  change (s.db c (.restart boot' res') now 0 >>= _) = _ at ex
  rw [bind_eq_ok] at ex
  obtain ⟨s1, e1, e2⟩ := ex
  have hanch : s1.book.anchors = s.book.anchors := by
    unfold State.db at e1
    split at e1
    · rename_i b hstep
      cases e1
      change start c.db s.book.store boot' res' now = .ok b at hstep
      unfold start at hstep
      simp only [bind_eq_ok] at hstep
      obtain ⟨_, _, _, _, hb⟩ := hstep
      cases hb
      exact h.core.book.anch
    · nomatch e1
  unfold boot at e2
  rw [if_pos rfl] at e2
  dsimp only at e2
  obtain ⟨v, hv⟩ := (contains_iff _ _).mp ha
  have hm : a ∈ s1.book.anchors.entries.map (·.1) := by
    rw [hanch]
    exact List.mem_map.mpr ⟨(a, v), mem_entries'.mpr hv, rfl⟩
  rw [if_neg (by intro hn; rw [hn] at hm; nomatch hm), connectAll_eq] at e2
  cases e2
  obtain ⟨g1, _, _⟩ := dialAll_spec c .blockRelay (s1.book.anchors.entries.map (·.1))
    { s1 with peers := BMap.empty, closing := BMap.empty, dialing := BMap.empty, on := true, nextFeeler := r.feeler, lastTip := now }
  rw [g1.book, contains_false] at hb hd
  refine dialAll_get hs (by nofun) hm rfl (Or.inl ⟨hb, hd⟩) ?_
  rw [noConflict_iff (by nofun)]
  intro x hx
  nomatch hx

/-- **C76** a connection that the operator asks for is dialled just when networking is enabled, the address is a reserved node or neither banned
nor discouraged, and there is no connection with its IP address and port -/
theorem C76_connect_iff {c : Cfg} {s s' : State} {x : Step} {a : Addr} (hev : x.ev = .connect a) (ex : s.step c x = .ok s') :
    (s.dialing.get a = none ∧ s'.dialing.get a = some .manual) ↔
      s.on = true ∧ s.dialing.get a = none ∧
      ((s.book.banned.contains (c.db.ip a) = false ∧ s.book.discouraged.contains (c.db.ip a) = false) ∨ s.book.reserved.contains a = true) ∧
      (∀ i p, s.peers.get i = some p → ¬ (c.db.ip p.addr = c.db.ip a ∧ c.port p.addr = c.port a)) ∧
      (∀ b r, s.dialing.get b = some r → ¬ (c.db.ip b = c.db.ip a ∧ c.port b = c.port a)) := by
  obtain ⟨ev, now, r⟩ := x
  cases hev
  change s.connect c a .manual = .ok s' at ex
  rw [connect_eq] at ex
  cases ex
  have hnc : s.noConflict c a (some .manual) = true ↔
      (∀ i p, s.peers.get i = some p → ¬ (c.db.ip p.addr = c.db.ip a ∧ c.port p.addr = c.port a)) ∧
      (∀ b r, s.dialing.get b = some r → ¬ (c.db.ip b = c.db.ip a ∧ c.port b = c.port a)) := by
    rw [noConflict_iff (by nofun)]
    constructor
    · intro h
      exact ⟨fun i p hp hh => mayAllow_port (h _ (mem_conns.mpr (Or.inl ⟨i, p, hp, rfl⟩)) hh.1) hh.2,
        fun b r hb hh => mayAllow_port (h _ (mem_conns.mpr (Or.inr ⟨b, r, hb, rfl⟩)) hh.1) hh.2⟩
    · rintro ⟨h1, h2⟩ x hx hip
      have hne : c.port x.1 ≠ c.port a := by
        rcases mem_conns.mp hx with ⟨i, p, g, rfl⟩ | ⟨y, r, g, rfl⟩
        · exact fun hh => h1 i p g ⟨hip, hh⟩
        · exact fun hh => h2 y r g ⟨hip, hh⟩
      unfold Cfg.mayAllow
      rw [if_neg hne]
      split
      · rfl
      · split <;> rfl
  rw [← hnc, contains_false, contains_false]
  by_cases hm : s.mayDial c a .manual = true
  · obtain ⟨q1, q2, q3, q4, q5⟩ := mayDial_iff.mp hm
    unfold State.dial
    rw [if_pos hm]
    refine ⟨fun _ => ⟨q1, q2, ?_, q3⟩, fun _ => ⟨q2, BMap.get_insert_self ..⟩⟩
    tauto
  · unfold State.dial
    rw [if_neg hm]
    constructor
    · rintro ⟨h1, h2⟩
      rw [h1] at h2; nomatch h2
    · rintro ⟨h1, h2, h3, h4⟩
      refine absurd (mayDial_iff.mpr ⟨h1, h2, h4, ?_⟩) hm
      tauto

/-- **C76** the candidates for eviction are the peers of that role that are not being disconnected, each with its age, the key of its group,
its ping, the times of its last block and transaction, and whether its address is banned or discouraged -/
theorem C76_candidates (c : Cfg) (s : State) (role : PeerRole) (now : Nat) :
    ((s.cands c role now).map (·.id)).Nodup ∧
    ∀ x, x ∈ s.cands c role now ↔ ∃ p, s.peers.get x.id = some p ∧ p.role = role ∧ s.closing.contains x.id = false ∧
      x = ⟨x.id, now - p.created, c.groupKey (c.group p.addr), ((p.ping.getD (2 ^ 63 - 1) : Nat) : Int), p.lastBlock, p.lastTx, p.expecting,
        s.book.banned.contains (c.db.ip p.addr) || s.book.discouraged.contains (c.db.ip p.addr)⟩ := by
  have key : ∀ i p, s.cand c now (i, p) = ⟨i, now - p.created, c.groupKey (c.group p.addr), ((p.ping.getD (2 ^ 63 - 1) : Nat) : Int),
      p.lastBlock, p.lastTx, p.expecting, s.book.banned.contains (c.db.ip p.addr) || s.book.discouraged.contains (c.db.ip p.addr)⟩ := by
    intro i p
    unfold State.cand Book.isBad
    cases p.ping <;> rfl
  refine ⟨?_, fun x => ?_⟩
  · unfold State.cands
    rw [List.map_map]
    exact active_nodup s role
  · constructor
    · intro hx
      obtain ⟨⟨i, p⟩, hp, rfl⟩ := mem_cands.mp hx
      obtain ⟨h1, h2, h3⟩ := mem_active.mp hp
      exact ⟨p, h1, h2, (contains_false _ _).mpr h3, key i p⟩
    · rintro ⟨p, h1, h2, h3, h4⟩
      refine mem_cands.mpr ⟨(x.id, p), mem_active.mpr ⟨h1, h2, (contains_false _ _).mp h3⟩, ?_⟩
      rw [key]
      exact h4.symm

/-! ## The ends of connections -/

/-- **C76** when an outbound connection has been made or has failed, the address is no longer being dialled -/
theorem C76_dial_ends {c : Cfg} {s s' : State} {x : Step} {a : Addr} (hev : (∃ id ok score, x.ev = .outbound a id ok score) ∨ x.ev = .dialFailed a)
    (ex : s.step c x = .ok s') : s.dialing.contains a = true ∧ ∀ b, s'.dialing.get b = if b = a then none else s.dialing.get b := by
  obtain ⟨ev, now, r⟩ := x
  rcases hev with ⟨id, ok, score, hev⟩ | hev
  · cases hev
    change (match s.dialing.get a with | none => _ | some role => _) = _ at ex
    cases hd : s.dialing.get a with
    | none => rw [hd] at ex; nomatch ex
    | some role =>
      rw [hd] at ex
      dsimp only at ex
      refine ⟨(contains_iff _ _).mpr ⟨role, hd⟩, ?_⟩
      have hdi : s'.dialing = s.dialing.erase a := by
        rcases accept_cases ex with ⟨_, h⟩ | ⟨s1, h1, _, h2, _⟩
        · exact h.dialing
        · obtain ⟨_, _, _, _, _, l, h3⟩ := validate_ok h1
          exact h2.trans h3.dialing
      intro b
      rw [hdi, BMap.get_erase]
  · cases hev
    change (s.db c (.failed a) now (r.rand a) >>= _) = _ at ex
    rw [bind_eq_ok] at ex
    obtain ⟨s1, e1, e2⟩ := ex
    have hk := (db_kept e1).1
    rw [hk.dialing] at e2
    split at e2
    · rename_i hd
      cases e2
      refine ⟨hd, fun b => ?_⟩
      exact BMap.get_erase ..
    · nomatch e2

theorem discourage_effect {c : Cfg} (hc : c.WF) {k T : Nat} {s s' : State} (h : PeerDb.Inv c.db k T s.book) {ip now : Nat} (hn : now ≤ T)
    (hT : T + longest false < maxTime) (hk : k + 1 < 2 ^ 32) (e : s.discourage c ip now = .ok s') :
    s'.book.discouraged.get ip = some (min (now + c.db.discourageTime) (maxTime - 1)) ∧
    ∀ j q, s.peers.get j = some q → c.db.ip q.addr = ip → s'.closing.contains j = true := by
  unfold State.discourage at e
  obtain ⟨b', h1, _, _, h3, _⟩ := db_raw hc h (.discourage ip) hn randLimit_pos hT hk
  rw [h1, ok_bind] at e
  cases e
  have hcl := disconnectAll_closes (s.peersAt c ip) { s with book := b' }
  refine ⟨?_, fun j q hq hip => ?_⟩
  · rw [hcl.book]
    change b'.discouraged.get _ = _
    rw [h3]
    exact if_pos rfl
  · have := hcl.self j (mem_peersAt.mpr ⟨q, hq, hip⟩) (by change s.peers.get j ≠ none; rw [hq]; nofun)
    cases e' : State.closing _ |>.contains j with
    | true => rfl
    | false => exact absurd ((contains_false _ _).mp e') this

/-- **C76** an address that misbehaves to the threshold in the handshake, or whose connection is refused for such misbehaviour, is discouraged
and all connections with it are closed, unless it is whitelisted -/
theorem C76_handshake {c : Cfg} (hc : c.WF) {T t0 : Nat} {steps : List Step} {x : Step} (hr : Runs T t0 (steps ++ [x]))
    {bootNodes reserved : List Addr} {s s' : State} (e : run c bootNodes reserved t0 steps = .ok s) (ex : s.step c x = .ok s') {a : Addr}
    {score : Nat} (hs : c.threshold ≤ score)
    (hev : (∃ id ok, x.ev = .inbound id a ok score ∧ s'.peers = s.peers ∧ c.whitelisted none a = false) ∨
      (x.ev = .misbehavedOnHandshake a score ∧ c.whitelisted (s.dialing.get a) a = false)) :
    s'.book.discouraged.get (c.db.ip a) = some (min (x.now + c.db.discourageTime) (maxTime - 1)) ∧
    ∀ j q, s.peers.get j = some q → c.db.ip q.addr = c.db.ip a → s'.closing.contains j = true := by
  obtain ⟨h, hx, hT, hk⟩ := run_step hc hr e
  obtain ⟨ev, now, r⟩ := x
  have key : ∀ role, s.adjustFailed c a role score now = .ok s' → c.whitelisted role a = false → s.discourage c (c.db.ip a) now = .ok s' := by
    intro role g hw
    unfold State.adjustFailed at g
    rw [if_neg (by omega), if_neg (by rw [hw]; nofun)] at g
    exact g
  refine discourage_effect hc h.core.book hx.now hT (by omega) ?_
  rcases hev with ⟨id, ok, hev, hp, hw⟩ | ⟨hev, hw⟩
  · cases hev
    change s.accept c r id a none ok score now = .ok s' at ex
    rcases accept_cases ex with ⟨h1, _⟩ | ⟨s1, h1, h2, _⟩
    · unfold State.accept at ex
      rw [h1] at ex
      dsimp only at ex
      rw [bind_eq_ok] at ex
      obtain ⟨s1, g1, g2⟩ := ex
      rw [if_neg (by nofun)] at g2
      cases g2
      exact key none g1 hw
    · obtain ⟨_, _, _, hid, _, l, hcl⟩ := validate_ok h1
      rw [h2, hcl.peers] at hp
      have := congrArg (fun m => m.get id) hp
      rw [BMap.get_insert_self, hid] at this
      nomatch this
  · cases hev
    exact key _ ex hw

/-- **C76** the anchors are addresses of block relay peers, namely of all of them if they are not more than are wanted: that is so whenever a
block relay connection has been made -/
theorem C76_anchors_set {c : Cfg} (hc : c.WF) {T t0 : Nat} {steps : List Step} {x : Step} (hr : Runs T t0 (steps ++ [x]))
    {bootNodes reserved : List Addr} {s s' : State} (e : run c bootNodes reserved t0 steps = .ok s) (ex : s.step c x = .ok s') {a : Addr}
    {id : Nat} {ok : Bool} {score : Nat} (hev : x.ev = .outbound a id ok score) (hd : s.dialing.get a = some .blockRelay)
    (h0 : s.peers.get id = none) (h1 : s'.peers.get id ≠ none) :
    (∀ b, s'.book.anchors.contains b = true → ∃ i p, s'.peers.get i = some p ∧ p.role = some .blockRelay ∧ p.addr = b) ∧
    ((s'.peers.entries.countP fun p => p.2.role = some .blockRelay) ≤ c.blockCount →
      ∀ i p, s'.peers.get i = some p → p.role = some .blockRelay → s'.book.anchors.contains p.addr = true) := by
  obtain ⟨h, hx, hT, hk⟩ := run_step hc hr e
  obtain ⟨ev, now, r⟩ := x
  cases hev
  change (match s.dialing.get a with | none => _ | some role => _) = _ at ex
  rw [hd] at ex
  dsimp only at ex
  have hanch : s'.book.anchors = PeerDb.setOf (s'.anchors c) := by
    unfold State.accept at ex
    cases hv : ({ s with dialing := s.dialing.erase a } : State).validate c r id a (some .blockRelay) ok now with
    | none =>
      exfalso
      rw [hv] at ex
      dsimp only at ex
      rw [bind_eq_ok] at ex
      obtain ⟨s1, g1, g2⟩ := ex
      rw [if_pos (by rfl)] at g2
      apply h1
      rw [(db_kept g2).1.peers, (adjustFailed_kept g1).peers]
      exact h0
    | some s1 =>
      rw [hv] at ex
      dsimp only at ex
      split at ex
      · nomatch ex
      · rw [bind_eq_ok] at ex
        obtain ⟨s2, g1, g2⟩ := ex
        rw [if_neg (by nofun)] at g2
        cases g2
        unfold State.connected at g1
        dsimp only at g1
        rw [bind_eq_ok] at g1
        obtain ⟨s3, g3, g4⟩ := g1
        rw [if_pos rfl] at g4
        have hp := (db_kept g4).1.peers
        unfold State.db at g4
        split at g4
        · rename_i b hb
          cases g4
          change Except.ok (s3.book.setAnchors _) = _ at hb
          cases hb
          exact (setAnchors_rest _ _).2.2.2.1
        · nomatch g4
  rw [hanch]
  have hm : ∀ b, (PeerDb.setOf (s'.anchors c)).contains b = true ↔ b ∈ s'.anchors c := by
    intro b
    rw [contains_iff]
    constructor
    · rintro ⟨v, hv⟩
      by_contra hn
      rw [setOf_get, if_neg hn] at hv
      nomatch hv
    · intro hb
      exact ⟨(), by rw [setOf_get, if_pos hb]⟩
  unfold State.anchors at hm
  refine ⟨fun b hb => ?_, fun hcnt i p hp hro => ?_⟩
  · have := List.mem_of_mem_take ((hm b).mp hb)
    obtain ⟨y, hy, rfl⟩ := List.mem_map.mp this
    obtain ⟨hy, hy'⟩ := List.mem_filter.mp hy
    exact ⟨y.1, y.2, mem_entries'.mp hy, of_decide_eq_true hy', rfl⟩
  · refine (hm p.addr).mpr ?_
    rw [List.take_of_length_le]
    · exact List.mem_map.mpr ⟨(i, p), List.mem_filter.mpr ⟨mem_entries'.mpr hp, decide_eq_true hro⟩, rfl⟩
    · rw [List.length_map, ← List.countP_eq_length_filter]
      exact hcnt

/-- **C76** when an outbound peer is disconnected so that its address is to be forgotten, it is, as soon as the connection is closed; reserved
nodes are not forgotten -/
theorem C76_forgotten {c : Cfg} {s s' : State} {x : Step} {id : Nat} {p : Ctx} (hp : s.peers.get id = some p) (hro : p.role ≠ none)
    (hcl : s.closing.get id = some true) (hev : x.ev = .closed id) (ex : s.step c x = .ok s') :
    s'.peers.get id = none ∧ s'.closing.get id = none ∧ s'.book.store.known.get p.addr = none ∧
    (s'.book.reserved.contains p.addr = false → s'.book.addresses.get p.addr = none) := by
  obtain ⟨ev, now, r⟩ := x
  cases hev
  change s.closed c r id now = .ok s' at ex
  unfold State.closed at ex
  rw [hp, hcl] at ex
  dsimp only at ex
  have hsome : p.role.isSome = true := Option.isSome_iff_ne_none.mpr hro
  rw [if_pos hsome, bind_eq_ok] at ex
  obtain ⟨s1, e1, e2⟩ := ex
  rw [if_pos rfl] at e2
  have k1 := (db_kept e1)
  have k2 := (db_kept e2)
  refine ⟨?_, ?_, ?_⟩
  · rw [k2.1.peers, k1.1.peers]
    change (s.peers.erase id).get id = none
    rw [BMap.get_erase, if_pos rfl]
  · rw [k2.2.1, k1.2.1]
    change (s.closing.erase id).get id = none
    rw [BMap.get_erase, if_pos rfl]
  · unfold State.db at e2
    split at e2
    · rename_i b hb
      cases e2
      change s1.book.removeAddress c.db p.addr = .ok b at hb
      unfold Book.removeAddress at hb
      rw [bind_eq_ok] at hb
      obtain ⟨ts, _, hb⟩ := hb
      cases hb
      dsimp only
      refine ⟨by rw [BMap.get_erase, if_pos rfl], fun hr => ?_⟩
      rw [if_neg (by rw [hr]; nofun), BMap.get_erase, if_pos rfl]
    · nomatch e2

/-! ## Cases -/

theorem exCfg_sockets : exCfg.Sockets := fun _ _ h _ => h

/-- 100 is connected for full relay, 201 for block relay; then 302 is dialled for block relay, of which two are sought -/
example : okAnd (run exCfg [] [] 0 [ev 0 (.discovered 100), ev 0 (.enable true), ev 1 (.outbound 100 1 true 0), ev 2 (.discovered 302)])
    (fun s => wantedFull exCfg s 3 ≤ outgoing s .fullRelay ∧ outgoing s .blockRelay = 0 ∧ s.book.tables.new.addrIter = [302]) ∧
    okAnd (run exCfg [] [] 0 [ev 0 (.discovered 100), ev 0 (.enable true), ev 1 (.outbound 100 1 true 0), ev 2 (.discovered 302), ev 3 .heartbeat])
    (fun s => s.dialing.get 302 = some .blockRelay) := by decide +kernel

/-- an address is dialled when the tip has not changed for long, although there is a full relay connection -/
example : okAnd (run exCfg [] [] 0 (exFeeler ++ [ev 1002 (.discovered 703), ev 1003 .heartbeat]))
    (fun s => outgoing s .fullRelay = 2 ∧ s.dialing.get 703 = some .fullRelay) := by decide +kernel

/-- a reserved node is dialled again after its connection has ended -/
example : okAnd (run exCfg [] [700] 0 [ev 0 (.enable true), ev 1 (.outbound 700 1 true 0), ev 2 (.closed 1)])
    (fun s => s.dialing.contains 700 = false) ∧
    okAnd (run exCfg [] [700] 0 [ev 0 (.enable true), ev 1 (.outbound 700 1 true 0), ev 2 (.closed 1), ev 100000000000 .heartbeat])
    (fun s => s.dialing.get 700 = some .reserved) := by decide +kernel

/-- a peer from 302 is refused for what it did, and 302 is discouraged -/
example : okAnd (run exCfg [] [] 0 [ev 0 (.enable true), ev 1 (.inbound 1 302 true 0), ev 2 (.inbound 2 302 false 100)])
    (fun s => s.book.discouraged.get 302 = some 1002 ∧ s.closing.contains 1 = true ∧ s.peers.contains 2 = false) := by decide +kernel

/-- 100 is forgotten -/
example : okAnd (run exCfg [] [] 0 [ev 0 (.discovered 100), ev 0 (.enable true), ev 1 (.outbound 100 1 true 0), ev 2 (.disconnect 1 true)])
      (fun s => s.closing.get 1 = some true ∧ s.book.addresses.contains 100 = true) ∧
    okAnd (run exCfg [] [] 0 [ev 0 (.discovered 100), ev 0 (.enable true), ev 1 (.outbound 100 1 true 0), ev 2 (.disconnect 1 true), ev 3 (.closed 1)])
      (fun s => s.book.addresses.contains 100 = false) := by decide +kernel

end Verif.PeerManager
