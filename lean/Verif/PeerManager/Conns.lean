import Verif.PeerManager.Evict
import Verif.PeerDb.History
import Verif.PeerDb.Select

/-! Lemmas on the list of connections. -/

namespace Verif.PeerManager

open Verif Verif.PeerDb

section BMap
variable {K V : Type} [LinearOrder K]

theorem entries_nodup (m : BMap K V) : m.entries.Nodup :=
  m.sorted.imp fun {a b} h e => by subst e; exact lt_irrefl _ h

theorem mem_entries' {m : BMap K V} {x : K × V} : x ∈ m.entries ↔ m.get x.1 = some x.2 := BMap.mem_entries

theorem entries_insert {m : BMap K V} {k : K} (v : V) (h : m.get k = none) : (m.insert k v).entries.Perm ((k, v) :: m.entries) := by
  refine (List.perm_ext_iff_of_nodup (entries_nodup _) (List.nodup_cons.mpr ⟨?_, entries_nodup _⟩)).mpr fun x => ?_
  · rw [BMap.mem_entries, h]; nofun
  · obtain ⟨k', v'⟩ := x
    rw [BMap.mem_entries, List.mem_cons, BMap.mem_entries, BMap.get_insert]
    by_cases e : k' = k
    · subst e
      rw [if_pos rfl, h]
      simp [eq_comm]
    · rw [if_neg e]
      simp [e]

theorem entries_erase {m : BMap K V} {k : K} {v : V} (h : m.get k = some v) : m.entries.Perm ((k, v) :: (m.erase k).entries) := by
  have e : m = (m.erase k).insert k v := by
    rw [BMap.insert_erase_self, BMap.insert_get h]
  have := entries_insert (m := m.erase k) v (BMap.get_erase_self m k)
  rw [← e] at this
  exact this

theorem entries_update {m : BMap K V} {k : K} (v : V) : (m.insert k v).entries.Perm ((k, v) :: (m.erase k).entries) := by
  have := entries_insert (m := m.erase k) v (BMap.get_erase_self m k)
  rw [BMap.insert_erase_self] at this
  exact this

theorem contains_iff (m : BMap K V) (k : K) : m.contains k = true ↔ ∃ v, m.get k = some v := by
  unfold BMap.contains
  cases m.get k with
  | none => simp
  | some v => simp

theorem contains_false (m : BMap K V) (k : K) : m.contains k = false ↔ m.get k = none := by
  unfold BMap.contains
  cases m.get k with
  | none => simp
  | some v => simp

end BMap

/-- roles of connections that the node makes of its own accord and keeps -/
def auto : PeerRole → Bool
  | some .fullRelay | some .blockRelay => true
  | _ => false

/-- roles of connections that the node makes, other than feelers -/
def solid : PeerRole → Bool
  | none | some .feeler => false
  | _ => true

/-- what holds of the connections -/
structure Good (c : Cfg) (L : List (Addr × PeerRole)) : Prop where
  full : L.countP (fun x => x.2 = some .fullRelay) ≤ c.fullCount + c.fullExtra
  block : L.countP (fun x => x.2 = some .blockRelay) ≤ c.blockCount + c.blockExtra
  feeler : L.countP (fun x => x.2 = some .feeler) ≤ 1
  groups : L.Pairwise fun x y => auto x.2 = true → auto y.2 = true → c.group x.1 ≠ c.group y.1
  sockets : L.Pairwise fun x y => solid x.2 = true → solid y.2 = true → ¬ (c.db.ip x.1 = c.db.ip y.1 ∧ c.port x.1 = c.port y.1)

theorem pairwise_subperm {A : Type} {R : A → A → Prop} (hs : ∀ x y, R x y → R y x) {l l' : List A} (h : l.Pairwise R) (hl : l'.Subperm l) :
    l'.Pairwise R := by
  obtain ⟨m, hm, hs'⟩ := hl
  exact (hm.pairwise_iff (fun {x y} => hs x y)).mp (h.sublist hs')

theorem Good.sub {c : Cfg} {L L' : List (Addr × PeerRole)} (h : Good c L) (hl : L'.Subperm L) : Good c L' where
  full := (hl.countP_le _).trans h.full
  block := (hl.countP_le _).trans h.block
  feeler := (hl.countP_le _).trans h.feeler
  groups := pairwise_subperm (fun _ _ g h1 h2 e => g h2 h1 e.symm) h.groups hl
  sockets := pairwise_subperm (fun _ _ g h1 h2 e => g h2 h1 ⟨e.1.symm, e.2.symm⟩) h.sockets hl

theorem Good.perm {c : Cfg} {L L' : List (Addr × PeerRole)} (h : Good c L) (hl : L'.Perm L) : Good c L' := h.sub hl.subperm

theorem Good.nil (c : Cfg) : Good c [] := ⟨Nat.zero_le _, Nat.zero_le _, Nat.zero_le _, List.Pairwise.nil, List.Pairwise.nil⟩

theorem Good.inbound {c : Cfg} {L : List (Addr × PeerRole)} (h : Good c L) (a : Addr) : Good c ((a, none) :: L) where
  full := by rw [List.countP_cons_of_neg (by simp)]; exact h.full
  block := by rw [List.countP_cons_of_neg (by simp)]; exact h.block
  feeler := by rw [List.countP_cons_of_neg (by simp)]; exact h.feeler
  groups := List.pairwise_cons.mpr ⟨fun _ _ => nofun, h.groups⟩
  sockets := List.pairwise_cons.mpr ⟨fun _ _ => nofun, h.sockets⟩

/-- there is no connection that forbids one of that role -/
def free (c : Cfg) (L : List (Addr × PeerRole)) (a : Addr) (role : PeerRole) : Prop :=
  solid role = true → ∀ x ∈ L, ¬ (c.db.ip x.1 = c.db.ip a ∧ c.port x.1 = c.port a)

theorem mayAllow_port {c : Cfg} {p q : Nat} {ro : PeerRole} {r : Role} (h : c.mayAllow p ro q r = true) : p ≠ q := by
  intro e
  unfold Cfg.mayAllow at h
  rw [if_pos e] at h
  nomatch h

theorem noConflict_free {c : Cfg} {s : State} {a : Addr} {role : PeerRole} (h : s.noConflict c a role = true) : free c s.conns a role := by
  intro hs x hx hc
  cases role with
  | none => nomatch hs
  | some r =>
    have key : (s.conns.all fun x => !decide (c.db.ip x.1 = c.db.ip a) || c.mayAllow (c.port x.1) x.2 (c.port a) r) = true := by
      cases r <;> first | exact h | nomatch hs
    have := List.all_eq_true.mp key x hx
    rw [Bool.or_eq_true] at this
    rcases this with h1 | h1
    · simp [hc.1] at h1
    · exact mayAllow_port h1 hc.2

theorem Good.dial {c : Cfg} {L : List (Addr × PeerRole)} (h : Good c L) {a : Addr} {role : Role} (hf : free c L a (some role))
    (h1 : role = .fullRelay → L.countP (fun x => x.2 = some .fullRelay) < c.fullCount + c.fullExtra)
    (h2 : role = .blockRelay → L.countP (fun x => x.2 = some .blockRelay) < c.blockCount + c.blockExtra)
    (h3 : role = .feeler → L.countP (fun x => x.2 = some .feeler) = 0)
    (h4 : auto (some role) = true → ∀ x ∈ L, auto x.2 = true → c.group x.1 ≠ c.group a) : Good c ((a, some role) :: L) where
  full := by
    rw [List.countP_cons]
    have := h.full
    cases role <;> simp <;> first | exact this | (have := h1 rfl; omega)
  block := by
    rw [List.countP_cons]
    have := h.block
    cases role <;> simp <;> first | exact this | (have := h2 rfl; omega)
  feeler := by
    rw [List.countP_cons]
    have := h.feeler
    cases role <;> simp <;> first | exact this | (have := h3 rfl; simp at this; assumption)
  groups := List.pairwise_cons.mpr ⟨fun x hx g1 g2 e => h4 g1 x hx g2 e.symm, h.groups⟩
  sockets := List.pairwise_cons.mpr ⟨fun x hx g1 _ e => hf g1 x hx ⟨e.1.symm, e.2.symm⟩, h.sockets⟩

/-! ### Dialling -/

/-- `connect` never fails -/
def State.dial (c : Cfg) (s : State) (a : Addr) (role : Role) : State :=
  if s.mayDial c a role then { s with dialing := s.dialing.insert a role } else s

theorem mayDial_iff {c : Cfg} {s : State} {a : Addr} {role : Role} : s.mayDial c a role = true ↔
    s.on = true ∧ s.dialing.get a = none ∧ s.noConflict c a (some role) = true ∧
      (s.book.banned.get (c.db.ip a) = none ∨ s.book.reserved.contains a = true) ∧
      (s.book.discouraged.get (c.db.ip a) = none ∨ s.book.reserved.contains a = true) := by
  unfold State.mayDial
  simp only [Bool.and_eq_true, Bool.or_eq_true, Bool.not_eq_true', contains_false, and_assoc]

theorem connect_eq (c : Cfg) (s : State) (a : Addr) (role : Role) : s.connect c a role = .ok (s.dial c a role) := by
  unfold State.connect State.dial
  by_cases h : s.mayDial c a role = true
  · rw [if_pos h, if_pos h]
    have := (mayDial_iff.mp h).2.1
    rw [if_neg (by rw [(contains_false _ _).mpr this]; nofun)]
  · rw [if_neg h, if_neg h]

/-- dialling some addresses -/
def State.dialAll (c : Cfg) (s : State) (l : List Addr) (role : Role) : State := l.foldl (fun s a => s.dial c a role) s

theorem connectAll_eq (c : Cfg) (role : Role) : ∀ (l : List Addr) (s : State), s.connectAll c l role = .ok (s.dialAll c l role)
  | [], _ => rfl
  | a :: l, s => by
    change (s.connect c a role >>= fun s => s.connectAll c l role) = _
    rw [connect_eq]
    exact connectAll_eq c role l _

theorem conns_insert {s : State} {a : Addr} (role : Role) (h : s.dialing.get a = none) :
    ({ s with dialing := s.dialing.insert a role } : State).conns.Perm ((a, some role) :: s.conns) := by
  unfold State.conns
  have := (entries_insert role h).map fun p : Addr × Role => (p.1, (some p.2 : PeerRole))
  exact (List.Perm.append_left _ this).trans List.perm_middle

/-- the parts of the state that dialling leaves alone -/
structure Same (s s' : State) : Prop where
  book : s'.book = s.book
  peers : s'.peers = s.peers
  closing : s'.closing = s.closing
  on : s'.on = s.on

theorem Same.rfl {s : State} : Same s s := ⟨Eq.refl _, Eq.refl _, Eq.refl _, Eq.refl _⟩

theorem Same.trans {s s' s'' : State} (h : Same s s') (h' : Same s' s'') : Same s s'' :=
  ⟨h'.book.trans h.book, h'.peers.trans h.peers, h'.closing.trans h.closing, h'.on.trans h.on⟩

/-- an address may be dialled: it is neither banned nor discouraged, or a reserved node -/
def Allowed (c : Cfg) (b : Book) (a : Addr) : Prop :=
  (b.banned.get (c.db.ip a) = none ∧ b.discouraged.get (c.db.ip a) = none) ∨ b.reserved.contains a = true

/-- unless such connections are enabled, there is no inbound peer with the IP address that the node dials of its own accord -/
def Foreign (c : Cfg) (peers : BMap Nat Ctx) (a : Addr) (ro : Role) : Prop :=
  ro ≠ .manual → ro ≠ .feeler → c.sameIp = false → ∀ id p, peers.get id = some p → p.role = none → c.db.ip p.addr ≠ c.db.ip a

theorem foreign {c : Cfg} {s : State} {a : Addr} {ro : Role} (h : s.noConflict c a (some ro) = true) : Foreign c s.peers a ro := by
  intro h1 h2 h3 id p hp hr e
  unfold State.noConflict at h
  split at h
  · rename_i hn; nomatch hn
  · rename_i hn; cases hn; exact h2 rfl
  · rename_i r _ hn
    cases hn
    rw [List.all_eq_true] at h
    have hm : (p.addr, p.role) ∈ s.conns := List.mem_append_left _ (List.mem_map.mpr ⟨(id, p), mem_entries'.mpr hp, rfl⟩)
    have := h _ hm
    rw [Bool.or_eq_true, Bool.not_eq_true', decide_eq_false_iff_not] at this
    rcases this with h4 | h4
    · exact h4 e
    · unfold Cfg.mayAllow at h4
      rw [h3, hr] at h4
      split at h4
      · nomatch h4
      · exact h1 (by simpa using h4)

/-- new entries among the addresses being dialled -/
def Fresh (c : Cfg) (s s' : State) : Prop := ∀ a ro, s'.dialing.get a = some ro → s.dialing.get a = some ro ∨
  (s.on = true ∧ Allowed c s.book a ∧ Foreign c s.peers a ro)

theorem Fresh.rfl {c : Cfg} {s : State} : Fresh c s s := fun _ _ h => Or.inl h

theorem Fresh.trans {c : Cfg} {s s' s'' : State} (hs : Same s s') (h : Fresh c s s') (h' : Fresh c s' s'') : Fresh c s s'' := by
  intro a ro e
  rcases h' a ro e with h1 | ⟨h1, h2⟩
  · exact h a ro h1
  · rw [hs.on] at h1
    rw [hs.book, hs.peers] at h2
    exact Or.inr ⟨h1, h2⟩

theorem dial_spec (c : Cfg) (s : State) (a : Addr) (role : Role) : Same s (s.dial c a role) ∧ Fresh c s (s.dial c a role) ∧
    (s.dial c a role = s ∨ (s.noConflict c a (some role) = true ∧ (s.dial c a role).conns.Perm ((a, some role) :: s.conns))) := by
  unfold State.dial
  by_cases h : s.mayDial c a role = true
  · rw [if_pos h]
    obtain ⟨h1, h2, h3, h4, h5⟩ := mayDial_iff.mp h
    refine ⟨⟨rfl, rfl, rfl, rfl⟩, ?_, Or.inr ⟨h3, conns_insert role h2⟩⟩
    intro x ro e
    change (s.dialing.insert a role).get x = _ at e
    rw [BMap.get_insert] at e
    split at e
    · rename_i hx
      subst hx
      cases e
      refine Or.inr ⟨h1, ?_, foreign h3⟩
      unfold Allowed
      rcases h4 with h4 | h4
      · rcases h5 with h5 | h5
        · exact Or.inl ⟨h4, h5⟩
        · exact Or.inr h5
      · exact Or.inr h4
    · exact Or.inl e
  · rw [if_neg h]
    exact ⟨Same.rfl, Fresh.rfl, Or.inl rfl⟩

theorem dialAll_cons (c : Cfg) (s : State) (a : Addr) (l : List Addr) (role : Role) :
    s.dialAll c (a :: l) role = (s.dial c a role).dialAll c l role := rfl

theorem dialAll_spec (c : Cfg) (role : Role) : ∀ (l : List Addr) (s : State),
    Same s (s.dialAll c l role) ∧ Fresh c s (s.dialAll c l role) ∧
    ∃ l' : List Addr, l'.Sublist l ∧ (s.dialAll c l role).conns.Perm (l'.map (fun a => (a, (some role : PeerRole))) ++ s.conns)
  | [], s => ⟨Same.rfl, Fresh.rfl, [], List.Sublist.refl _, List.Perm.refl _⟩
  | a :: l, s => by
    obtain ⟨h1, h2, h3⟩ := dial_spec c s a role
    obtain ⟨g1, g2, l', g3, g4⟩ := dialAll_spec c role l (s.dial c a role)
    rw [dialAll_cons]
    refine ⟨h1.trans g1, h2.trans h1 g2, ?_⟩
    rcases h3 with h3 | ⟨_, h3⟩
    · rw [h3] at g4 ⊢
      exact ⟨l', g3.cons _, g4⟩
    · refine ⟨a :: l', g3.cons_cons _, ?_⟩
      exact g4.trans ((List.Perm.append_left _ h3).trans List.perm_middle)

theorem dialAll_good {c : Cfg} {role : Role} (hr : role ≠ .feeler) : ∀ {l : List Addr} {s : State}, Good c s.conns →
    (role = .fullRelay → s.conns.countP (fun x => x.2 = some .fullRelay) + l.length ≤ c.fullCount + c.fullExtra) →
    (role = .blockRelay → s.conns.countP (fun x => x.2 = some .blockRelay) + l.length ≤ c.blockCount + c.blockExtra) →
    (auto (some role) = true → (l.map c.group).Nodup ∧ ∀ a ∈ l, ∀ x ∈ s.conns, auto x.2 = true → c.group x.1 ≠ c.group a) →
    Good c (s.dialAll c l role).conns
  | [], s, h, _, _, _ => h
  | a :: l, s, h, h1, h2, h3 => by
    rw [dialAll_cons]
    obtain ⟨_, _, g⟩ := dial_spec c s a role
    rcases g with g | ⟨g1, g2⟩
    · rw [g]
      refine dialAll_good hr h (fun e => ?_) (fun e => ?_) (fun e => ?_)
      · have := h1 e; rw [List.length_cons] at this; omega
      · have := h2 e; rw [List.length_cons] at this; omega
      · obtain ⟨h4, h5⟩ := h3 e
        exact ⟨(List.nodup_cons.mp h4).2, fun x hx => h5 x (List.mem_cons_of_mem _ hx)⟩
    · have hg : Good c ((a, some role) :: s.conns) := by
        refine h.dial (noConflict_free g1) (fun e => ?_) (fun e => ?_) (fun e => absurd e hr) (fun e => ?_)
        · have := h1 e; rw [List.length_cons] at this; omega
        · have := h2 e; rw [List.length_cons] at this; omega
        · exact (h3 e).2 a List.mem_cons_self
      refine dialAll_good hr (hg.perm g2) (fun e => ?_) (fun e => ?_) (fun e => ?_)
      · rw [g2.countP_eq, List.countP_cons]
        have := h1 e; rw [List.length_cons] at this
        subst e; simp; omega
      · rw [g2.countP_eq, List.countP_cons]
        have := h2 e; rw [List.length_cons] at this
        subst e; simp; omega
      · obtain ⟨h4, h5⟩ := h3 e
        rw [List.map_cons, List.nodup_cons] at h4
        refine ⟨h4.2, fun x hx y hy hya => ?_⟩
        rcases List.mem_cons.mp (g2.subset hy) with rfl | hy
        · intro e'
          exact h4.1 (List.mem_map.mpr ⟨x, hx, e'.symm⟩)
        · exact h5 x (List.mem_cons_of_mem _ hx) y hy hya

end Verif.PeerManager
