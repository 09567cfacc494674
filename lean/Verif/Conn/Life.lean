import Verif.Conn.Lemmas

/-!
What is reported of each connection and of each dial.
-/
namespace Verif.Conn
open Verif

/-- The reports about a connection for the peer manager and for the synchronisation manager. -/
def Out.of (id : Nat) : Out → Bool
  | .outbound i _ => i == id
  | .inbound i _ => i == id
  | .message i => i == id
  | .misbehaved i => i == id
  | .closed i => i == id
  | .syncConnected i => i == id
  | .syncDisconnected i => i == id
  | _ => false

/-- The messages of an accepted peer. -/
def Mids (id : Nat) (l : List Out) : Prop := ∀ o ∈ l, o = .message id ∨ o = .misbehaved id

/-- How an established connection was reported. -/
def peerOut (id : Nat) (p : Peer) : Out := if p.inbound then .inbound id p.addr else .outbound id p.addr

/-- The reports about a connection which ended. -/
def Finished (id : Nat) (l : List Out) : Prop :=
  ∃ p, l = [peerOut id p, .closed id] ∨
    ∃ mids, Mids id mids ∧ l = peerOut id p :: .syncConnected id :: mids ++ [.syncDisconnected id, .closed id]

/-- The reports so far. -/
def Life (s : State) (id : Nat) (l : List Out) : Prop :=
  match s.peers.get id with
  | some p =>
    (p.accepted = false → l = [peerOut id p]) ∧
    (p.accepted = true → ∃ mids, Mids id mids ∧ l = peerOut id p :: .syncConnected id :: mids)
  | none => l = [] ∨ (Finished id l ∧ id < s.next ∧ s.pending.get id = none)

theorem Life.keep {s s' : State} {id : Nat} {l l' : List Out} (h : Life s id l) (hl : l' = l)
    (hp : s'.peers.get id = s.peers.get id) (hn : s.next ≤ s'.next)
    (hq : id < s.next → s.pending.get id = none → s'.pending.get id = none) : Life s' id l' := by
  subst hl
  unfold Life at h ⊢
  rw [hp]
  split
  · rename_i p hg
    rw [hg] at h
    exact h
  · rename_i hg
    rw [hg] at h
    rcases h with h | ⟨h1, h2, h3⟩
    · exact .inl h
    · exact .inr ⟨h1, by omega, hq h2 h3⟩

theorem added_pending {s : State} {info : Info} {a : Addr} {id : Nat} (h : id < s.next)
    (hp : s.pending.get id = none) : (s.added info a).pending.get id = none := by
  simp only [State.added, BMap.get_insert]
  rw [if_neg (by omega)]
  exact hp

theorem Life.step {s s' : State} {e : Event} {o : List Out} {id : Nat} {l : List Out}
    (hi : Inv s) (h : Life s id l) (hs : Step s e s' o) :
    Life s' id (l ++ o.filter (·.of id)) := by
  cases hs with
  | connect a => exact h.keep (by simp) rfl (Nat.le_refl _) fun _ h => h
  | dialFail a ha => exact h.keep (by simp [Out.of]) rfl (Nat.le_refl _) fun _ h => h
  | dialOk a n ha =>
    exact h.keep (by simp) rfl (Nat.le_succ _) fun h1 h2 =>
      added_pending (s := { s with dialing := s.dialing.erase a }) h1 h2
  | ignored => exact h.keep (by simp) rfl (Nat.le_refl _) fun _ h => h
  | incoming a he hc => exact h.keep (by simp) rfl (Nat.le_succ _) fun h1 h2 => added_pending h1 h2
  | quiet => exact h.keep (by simp) rfl (Nat.le_refl _) fun _ h => h
  | opened x t n al p ht hc he hp hn =>
    by_cases hx : x = id
    · subst hx
      have hpr := hi.peer_none_of_pending hp
      have hl : l = [] := by
        unfold Life at h
        rw [hpr] at h
        rcases h with h | ⟨_, _, h⟩
        · exact h
        · rw [hp] at h; cases h
      subst hl
      unfold Life
      simp only [BMap.get_insert_self]
      refine ⟨fun _ => ?_, by nofun⟩
      simp only [openOut, peerOut]
      by_cases hii : p.info.isInbound = true <;> simp [hii, Out.of]
    · refine h.keep ?_ (BMap.get_insert_ne _ _ (Ne.symm hx)) (Nat.le_refl _) fun _ h => ?_
      · simp only [openOut]
        by_cases hii : p.info.isInbound = true <;> simp [hii, Out.of, hx]
      · simp only [BMap.get_erase_ne _ (Ne.symm hx)]; exact h
  | self x t n p y q ty ht hc he hp hin hy hq hne hty =>
    refine h.keep (by simp [Out.of]) (by simp [State.upd]) (by simp [State.upd]) fun _ h => ?_
    simp only [task_pending, BMap.get_erase]
    split
    · rfl
    · split
      · rfl
      · exact h
  | message x t ht hc he hp =>
    by_cases hx : x = id
    · subst hx
      have ha : t.accepted = true := by simp [Task.can] at hc; exact hc.2
      cases hg : s.peers.get x with
      | none => simp [BMap.contains, hg] at hp
      | some p =>
        obtain ⟨_, t', g1, _, g3, _⟩ := hi.peer _ _ hg
        rw [ht] at g1; cases g1
        unfold Life at h ⊢
        simp only [State.upd]
        rw [hg] at h ⊢
        obtain ⟨mids, hm, rfl⟩ := h.2 (by rw [← g3]; exact ha)
        refine ⟨fun h => (by rw [← g3, ha] at h; cases h), fun _ => ⟨mids ++ [.message x], ?_, by
          simp [Out.of]⟩⟩
        intro o ho
        rw [List.mem_append, List.mem_singleton] at ho
        rcases ho with ho | ho
        · exact hm o ho
        · exact .inl ho
    · exact h.keep (by simp [Out.of, hx]) rfl (Nat.le_refl _) fun _ h => h
  | misHandshake x t p ht hc => exact h.keep (by simp [Out.of]) rfl (Nat.le_refl _) fun _ h => h
  | misbehaved x t ht hc =>
    by_cases hx : x = id
    · subst hx
      have ha : t.phase = .informed ∧ t.accepted = true := by simpa [Task.can] using hc
      obtain ⟨p, hg⟩ := hi.acc _ _ ht ha.2 (by rw [ha.1]; nofun)
      obtain ⟨_, t', g1, _, g3, _⟩ := hi.peer _ _ hg
      rw [ht] at g1; cases g1
      unfold Life at h ⊢
      simp only [State.upd]
      rw [hg] at h ⊢
      obtain ⟨mids, hm, rfl⟩ := h.2 (by rw [← g3]; exact ha.2)
      refine ⟨fun h => (by rw [← g3, ha.2] at h; cases h), fun _ => ⟨mids ++ [.misbehaved x], ?_, by
        simp [Out.of]⟩⟩
      intro o ho
      rw [List.mem_append, List.mem_singleton] at ho
      rcases ho with ho | ho
      · exact hm o ho
      · exact .inr ho
    · exact h.keep (by simp [Out.of, hx]) rfl (Nat.le_refl _) fun _ h => h
  | closed x t ht hc =>
    have hlost : (lostOut (s.pending.get x)).filter (·.of id) = [] := by
      unfold lostOut
      split
      · split <;> simp [Out.of]
      · rfl
    rw [List.filter_append, hlost, List.nil_append]
    by_cases hx : x = id
    · subst hx
      unfold Life at h ⊢
      simp only [BMap.get_erase_self]
      cases hg : s.peers.get x with
      | none =>
        rw [hg] at h
        rcases h with rfl | ⟨h1, h2, h3⟩
        · exact .inl (by simp [goneOut])
        · exact .inr ⟨by simpa [goneOut] using h1, h2, trivial⟩
      | some p =>
        rw [hg] at h
        refine .inr ⟨⟨p, ?_⟩, hi.lt _ _ ht, trivial⟩
        cases ha : p.accepted with
        | false =>
          left
          rw [h.1 ha]
          simp [goneOut, ha, Out.of]
        | true =>
          right
          obtain ⟨mids, hm, rfl⟩ := h.2 ha
          exact ⟨mids, hm, by simp [goneOut, ha, Out.of]⟩
    · refine h.keep ?_ (BMap.get_erase_ne _ (Ne.symm hx)) (Nat.le_refl _) fun _ h => ?_
      · unfold goneOut
        split
        · split <;> simp [Out.of, hx]
        · simp
      · simp only [BMap.get_erase_ne _ (Ne.symm hx)]; exact h
  | acceptNone => exact h.keep (by simp) rfl (Nat.le_refl _) fun _ h => h
  | accepted x p hp hpa =>
    by_cases hx : x = id
    · subst hx
      unfold Life at h ⊢
      rw [hp] at h
      simp only [task_peers, BMap.get_insert_self]
      refine ⟨by nofun, fun _ => ⟨[], by nofun, ?_⟩⟩
      rw [h.1 hpa]
      simp [Out.of, peerOut]
    · refine h.keep (by simp [Out.of, hx]) ?_ (by simp) fun _ h => by simpa using h
      rw [task_peers]
      exact BMap.get_insert_ne _ _ (Ne.symm hx)
  | toldNone => exact h.keep (by simp) rfl (Nat.le_refl _) fun _ h => h
  | told x => exact h.keep (by simp [Out.of]) (by simp) (by simp) fun _ h => by simpa using h
  | wroteNone => exact h.keep (by simp) rfl (Nat.le_refl _) fun _ h => h
  | wrote x => exact h.keep (by simp [Out.of]) (by simp) (by simp) fun _ h => by simpa using h
  | enable b =>
    obtain ⟨ids, e1, e2⟩ := enableNet_cases s b
    rw [e1, e2]
    obtain ⟨f1, f2, f3, f4, f5, f6, f7⟩ := tell_fields ids { s with enabled := b }
    refine h.keep ?_ (by rw [f2]) (by rw [f4]) fun _ h => by rw [f1]; exact h
    have : (ids.map Out.toPeerDisconnect).filter (·.of id) = [] := by
      rw [List.filter_eq_nil_iff]
      intro o ho
      obtain ⟨i, _, rfl⟩ := List.mem_map.mp ho
      simp [Out.of]
    rw [this, List.append_nil]

theorem Life.run {s s' : State} {es : List Event} {o : List Out} {id : Nat} {l : List Out}
    (hi : Inv s) (h : Life s id l) (hr : s.run es = .ok (s', o)) :
    Life s' id (l ++ o.filter (·.of id)) := by
  induction es generalizing s o l with
  | nil => cases hr; simpa using h
  | cons e es ih =>
    obtain ⟨s1, o1, o2, h1, h2, rfl⟩ := run_cons hr
    have := ih (hi.step (step_ok h1)) (Life.step hi h (step_ok h1)) h2
    rwa [List.append_assoc, ← List.filter_append] at this

theorem Life.init (b : Bool) (m id : Nat) : Life (State.init b m) id [] := .inl rfl

/-! ### Connections which are over -/

/-- A connection of the past. -/
def Past (s : State) (id : Nat) : Prop :=
  id < s.next ∧ s.pending.get id = none ∧ s.peers.get id = none

theorem Past.step {s s' : State} {e : Event} {o : List Out} {id : Nat}
    (hi : Inv s) (h : Past s id) (hs : Step s e s' o) : Past s' id := by
  obtain ⟨h1, h2, h3⟩ := h
  cases hs with
  | connect a => exact ⟨h1, h2, h3⟩
  | dialFail a ha => exact ⟨h1, h2, h3⟩
  | dialOk a n ha =>
    exact ⟨Nat.lt_succ_of_lt h1,
      added_pending (s := { s with dialing := s.dialing.erase a }) h1 h2, h3⟩
  | ignored => exact ⟨h1, h2, h3⟩
  | incoming a he hc => exact ⟨Nat.lt_succ_of_lt h1, added_pending h1 h2, h3⟩
  | quiet => exact ⟨h1, h2, h3⟩
  | opened x t n al p ht hc he hp hn =>
    have hx : id ≠ x := by rintro rfl; rw [h2] at hp; cases hp
    exact ⟨h1, by simp only [BMap.get_erase_ne _ hx]; exact h2,
      by simp only [BMap.get_insert_ne _ _ hx]; exact h3⟩
  | self x t n p y q ty ht hc he hp hin hy hq hne hty =>
    have hx : id ≠ x := by rintro rfl; rw [h2] at hp; cases hp
    have hyy : id ≠ y := by rintro rfl; rw [h2] at hy; cases hy
    exact ⟨by simpa [State.upd] using h1,
      by simp only [task_pending, BMap.get_erase_ne _ hx, BMap.get_erase_ne _ hyy]; exact h2,
      by simpa [State.upd] using h3⟩
  | message x t ht hc he hp => exact ⟨h1, h2, h3⟩
  | misHandshake x t p ht hc => exact ⟨h1, h2, h3⟩
  | misbehaved x t ht hc => exact ⟨h1, h2, h3⟩
  | closed x t ht hc =>
    refine ⟨h1, ?_, ?_⟩ <;> simp only [BMap.get_erase] <;> split <;> first | rfl | assumption
  | acceptNone => exact ⟨h1, h2, h3⟩
  | accepted x p hp hpa =>
    have hx : id ≠ x := by rintro rfl; rw [h3] at hp; cases hp
    exact ⟨by simpa using h1, by simpa using h2,
      by simp only [task_peers, BMap.get_insert_ne _ _ hx]; exact h3⟩
  | toldNone => exact ⟨h1, h2, h3⟩
  | told x => exact ⟨by simpa using h1, by simpa using h2, by simpa using h3⟩
  | wroteNone => exact ⟨h1, h2, h3⟩
  | wrote x => exact ⟨by simpa using h1, by simpa using h2, by simpa using h3⟩
  | enable b =>
    obtain ⟨ids, e1, e2⟩ := enableNet_cases s b
    rw [e1]
    obtain ⟨f1, f2, f3, f4, f5, f6, f7⟩ := tell_fields ids { s with enabled := b }
    exact ⟨by rw [f4]; exact h1, by rw [f1]; exact h2, by rw [f2]; exact h3⟩

theorem Past.run {s s' : State} {es : List Event} {o : List Out} {id : Nat}
    (hi : Inv s) (h : Past s id) (hr : s.run es = .ok (s', o)) : Past s' id := by
  induction es generalizing s o with
  | nil => cases hr; exact h
  | cons e es ih =>
    obtain ⟨s1, o1, o2, h1, h2, rfl⟩ := run_cons hr
    exact ih (hi.step (step_ok h1)) (h.step hi (step_ok h1)) h2

/-! ### Dials -/

/-- An answer to a dial. -/
def Out.answers (a : Addr) : Out → Bool
  | .outbound _ b => b == a
  | .connError b _ => b == a
  | _ => false

/-- A pending connection made by a dial. -/
def Pending.dialled (a : Addr) (p : Pending) : Bool := !p.info.isInbound && p.addr == a

theorem Dials.step {s s' : State} {e : Event} {o : List Out} (hi : Inv s) (a : Addr)
    (hs : Step s e s' o) :
    (if e = .connect a then 1 else 0) + s.dialing.count a + cnt (·.dialled a) s.pending =
      o.countP (·.answers a) + s'.dialing.count a + cnt (·.dialled a) s'.pending := by
  cases hs with
  | connect b =>
    by_cases h : b = a
    · subst h; simp; omega
    · simp [h]
  | dialFail b hb =>
    simp only [reduceCtorEq, if_false]
    by_cases h : b = a
    · subst h
      have := List.count_pos_iff.mpr hb
      simp [Out.answers, List.count_erase_self]
      omega
    · simp [Out.answers, h, List.count_erase_of_ne (Ne.symm h)]
  | dialOk b n hb =>
    simp only [reduceCtorEq, if_false]
    obtain ⟨f1, f2, f3⟩ := hi.fresh
    have e1 : (({ s with dialing := s.dialing.erase b } : State).added (.outbound n) b).pending =
      s.pending.insert s.next ⟨b, .outbound n⟩ := rfl
    have e2 : (({ s with dialing := s.dialing.erase b } : State).added (.outbound n) b).dialing =
      s.dialing.erase b := rfl
    rw [e1, e2, cnt_insert _ f2]
    by_cases h : b = a
    · subst h
      have := List.count_pos_iff.mpr hb
      simp [Pending.dialled, Info.isInbound, List.count_erase_self]
      omega
    · simp [Pending.dialled, h, List.count_erase_of_ne (Ne.symm h)]
  | ignored => simp
  | incoming b he hc =>
    obtain ⟨f1, f2, f3⟩ := hi.fresh
    have e1 : (s.added .inbound b).pending = s.pending.insert s.next ⟨b, .inbound⟩ := rfl
    have e2 : (s.added .inbound b).dialing = s.dialing := rfl
    rw [e1, e2, cnt_insert _ f2]
    simp [Pending.dialled, Info.isInbound]
  | quiet => simp [State.upd]
  | opened x t n al p ht hc he hp hn =>
    simp only [reduceCtorEq, if_false, State.upd]
    rw [cnt_erase (f := (·.dialled a)) hp]
    simp only [openOut, Pending.dialled]
    by_cases hii : p.info.isInbound = true <;> simp [hii, Out.answers]
    by_cases h : p.addr = a <;> simp [h]; omega
  | self x t n p y q ty ht hc he hp hin hy hq hne hty =>
    simp only [reduceCtorEq, if_false, task_pending, task_dialing, State.upd]
    rw [cnt_erase (f := (·.dialled a)) hp,
      cnt_erase (f := (·.dialled a)) (k := y) (p := q) (by rw [BMap.get_erase_ne _ hne]; exact hy)]
    simp only [Pending.dialled, hin, hq, Info.isInbound]
    by_cases h : q.addr = a <;> simp [h, Out.answers]; omega
  | message x t ht hc he hp => simp [State.upd, Out.answers]
  | misHandshake x t p ht hc => simp [State.upd, Out.answers]
  | misbehaved x t ht hc => simp [State.upd, Out.answers]
  | closed x t ht hc =>
    have hg : (goneOut x (s.peers.get x)).countP (·.answers a) = 0 := by
      unfold goneOut
      split
      · split <;> simp [Out.answers]
      · rfl
    simp only [reduceCtorEq, if_false, List.countP_append, hg, State.upd]
    cases hp : s.pending.get x with
    | none => simp [BMap.erase_of_none hp, lostOut]
    | some p =>
      rw [cnt_erase (f := (·.dialled a)) hp]
      simp only [lostOut, Pending.dialled]
      by_cases hii : p.info.isInbound = true <;> simp [hii, Out.answers]
      by_cases h : p.addr = a <;> simp [h]; omega
  | acceptNone => simp
  | accepted x p hp hpa => simp [Out.answers]
  | toldNone => simp
  | told x => simp [Out.answers]
  | wroteNone => simp
  | wrote x => simp [Out.answers]
  | enable b =>
    obtain ⟨ids, e1, e2⟩ := enableNet_cases s b
    rw [e1, e2]
    obtain ⟨f1, f2, f3, f4, f5, f6, f7⟩ := tell_fields ids { s with enabled := b }
    have : (ids.map Out.toPeerDisconnect).countP (·.answers a) = 0 := by
      rw [List.countP_eq_zero]
      intro o ho
      obtain ⟨i, _, rfl⟩ := List.mem_map.mp ho
      simp [Out.answers]
    rw [this, f1, f5]
    simp

theorem Dials.run {s s' : State} {es : List Event} {o : List Out} (hi : Inv s) (a : Addr)
    (hr : s.run es = .ok (s', o)) :
    es.count (.connect a) + s.dialing.count a + cnt (·.dialled a) s.pending =
      o.countP (·.answers a) + s'.dialing.count a + cnt (·.dialled a) s'.pending := by
  induction es generalizing s o with
  | nil => cases hr; simp
  | cons e es ih =>
    obtain ⟨s1, o1, o2, h1, h2, rfl⟩ := run_cons hr
    have g1 := ih (hi.step (step_ok h1)) h2
    have g2 := Dials.step hi a (step_ok h1)
    rw [List.count_cons, List.countP_append]
    by_cases h : e = .connect a
    · subst h; simp at g2 ⊢; omega
    · simp [h] at g2 ⊢; omega

end Verif.Conn
