import Verif.Conn.Ends

/-!
C78: the life of connections in the networking backend.

A history is a list of events accepted by the backend from its start: `(State.init b m).run es = .ok (s, os)`,
`os` being all it did, in order.
-/
namespace Verif.Conn
open Verif

set_option maxRecDepth 100000

/-- A history used for the examples: a dial to 7 ends well and is accepted, a message of the peer arrives, a
connection from 9 comes in and is closed before it was accepted, and the peer at 7 leaves. -/
def sample : List Event :=
  [.connect 7, .dialled 7 (some (111, true)), .peer 0 (.info 5 true), .accept 0 true, .incoming 9 true,
    .peer 0 .message, .peer 1 (.info 6 true), .peer 1 .closed, .peer 0 .misbehaved, .peer 0 .closed]

/-- What is done in a history. -/
def outs (r : Res) : Option (List Out) := r.toOption.map (·.2)

example : outs ((State.init true 2).run sample) =
    some [.outbound 0 7, .toPeerAccepted 0, .syncConnected 0, .message 0, .inbound 1 9, .closed 1,
      .misbehaved 0, .syncDisconnected 0, .closed 0] := by decide +kernel

/-- How a step fails. -/
def fails (r : Res) : Option Fail := match r with | .ok _ => none | .error f => some f

/-- A task which ends is handled. -/
theorem close_ok {s : State} (hi : Inv s) {id : Nat} {t : Task} (ht : s.tasks.get id = some t)
    (hc : t.can .closed = true) :
    ∃ s', ∃ o, s.step (.peer id .closed) = .ok (s', o) := by
  simp only [State.step, ht, hc, if_true, State.peerEvent]
  have : ∃ r, State.removePending { s with tasks := s.tasks.insert id (t.after .closed) } id = .ok r := by
    unfold State.removePending
    simp only
    split
    · exact ⟨_, rfl⟩
    · rename_i p hp
      by_cases hin : p.info.isInbound = true
      · rw [if_pos hin, if_neg ((hi.less hp).2.2 hin)]
        exact ⟨_, rfl⟩
      · rw [if_neg hin]
        exact ⟨_, rfl⟩
  obtain ⟨r, hr⟩ := this
  rw [hr]
  exact ⟨_, _, rfl⟩

/-- Each connection is reported in one of these ways: not at all; established; established and closed without
having been accepted; established, accepted and having sent some messages; and the same with its end reported
to the synchronisation and then to the peer manager.  In particular: a connection is reported at most
once as established, messages come only from accepted connections and before their end, and the end is
reported exactly once, to the synchronisation exactly if it was told about the connection. -/
theorem C78_life {b : Bool} {m : Nat} {es : List Event} {s : State} {os : List Out}
    (h : (State.init b m).run es = .ok (s, os)) (id : Nat) :
    os.filter (·.of id) = [] ∨
    ∃ o a, (o = .inbound id a ∨ o = .outbound id a) ∧
      (os.filter (·.of id) = [o] ∨ os.filter (·.of id) = [o, .closed id] ∨
        ∃ mids, (∀ x ∈ mids, x = .message id ∨ x = .misbehaved id) ∧
          (os.filter (·.of id) = o :: .syncConnected id :: mids ∨
            os.filter (·.of id) =
              o :: .syncConnected id :: mids ++ [.syncDisconnected id, .closed id])) := by
  have hl := Life.run (id := id) (Inv.init b m) (Life.init b m id) h
  rw [List.nil_append] at hl
  have ho : ∀ p : Peer, peerOut id p = .inbound id p.addr ∨ peerOut id p = .outbound id p.addr := by
    intro p
    unfold peerOut
    split <;> simp
  unfold Life at hl
  split at hl
  · rename_i p hp
    right
    refine ⟨peerOut id p, p.addr, ho p, ?_⟩
    cases ha : p.accepted with
    | false => exact .inl (hl.1 ha)
    | true =>
      obtain ⟨mids, hm, hl⟩ := hl.2 ha
      exact .inr (.inr ⟨mids, hm, .inl hl⟩)
  · rcases hl with hl | ⟨⟨p, hl | ⟨mids, hm, hl⟩⟩, _⟩
    · exact .inl hl
    · exact .inr ⟨peerOut id p, p.addr, ho p, .inr (.inl hl)⟩
    · exact .inr ⟨peerOut id p, p.addr, ho p, .inr (.inr ⟨mids, hm, .inr hl⟩)⟩

/-- Dials are answered exactly once: the requests to dial an address are as many as the answers (a connection
established or an error) and the dials which are being made.  Nothing else is reported as outbound. -/
theorem C78_dials {b : Bool} {m : Nat} {es : List Event} {s : State} {os : List Out}
    (h : (State.init b m).run es = .ok (s, os)) (a : Addr) :
    es.count (.connect a) =
      os.countP (·.answers a) +
        (s.dialing.count a + (s.pending.entries.filter fun p => p.2.dialled a).length) := by
  have := Dials.run (Inv.init b m) a h
  have e : ∀ l : List (Nat × Pending),
      (l.map fun p => if p.2.dialled a then 1 else 0).sum =
        (l.filter fun p => p.2.dialled a).length := by
    intro l
    induction l with
    | nil => rfl
    | cons x l ih =>
      rw [List.map_cons, List.sum_cons, ih, List.filter_cons]
      split <;> simp; omega
  have e2 : cnt (·.dialled a) s.pending = (s.pending.entries.filter fun p => p.2.dialled a).length :=
    e s.pending.entries
  rw [e2] at this
  have e3 : cnt (·.dialled a) (State.init b m).pending = 0 := rfl
  have e4 : (State.init b m).dialing.count a = 0 := rfl
  rw [e3, e4] at this
  omega

example : ((State.init true 2).run [.connect 7, .connect 8, .dialled 7 none, .connect 7,
    .dialled 8 (some (1, true)), .peer 0 .misbehavedOnHandshake, .peer 0 .closed]).toOption.map
      (fun r => (r.2, r.1.dialing)) =
    some ([.connError 7 false, .misbehavedOnHandshake 8, .connError 8 false], [7]) := by decide +kernel

/-- The inbound connections whose handshake is going on. -/
def State.inbounds (s : State) : Nat := (s.pending.entries.filter fun p => p.2.info.isInbound).length

theorem cnt_inbounds (s : State) : cnt (·.info.isInbound) s.pending = s.inbounds := by
  have e : ∀ l : List (Nat × Pending),
      (l.map fun p => if p.2.info.isInbound then 1 else 0).sum =
        (l.filter fun p => p.2.info.isInbound).length := by
    intro l
    induction l with
    | nil => rfl
    | cons x l ih =>
      rw [List.map_cons, List.sum_cons, ih, List.filter_cons]
      split <;> simp; omega
  exact e s.pending.entries

/-- There are never more inbound connections in their handshake than configured, and a new one is taken
exactly when networking is enabled and there are fewer. -/
theorem C78_limit {b : Bool} {m : Nat} {es : List Event} {s : State} {os : List Out}
    (h : (State.init b m).run es = .ok (s, os)) :
    s.inbounds ≤ m ∧
    ∀ a, (s.enabled = true ∧ s.inbounds < m →
        ∃ s', s.step (.incoming a true) = .ok (s', []) ∧ s'.inbounds = s.inbounds + 1 ∧
          s'.pending.get s.next = some ⟨a, .inbound⟩) ∧
      (¬ (s.enabled = true ∧ s.inbounds < m) → ∀ x, s.step (.incoming a x) = .ok (s, [])) := by
  have hi := (Inv.init b m).run h
  have hm : ∀ {s s' : State} {e o}, Step s e s' o → s'.maxPending = s.maxPending := by
    intro s s' e o hs
    cases hs <;> try (first | rfl | (simp [State.upd]; done))
    rename_i b
    obtain ⟨ids, e1, e2⟩ := enableNet_cases s b
    rw [e1]
    exact (tell_fields ids _).2.2.2.2.2.2
  have hm' : ∀ {es : List Event} {s s' : State} {o}, s.run es = .ok (s', o) →
      s'.maxPending = s.maxPending := by
    intro es
    induction es with
    | nil => intro s s' o h; cases h; rfl
    | cons e es ih =>
      intro s s' o h
      obtain ⟨s1, o1, o2, h1, h2, rfl⟩ := run_cons h
      rw [ih h2, hm (step_ok h1)]
  have hmax : s.maxPending = m := hm' h
  have hc : s.count = s.inbounds := by rw [hi.count, cnt_inbounds]
  refine ⟨by rw [← hc, ← hmax]; exact hi.bound, fun a => ⟨fun hx => ?_, fun hx x => ?_⟩⟩
  · refine ⟨s.added .inbound a, ?_, ?_, by simp [State.added]⟩
    · simp only [State.step, State.incoming]
      rw [if_neg (by simp [hx.1]), if_neg (by rw [hc, hmax]; omega)]
      rfl
    · have := (hi.added .inbound a (fun _ => by rw [hc, hmax]; exact hx.2)).count
      rw [cnt_inbounds] at this
      rw [← this, ← hc]
      rfl
  · simp only [State.step, State.incoming]
    cases he : s.enabled with
    | false => simp
    | true =>
      rw [if_neg (by simp), if_pos]
      rw [hc, hmax]
      simp [he] at hx
      exact hx

example : ((State.init true 2).run [.incoming 3 true, .incoming 4 true, .incoming 5 true]).toOption.map
    (fun r => (r.1.inbounds, r.1.next)) = some (2, 2) := by decide +kernel

/-- The only way to make the backend panic is to accept a connection which was accepted already and has not
been reported as closed. -/
theorem C78_panic {b : Bool} {m : Nat} {es : List Event} {s : State} {os : List Out}
    (h : (State.init b m).run es = .ok (s, os)) (e : Event) :
    s.step e = .error .panic ↔
      ∃ id, e = .accept id true ∧ .syncConnected id ∈ os ∧ .closed id ∉ os := by
  have hi := (Inv.init b m).run h
  have hrm : ∀ {s : State} {id : Nat}, Inv s → s.removePending id ≠ .error .panic := by
    intro s id hi
    unfold State.removePending
    split
    · nofun
    · rename_i p hp
      simp only
      split
      · rename_i hin
        rw [if_neg ((hi.less hp).2.2 hin)]
        nofun
      · nofun
  have hlife : ∀ id, (∃ p, s.peers.get id = some p ∧ p.accepted = true) ↔
      (Out.syncConnected id ∈ os ∧ Out.closed id ∉ os) := by
    intro id
    have hl := Life.run (id := id) (Inv.init b m) (Life.init b m id) h
    rw [List.nil_append] at hl
    have m1 : Out.syncConnected id ∈ os ↔ Out.syncConnected id ∈ os.filter (·.of id) := by
      simp [List.mem_filter, Out.of]
    have m2 : Out.closed id ∈ os ↔ Out.closed id ∈ os.filter (·.of id) := by
      simp [List.mem_filter, Out.of]
    have ho : ∀ p : Peer, Out.syncConnected id ≠ peerOut id p ∧ Out.closed id ≠ peerOut id p := by
      intro p
      unfold peerOut
      split <;> simp
    rw [m1, m2]
    unfold Life at hl
    split at hl
    · rename_i p hp
      rw [hp]
      cases ha : p.accepted with
      | false =>
        rw [hl.1 ha]
        simp [ha, ho p]
      | true =>
        obtain ⟨mids, hm, hl⟩ := hl.2 ha
        rw [hl]
        have : Out.closed id ∉ mids := fun h => by rcases hm _ h with h | h <;> cases h
        simp [ha, (ho p).2, this]
    · rename_i hp
      rw [hp]
      rcases hl with hl | ⟨⟨p, hl | ⟨mids, hm, hl⟩⟩, _⟩ <;> rw [hl] <;> simp
  constructor
  · intro hs
    cases e with
    | connect a => cases hs
    | dialled a r =>
      simp only [State.step, State.connectRes] at hs
      split at hs
      · cases r with
        | none => cases hs
        | some r =>
          simp only [State.createPending] at hs
          split at hs <;> cases hs
      · cases hs
    | incoming a x =>
      simp only [State.step, State.incoming, State.createPending] at hs
      split at hs
      · cases hs
      · split at hs
        · cases hs
        · split at hs <;> cases hs
    | peer id e =>
      simp only [State.step] at hs
      split at hs
      · cases hs
      rename_i t ht
      split at hs
      swap
      · cases hs
      rename_i hc
      cases e with
      | info n al =>
        simp only [State.peerEvent] at hs
        split at hs
        swap
        · cases hs
        have hi1 := hi.upd ht hc (by nofun)
        change (s.upd id (t.after (.info n al))).createPeer id n al = _ at hs
        generalize s.upd id (t.after (.info n al)) = s1 at hs hi1
        unfold State.createPeer at hs
        cases hr : s1.removePending id with
        | error f =>
          rw [hr] at hs
          cases hs
          exact absurd hr (hrm hi1)
        | ok r =>
          rw [hr] at hs
          obtain ⟨op, s2⟩ := r
          obtain ⟨rfl, rfl⟩ := removePending_ok hr
          simp only [show ∀ (x : Option Pending × State) (f : _ → Res), (Except.ok x >>= f) = f x from
            fun _ _ => rfl] at hs
          cases hg : s1.pending.get id with
          | none => rw [hg] at hs; cases hs
          | some p =>
            rw [hg] at hs
            simp only at hs
            have hi2 := hi1.erasePending hg
            generalize ({ s1 with pending := s1.pending.erase id, count := s1.less p } : State) = s2 at hs hi2
            unfold State.fromSelf at hs
            split at hs
            · split at hs
              · cases hs
              · rename_i x q l hw
                obtain ⟨w1, w2⟩ := withNonce_cons hw
                cases hr2 : s2.removePending x with
                | error f =>
                  rw [hr2] at hs
                  cases hs
                  exact absurd hr2 (hrm hi2)
                | ok r2 =>
                  rw [hr2] at hs
                  obtain ⟨op2, s3⟩ := r2
                  obtain ⟨rfl, rfl⟩ := removePending_ok hr2
                  rw [w1] at hs
                  cases al <;> cases hs
            · cases hs
      | sync => cases hs
      | message =>
        simp only [State.peerEvent] at hs
        split at hs
        · split at hs <;> cases hs
        · cases hs
      | misbehavedOnHandshake =>
        simp only [State.peerEvent] at hs
        split at hs <;> cases hs
      | misbehaved => cases hs
      | closed =>
        simp only [State.peerEvent] at hs
        have hne : State.removePending
            { s with tasks := s.tasks.insert id (t.after .closed) } id ≠ .error .panic := by
          unfold State.removePending
          split
          · nofun
          · rename_i p hp
            simp only
            split
            · rename_i hin
              rw [if_neg ((hi.less hp).2.2 hin)]
              nofun
            · nofun
        cases hr : State.removePending { s with tasks := s.tasks.insert id (t.after .closed) } id with
        | error f =>
          rw [hr] at hs
          cases hs
          exact absurd hr hne
        | ok r =>
          rw [hr] at hs
          cases hs
    | accept id al =>
      simp only [State.step, State.acceptPeer] at hs
      split at hs
      · cases hs
      · rename_i p hp
        cases al with
        | false => cases hs
        | true =>
          simp only [Bool.not_true, Bool.false_eq_true, if_false] at hs
          split at hs
          · rename_i ha
            exact ⟨id, rfl, (hlife id).mp ⟨p, hp, ha⟩⟩
          · cases hs
    | disconnect id =>
      simp only [State.step] at hs
      split at hs <;> cases hs
    | send id =>
      simp only [State.step] at hs
      split at hs <;> cases hs
    | enable b => cases hs
  · rintro ⟨id, rfl, h1⟩
    obtain ⟨p, hp, ha⟩ := (hlife id).mpr h1
    simp [State.step, State.acceptPeer, hp, ha]

example : ((State.init true 2).run [.incoming 3 true, .peer 0 (.info 1 true), .accept 0 true]).toOption.map
    (fun r => fails (r.1.step (.accept 0 true))) = some (some .panic) := by decide +kernel

/-- What makes the whole backend stop with an error (and p2p shut down): a new connection whose socket no longer
tells its addresses, or a connection found to come from the node itself whose task has ended. -/
theorem C78_stop {b : Bool} {m : Nat} {es : List Event} {s : State} {os : List Out}
    (h : (State.init b m).run es = .ok (s, os)) (e : Event) :
    s.step e = .error .stop ↔
      (∃ a n, e = .dialled a (some (n, false)) ∧ a ∈ s.dialing) ∨
      (∃ a, e = .incoming a false ∧ s.enabled = true ∧ s.inbounds < s.maxPending) ∨
      (∃ id n t a x c, e = .peer id (.info n false) ∧ s.enabled = true ∧ s.tasks.get id = some t ∧
        t.phase = .handshake ∧ s.pending.get id = some ⟨a, .inbound⟩ ∧
        s.pending.get x = some ⟨c, .outbound n⟩) := by
  have hi := (Inv.init b m).run h
  have hc : s.count = s.inbounds := by rw [hi.count, cnt_inbounds]
  have hrm : ∀ {s : State} {id : Nat}, s.removePending id ≠ .error .stop := by
    intro s id
    unfold State.removePending
    split
    · nofun
    · simp only
      split
      · split <;> nofun
      · nofun
  constructor
  · intro hs
    cases e with
    | connect a => cases hs
    | dialled a r =>
      simp only [State.step, State.connectRes] at hs
      split at hs
      · rename_i ha
        cases r with
        | none => cases hs
        | some r =>
          obtain ⟨n, x⟩ := r
          cases x with
          | true => cases hs
          | false => exact .inl ⟨a, n, rfl, ha⟩
      · cases hs
    | incoming a x =>
      simp only [State.step, State.incoming, State.createPending] at hs
      split at hs
      · cases hs
      · rename_i he
        split at hs
        · cases hs
        · rename_i hm
          cases x with
          | true => cases hs
          | false => exact .inr (.inl ⟨a, rfl, by simpa using he, by rw [← hc]; omega⟩)
    | peer id e =>
      simp only [State.step] at hs
      split at hs
      · cases hs
      rename_i t ht
      split at hs
      swap
      · cases hs
      rename_i hcan
      cases e with
      | info n al =>
        simp only [State.peerEvent] at hs
        split at hs
        swap
        · cases hs
        rename_i hen
        have hs0 := hs
        unfold State.createPeer at hs
        cases hr : State.removePending { s with tasks := s.tasks.insert id (t.after (.info n al)) } id with
        | error f =>
          rw [hr] at hs
          cases hs
          exact absurd hr hrm
        | ok r =>
          rw [hr] at hs
          obtain ⟨op, s2⟩ := r
          obtain ⟨rfl, rfl⟩ := removePending_ok hr
          simp only [show ∀ (x : Option Pending × State) (f : _ → Res), (Except.ok x >>= f) = f x from
            fun _ _ => rfl] at hs
          cases hg : s.pending.get id with
          | none => rw [hg] at hs; cases hs
          | some p =>
            rw [hg] at hs
            simp only at hs
            unfold State.fromSelf at hs
            split at hs
            · rename_i hin
              split at hs
              · cases hs
              · rename_i x q l hw
                obtain ⟨w1, w2⟩ := withNonce_cons hw
                simp only at w1
                right; right
                obtain ⟨pa, pi⟩ := p
                obtain ⟨qa, qi⟩ := q
                cases hin
                cases w2
                cases al with
                | false =>
                  refine ⟨id, n, t, pa, x, qa, rfl, hen, ht, by simpa [Task.can] using hcan, hg, ?_⟩
                  rw [BMap.get_erase] at w1
                  split at w1
                  · cases w1
                  · exact w1
                | true =>
                  exfalso
                  have hcn := (hi.less hg).2.2 rfl
                  obtain ⟨r, hr⟩ := (createPeer_self (al := true)
                    (s := { s with tasks := s.tasks.insert id (t.after (.info n true)) }) hg hcn hw).2 rfl
                  rw [hr] at hs0
                  cases hs0
            · cases hs
      | sync => cases hs
      | message =>
        simp only [State.peerEvent] at hs
        split at hs
        · split at hs <;> cases hs
        · cases hs
      | misbehavedOnHandshake =>
        simp only [State.peerEvent] at hs
        split at hs <;> cases hs
      | misbehaved => cases hs
      | closed =>
        simp only [State.peerEvent] at hs
        cases hr : State.removePending { s with tasks := s.tasks.insert id (t.after .closed) } id with
        | error f =>
          rw [hr] at hs
          cases hs
          exact absurd hr hrm
        | ok r =>
          rw [hr] at hs
          cases hs
    | accept id al =>
      simp only [State.step, State.acceptPeer] at hs
      split at hs
      · cases hs
      · split at hs
        · cases hs
        · split at hs <;> cases hs
    | disconnect id =>
      simp only [State.step] at hs
      split at hs <;> cases hs
    | send id =>
      simp only [State.step] at hs
      split at hs <;> cases hs
    | enable b => cases hs
  · rintro (⟨a, n, rfl, ha⟩ | ⟨a, rfl, he, hm⟩ | ⟨id, n, t, a, x, c, rfl, he, ht, hph, hp, hx⟩)
    · simp [State.step, State.connectRes, ha, State.createPending]
    · simp only [State.step, State.incoming]
      rw [if_neg (by simp [he]), if_neg (by rw [hc]; omega)]
      rfl
    · have hne : x ≠ id := by rintro rfl; rw [hp] at hx; cases hx
      have hcount := (hi.less hp).2.2 rfl
      simp only [State.step, ht, Task.can, hph, beq_self_eq_true, if_true, State.peerEvent]
      rw [if_pos he]
      cases hw : State.withNonce { s with
          tasks := s.tasks.insert id (t.after (.info n false))
          pending := s.pending.erase id, count := s.count - 1 } n with
      | nil =>
        exact absurd rfl (withNonce_nil hw x ⟨c, .outbound n⟩
          (by simp only [BMap.get_erase_ne _ hne]; exact hx))
      | cons y l =>
        exact (createPeer_self (al := false)
          (s := { s with tasks := s.tasks.insert id (t.after (.info n false)) }) hp hcount hw).1 rfl

example : ((State.init true 2).run [.connect 7, .dialled 7 (some (111, true)), .incoming 9 true]).toOption.map
    (fun r => (fails (r.1.step (.peer 1 (.info 111 false))), fails (r.1.step (.incoming 9 false)))) =
    some (some .stop, some .stop) := by decide +kernel

theorem Past.silent {s s' : State} {e : Event} {o : List Out} {id : Nat}
    (hi : Inv s) (h : Past s id) (hs : Step s e s' o) : ∀ x ∈ o, x.of id = false := by
  obtain ⟨h1, h2, h3⟩ := h
  cases hs with
  | opened x t n al p ht hc he hp hn =>
    have hx : x ≠ id := by rintro rfl; rw [h2] at hp; cases hp
    simp only [openOut]
    by_cases hii : p.info.isInbound = true <;> simp [hii, Out.of, hx]
  | message x t ht hc he hp =>
    have hx : x ≠ id := by rintro rfl; simp [BMap.contains, h3] at hp
    simp [Out.of, hx]
  | misbehaved x t ht hc =>
    have hx : x ≠ id := by
      rintro rfl
      have ha : t.phase = .informed ∧ t.accepted = true := by simpa [Task.can] using hc
      obtain ⟨p, hg⟩ := hi.acc _ _ ht ha.2 (by rw [ha.1]; nofun)
      rw [h3] at hg; cases hg
    simp [Out.of, hx]
  | closed x t ht hc =>
    intro o ho
    rw [List.mem_append] at ho
    rcases ho with ho | ho
    · unfold lostOut at ho
      split at ho
      · split at ho
        · cases ho
        · rw [List.mem_singleton] at ho; rw [ho]; rfl
      · cases ho
    · by_cases hx : x = id
      · subst hx
        rw [h3] at ho
        cases ho
      · unfold goneOut at ho
        split at ho
        · rw [List.mem_append] at ho
          rcases ho with ho | ho
          · split at ho
            · rw [List.mem_singleton] at ho; rw [ho]; simp [Out.of, hx]
            · cases ho
          · rw [List.mem_singleton] at ho; rw [ho]; simp [Out.of, hx]
        · cases ho
  | accepted x p hp hpa =>
    have hx : x ≠ id := by rintro rfl; rw [h3] at hp; cases hp
    simp [Out.of, hx]
  | enable b =>
    obtain ⟨ids, e1, e2⟩ := enableNet_cases s b
    rw [e2]
    intro o ho
    obtain ⟨i, _, rfl⟩ := List.mem_map.mp ho
    rfl
  | _ => simp [Out.of]

theorem Past.silent_run {s s' : State} {es : List Event} {o : List Out} {id : Nat}
    (hi : Inv s) (h : Past s id) (hr : s.run es = .ok (s', o)) : ∀ x ∈ o, x.of id = false := by
  induction es generalizing s o with
  | nil => cases hr; nofun
  | cons e es ih =>
    obtain ⟨s1, o1, o2, h1, h2, rfl⟩ := run_cons hr
    intro x hx
    rw [List.mem_append] at hx
    rcases hx with hx | hx
    · exact h.silent hi (step_ok h1) x hx
    · exact ih (hi.step (step_ok h1)) (h.step hi (step_ok h1)) h2 x hx

/-- A node which connects to itself finds out: when the handshake of an inbound connection shows the nonce of
a connection the node itself is making, neither of the two is ever reported as established, the dial is
reported as failed because of this, and the inbound connection is told to disconnect.  No dial is reported as
such otherwise. -/
theorem C78_self {b : Bool} {m : Nat} {es : List Event} {s : State} {os : List Out}
    (h : (State.init b m).run es = .ok (s, os)) {e : Event} {s' : State} {o : List Out}
    (hs : s.step e = .ok (s', o)) :
    (∀ a, .connError a true ∈ o →
      ∃ id n c x, e = .peer id (.info n true) ∧ s.pending.get id = some ⟨c, .inbound⟩ ∧
        s.pending.get x = some ⟨a, .outbound n⟩ ∧ o = [.connError a true, .toPeerDisconnect id] ∧
        (∃ t, s'.tasks.get id = some t ∧ t.told = true ∧ t.can .closed = true) ∧
        ∀ es' s'' os', s'.run es' = .ok (s'', os') → ∀ z ∈ os', z.of id = false ∧ z.of x = false) ∧
    (∀ id n al c x a, e = .peer id (.info n al) → s.enabled = true →
      s.pending.get id = some ⟨c, .inbound⟩ → s.pending.get x = some ⟨a, .outbound n⟩ →
      ∃ a', .connError a' true ∈ o) := by
  have hi := (Inv.init b m).run h
  have hst := step_ok hs
  have hi' := hi.step hst
  constructor
  · intro a ha
    cases hst with
    | self x t n p y q ty ht hc he hp hin hy hq hne hty =>
      obtain ⟨pa, pi⟩ := p
      obtain ⟨qa, qi⟩ := q
      cases hin
      cases hq
      simp only [List.mem_cons, Out.connError.injEq, and_true, reduceCtorEq, List.not_mem_nil, or_false] at ha
      subst ha
      refine ⟨x, n, pa, y, rfl, hp, hy, rfl, ?_, ?_⟩
      · refine ⟨{ t.after (.info n true) with told := true }, ?_, rfl, ?_⟩
        · rw [task_get, if_pos rfl, task_get, if_neg (Ne.symm hne)]
          simp [State.upd]
        · simp [Task.can, Task.after]
      · intro es' s'' os' hr z hz
        have p1 : Past ((({ s.upd x (t.after (.info n true)) with
          pending := (s.pending.erase x).erase y
          count := s.count - 1 } : State).task y (fun t => { t with told := true })).task x
            (fun t => { t with told := true })) x :=
          ⟨by simpa [State.upd] using hi.lt _ _ ht, by
            simp only [task_pending, BMap.get_erase]
            split <;> simp, by
            simpa [State.upd] using hi.peer_none_of_pending hp⟩
        have p2 : Past ((({ s.upd x (t.after (.info n true)) with
          pending := (s.pending.erase x).erase y
          count := s.count - 1 } : State).task y (fun t => { t with told := true })).task x
            (fun t => { t with told := true })) y := by
          obtain ⟨t', ht', _⟩ := hi.pend _ _ hy
          exact ⟨by simpa [State.upd] using hi.lt _ _ ht', by
            simp only [task_pending, BMap.get_erase]
            split <;> simp at *, by
            simpa [State.upd] using hi.peer_none_of_pending hy⟩
        exact ⟨p1.silent_run hi' hr z hz, p2.silent_run hi' hr z hz⟩
    | opened x t n al p ht hc he hp hn =>
      simp only [openOut] at ha
      by_cases hii : p.info.isInbound = true <;> simp [hii] at ha
    | closed x t ht hc =>
      rw [List.mem_append] at ha
      rcases ha with ha | ha
      · unfold lostOut at ha
        split at ha
        · split at ha <;> simp at ha
        · cases ha
      · unfold goneOut at ha
        split at ha
        · rw [List.mem_append] at ha
          rcases ha with ha | ha
          · split at ha <;> simp at ha
          · simp at ha
        · cases ha
    | enable b =>
      obtain ⟨ids, e1, e2⟩ := enableNet_cases s b
      rw [e2] at ha
      obtain ⟨i, _, h⟩ := List.mem_map.mp ha
      cases h
    | _ => simp at ha
  · rintro id n al c x a rfl he hp hx
    cases hst with
    | quiet _ t _ ht hc _ _ hq =>
      rcases hq n al rfl with g | g
      · rw [he] at g; cases g
      · rw [hp] at g; cases g
    | opened _ t _ _ p ht hc _ hp' hn =>
      rw [hp] at hp'
      cases hp'
      exact absurd rfl (hn rfl x _ hx)
    | self => exact ⟨_, by simp; rfl⟩

example : outs ((State.init true 2).run [.connect 7, .dialled 7 (some (111, true)), .incoming 9 true,
    .peer 1 (.info 111 true), .peer 0 (.info 222 true), .peer 1 .closed, .peer 0 .closed]) =
    some [.connError 7 true, .toPeerDisconnect 1] := by decide +kernel

/-- While networking is disabled no connection is reported as established and no message is passed on. -/
theorem C78_disabled {b : Bool} {m : Nat} {es : List Event} {s : State} {os : List Out}
    (_h : (State.init b m).run es = .ok (s, os)) (hd : s.enabled = false) {es' : List Event} {s' : State}
    {os' : List Out} (he : .enable true ∉ es') (hr : s.run es' = .ok (s', os')) :
    (∀ id a, .inbound id a ∉ os' ∧ .outbound id a ∉ os') ∧ (∀ id, .message id ∉ os') ∧
      s'.inbounds ≤ s.inbounds := by
  have hi := (Inv.init b m).run _h
  clear _h
  have key : ∀ {s s' : State} {e o}, Inv s → Step s e s' o → s.enabled = false → e ≠ .enable true →
      s'.enabled = false ∧ (∀ id a, .inbound id a ∉ o ∧ .outbound id a ∉ o) ∧ (∀ id, .message id ∉ o) ∧
        s'.inbounds ≤ s.inbounds := by
    intro s s' e o hi hst hd he
    have hi' := hi.step hst
    have hen : s'.enabled = false := by
      rw [step_enabled hst]
      cases e with
      | enable b =>
        cases b with
        | true => exact absurd rfl he
        | false => rfl
      | _ => exact hd
    refine ⟨hen, ?_⟩
    have hcc : s'.count ≤ s.count → s'.inbounds ≤ s.inbounds := by
      intro h
      rwa [hi.count, hi'.count, cnt_inbounds, cnt_inbounds] at h
    cases hst with
    | incoming a h1 => rw [hd] at h1; cases h1
    | opened x t n al p ht hc h1 => rw [hd] at h1; cases h1
    | self x t n p y q ty ht hc h1 => rw [hd] at h1; cases h1
    | message x t ht hc h1 => rw [hd] at h1; cases h1
    | dialOk a n ha =>
      exact ⟨by simp, by simp, hcc (by simp [State.added, Info.isInbound])⟩
    | closed x t ht hc =>
      refine ⟨fun id a => ?_, fun id => ?_, hcc ?_⟩
      · unfold lostOut goneOut
        constructor <;> (split <;> split <;> (try split) <;> (try split) <;> simp)
      · unfold lostOut goneOut
        split <;> split <;> (try split) <;> (try split) <;> simp
      · cases hp : s.pending.get x with
        | none => simp
        | some p => exact (hi.less hp).2.1
    | enable b =>
      obtain ⟨ids, e1, e2⟩ := enableNet_cases s b
      refine ⟨fun id a => ?_, fun id => ?_, hcc ?_⟩
      · rw [e2]; simp
      · rw [e2]; simp
      · rw [e1, (tell_fields ids _).2.2.1]
    | _ => exact ⟨by simp, by simp, hcc (by simp [State.upd])⟩
  induction es' generalizing s os' with
  | nil => cases hr; exact ⟨by simp, by simp, Nat.le_refl _⟩
  | cons e es ih =>
    obtain ⟨s1, o1, o2, h1, h2, rfl⟩ := run_cons hr
    obtain ⟨k1, k2, k3, k4⟩ := key hi (step_ok h1) hd (fun h => he (by simp [h]))
    obtain ⟨i1, i2, i3⟩ := ih k1 (fun h => he (by simp [h])) h2 (hi.step (step_ok h1))
    refine ⟨fun id a => ?_, fun id => ?_, Nat.le_trans i3 k4⟩
    · simp only [List.mem_append, not_or]
      exact ⟨⟨(k2 id a).1, (i1 id a).1⟩, ⟨(k2 id a).2, (i1 id a).2⟩⟩
    · simp only [List.mem_append, not_or]
      exact ⟨k3 id, i2 id⟩

/-- When networking gets disabled, exactly the connections which exist are told to disconnect, and all of
them can end. -/
theorem C78_disabling {b : Bool} {m : Nat} {es : List Event} {s : State} {os : List Out}
    (h : (State.init b m).run es = .ok (s, os)) (he : s.enabled = true) :
    ∃ s' o, s.step (.enable false) = .ok (s', o) ∧ s'.enabled = false ∧
      (∀ id, .toPeerDisconnect id ∈ o ↔ s.pending.contains id = true ∨ s.peers.contains id = true) ∧
      ∀ id, .toPeerDisconnect id ∈ o → ∃ s'' o', s'.step (.peer id .closed) = .ok (s'', o') := by
  have hi := (Inv.init b m).run h
  have hmem : ∀ id, id ∈ s.ids ↔ s.pending.contains id = true ∨ s.peers.contains id = true := by
    intro id
    unfold State.ids
    have aux : ∀ {V : Type} (q : BMap Nat V), id ∈ q.entries.map (·.1) ↔ q.contains id = true := by
      intro V q
      rw [List.mem_map]
      constructor
      · rintro ⟨⟨i, p⟩, h1, rfl⟩
        have h1 := BMap.mem_entries.mp h1
        simp [BMap.contains, h1]
      · intro hx
        cases hg : q.get id with
        | none => simp [BMap.contains, hg] at hx
        | some p => exact ⟨(id, p), BMap.mem_entries.mpr hg, rfl⟩
    rw [List.mem_append, aux, aux, Or.comm]
  have hen : s.enableNet false = (({ s with enabled := false } : State).tell s.ids,
      s.ids.map .toPeerDisconnect) := by
    rw [enableNet_eq, if_pos ⟨he, rfl⟩]
  have hst : s.step (.enable false) = .ok (({ s with enabled := false } : State).tell s.ids,
      s.ids.map .toPeerDisconnect) := by rw [← hen]; rfl
  have hout : ∀ id, Out.toPeerDisconnect id ∈ s.ids.map .toPeerDisconnect ↔ id ∈ s.ids := by
    intro id; simp
  have hi' := hi.step (step_ok hst)
  refine ⟨_, _, hst, (tell_fields _ _).2.2.2.2.2.1, fun id => ?_, fun id hid => ?_⟩
  · rw [hout, hmem]
  · rw [hout] at hid
    have ht : ∃ t, s.tasks.get id = some t ∧ t.phase ≠ .ended := by
      rcases (hmem id).mp hid with g | g
      · cases hg : s.pending.get id with
        | none => simp [BMap.contains, hg] at g
        | some p =>
          obtain ⟨t, h1, h2, _⟩ := hi.pend _ _ hg
          exact ⟨t, h1, h2⟩
      · cases hg : s.peers.get id with
        | none => simp [BMap.contains, hg] at g
        | some p =>
          obtain ⟨_, t, h1, h2, _⟩ := hi.peer _ _ hg
          exact ⟨t, h1, by rcases h2 with h2 | h2 <;> rw [h2] <;> nofun⟩
    obtain ⟨t, ht, hph⟩ := ht
    have ht' : (({ s with enabled := false } : State).tell s.ids).tasks.get id =
        some { t with told := true } := by
      rw [tell_get]; simp [ht, hid]
    generalize ({ s with enabled := false } : State).tell s.ids = s1 at ht' hi'
    have hcan : ({ t with told := true } : Task).can .closed = true := by
      cases hp : t.phase <;> simp [Task.can, hp]
      exact absurd hp hph
    exact close_ok hi' ht' hcan

example : outs ((State.init true 2).run [.connect 7, .incoming 9 true, .dialled 7 (some (111, true)),
    .peer 1 (.info 5 true), .accept 1 true, .enable false, .peer 0 (.info 6 true), .peer 1 .message,
    .incoming 10 true, .peer 1 .closed, .peer 0 .closed]) =
    some [.outbound 1 7, .toPeerAccepted 1, .syncConnected 1, .toPeerDisconnect 1, .toPeerDisconnect 0,
      .syncDisconnected 1, .closed 1] := by decide +kernel

/-- What is reported when a connection closes: for a dial which had not ended, that it failed; for a
connection reported as established, its end; nothing for others. -/
theorem close_out {s s' : State} {id : Nat} {o : List Out} (hi : Inv s)
    (hs : s.step (.peer id .closed) = .ok (s', o)) :
    (∀ p, s.pending.get id = some p →
      o = if p.info.isInbound then [] else [.connError p.addr false]) ∧
    (∀ p, s.peers.get id = some p →
      o = (if p.accepted then [.syncDisconnected id] else []) ++ [.closed id]) := by
  have hst := step_ok hs
  cases hst with
  | quiet _ t _ _ _ h => exact absurd rfl h
  | closed _ t ht hc =>
    constructor
    · intro p hp
      rw [hp, hi.peer_none_of_pending hp]
      simp [lostOut, goneOut]
    · intro p hp
      rw [hp, (hi.peer _ _ hp).1]
      simp [lostOut, goneOut]

/-- As long as no dial succeeds while networking is disabled, nothing gets lost: every dial which is not
answered yet can be answered, and every connection in its handshake can end. -/
theorem C78_ends {b : Bool} {m : Nat} {es : List Event} {s : State} {os : List Out}
    (h : (State.init b m).run es = .ok (s, os)) (hc : Calm b es) :
    (∀ a ∈ s.dialing, ∃ s', s.step (.dialled a none) = .ok (s', [.connError a false])) ∧
    (∀ id a n, s.pending.get id = some ⟨a, .outbound n⟩ →
      ∃ s', s.step (.peer id .closed) = .ok (s', [.connError a false])) ∧
    (∀ id a, s.pending.get id = some ⟨a, .inbound⟩ →
      ∃ s', s.step (.peer id .closed) = .ok (s', []) ∧ s'.inbounds + 1 = s.inbounds) := by
  have hi := (Inv.init b m).run h
  have hcan := CanEnd.run (Inv.init b m) (CanEnd.init b m) hc h
  have key : ∀ id p, s.pending.get id = some p → ∃ s' o, s.step (.peer id .closed) = .ok (s', o) := by
    intro id p hp
    obtain ⟨t, ht, hph, _⟩ := hi.pend _ _ hp
    refine close_ok hi ht ?_
    cases hph' : t.phase with
    | informed => rcases hcan.live _ _ _ hp ht hph' with g | g <;> simp [Task.can, hph', g]
    | ended => exact absurd hph' hph
    | _ => simp [Task.can, hph']
  refine ⟨fun a ha => ?_, fun id a n hp => ?_, fun id a hp => ?_⟩
  · exact ⟨_, by simp only [State.step, State.connectRes, if_pos ha]; rfl⟩
  · obtain ⟨s', o, hs⟩ := key _ _ hp
    have := (close_out hi hs).1 _ hp
    exact ⟨s', by rw [hs, this]; rfl⟩
  · obtain ⟨s', o, hs⟩ := key _ _ hp
    have := (close_out hi hs).1 _ hp
    refine ⟨s', by rw [hs, this]; rfl, ?_⟩
    have hi' := hi.step (step_ok hs)
    have hst := step_ok hs
    cases hst with
    | quiet _ t _ _ _ h => exact absurd rfl h
    | closed _ t ht hc =>
      have c1 := hi'.count
      have c2 := hi.count
      rw [cnt_inbounds] at c1 c2
      have := (hi.less hp).2.2 rfl
      rw [← c1, ← c2]
      simp only [hp, State.less, Info.isInbound, if_true]
      omega

example : Calm true sample := by simp [sample, Calm]

/-- A connection reported as established which is told to disconnect can end, and its end is reported. -/
theorem C78_disconnect {b : Bool} {m : Nat} {es : List Event} {s : State} {os : List Out}
    (h : (State.init b m).run es = .ok (s, os)) {id : Nat} {a : Addr}
    (ho : .inbound id a ∈ os ∨ .outbound id a ∈ os) (hc : .closed id ∉ os) :
    ∃ s', s.step (.disconnect id) = .ok (s', [.toPeerDisconnect id]) ∧
      ∃ s'', s'.step (.peer id .closed) =
        .ok (s'', if .syncConnected id ∈ os then [.syncDisconnected id, .closed id] else [.closed id]) := by
  have hi := (Inv.init b m).run h
  have hl := Life.run (id := id) (Inv.init b m) (Life.init b m id) h
  rw [List.nil_append] at hl
  have m2 : Out.closed id ∈ os ↔ Out.closed id ∈ os.filter (·.of id) := by
    simp [List.mem_filter, Out.of]
  have m1 : Out.syncConnected id ∈ os ↔ Out.syncConnected id ∈ os.filter (·.of id) := by
    simp [List.mem_filter, Out.of]
  have m3 : os.filter (·.of id) ≠ [] := by
    intro hnil
    rw [List.filter_eq_nil_iff] at hnil
    rcases ho with ho | ho
    · exact hnil _ ho (by simp [Out.of])
    · exact hnil _ ho (by simp [Out.of])
  rw [m2] at hc
  unfold Life at hl
  split at hl
  · rename_i p hp
    obtain ⟨_, t, ht, hph, hta, _⟩ := hi.peer _ _ hp
    have hacc : Out.syncConnected id ∈ os ↔ p.accepted = true := by
      rw [m1]
      have ho : Out.syncConnected id ≠ peerOut id p := by
        unfold peerOut
        split <;> simp
      cases ha : p.accepted with
      | false => rw [hl.1 ha]; simp [ho]
      | true => obtain ⟨mids, _, hl⟩ := hl.2 ha; rw [hl]; simp
    have hst : s.step (.disconnect id) =
        .ok (s.task id (fun t => { t with told := true }), [.toPeerDisconnect id]) := by
      simp [State.step, BMap.contains, hp]
    refine ⟨_, hst, ?_⟩
    have hi' := hi.step (step_ok hst)
    obtain ⟨s'', o, hs⟩ := close_ok (id := id) (t := { t with told := true }) hi'
      (by rw [task_get, if_pos rfl, ht]; rfl)
      (by rcases hph with g | g <;> simp [Task.can, g])
    refine ⟨s'', ?_⟩
    rw [hs, (close_out hi' hs).2 p (by simpa using hp)]
    by_cases ha : p.accepted = true
    · rw [if_pos ha, if_pos (hacc.mpr ha)]; rfl
    · rw [if_neg ha, if_neg (fun h => ha (hacc.mp h))]; rfl
  · rcases hl with hl | ⟨⟨p, hl | ⟨mids, hm, hl⟩⟩, _⟩
    · exact absurd hl m3
    · rw [hl] at hc; simp at hc
    · rw [hl] at hc; simp at hc

example : outs ((State.init true 2).run [.incoming 9 true, .peer 0 (.info 5 true), .disconnect 0,
    .peer 0 .closed]) = some [.inbound 0 9, .toPeerDisconnect 0, .closed 0] := by decide +kernel

/-- Networking is disabled while a dial is going on, the dial succeeds, the handshake ends, and networking is
enabled again. -/
def lost (a : Addr) (nonce theirs : Nat) : List Event :=
  [.connect a, .enable false, .dialled a (some (nonce, true)), .peer 0 (.info theirs true), .enable true]

theorem run_ok {s s1 s2 : State} {e : Event} {es : List Event} {o1 o2 : List Out}
    (h1 : s.step e = .ok (s1, o1)) (h2 : s1.run es = .ok (s2, o2)) :
    s.run (e :: es) = .ok (s2, o1 ++ o2) := by
  unfold State.run
  rw [h1]
  show (do let (s, os) ← s1.run es; return (s, o1 ++ os)) = _
  rw [h2]
  rfl

/-- In this history (which the code allows) the dial is never answered, whatever happens later, unless
networking is disabled again or another node shows the node's own nonce; the connection stays open. -/
theorem C78_lost (m : Nat) (a : Addr) (nonce theirs : Nat) {es : List Event} {s : State} {os : List Out}
    (h1 : .enable false ∉ es) (h2 : ∀ id al, .peer id (.info nonce al) ∉ es) (h3 : .connect a ∉ es)
    (h : (State.init true m).run (lost a nonce theirs ++ es) = .ok (s, os)) :
    (∀ o ∈ os, o.answers a = false) ∧ s.pending.contains 0 = true ∧
      ∀ e s' o, s.step (.peer 0 e) ≠ .ok (s', o) := by
  obtain ⟨s1, o1, o2, g1, g2, rfl⟩ := run_append h
  have hi1 := (Inv.init true m).run g1
  have hst : Stuck s1 0 a nonce := by
    have : (State.init true m).run (lost a nonce theirs) = .ok
        (⟨true, m, 1, [], BMap.empty.insert 0 ⟨a, .outbound nonce⟩, BMap.empty, 0,
          (BMap.empty.insert 0 ⟨false, .handshake, false, false, false⟩).insert 0
            ⟨false, .informed, false, false, false⟩⟩, []) := by
      refine run_ok (s1 := ⟨true, m, 0, [a], BMap.empty, BMap.empty, 0, BMap.empty⟩) (o1 := []) rfl ?_
      refine run_ok (s1 := ⟨false, m, 0, [a], BMap.empty, BMap.empty, 0, BMap.empty⟩) (o1 := []) rfl ?_
      refine run_ok (s1 := ⟨false, m, 1, [], BMap.empty.insert 0 ⟨a, .outbound nonce⟩, BMap.empty, 0,
        BMap.empty.insert 0 ⟨false, .handshake, false, false, false⟩⟩) (o1 := []) ?_ ?_
      · simp [State.step, State.connectRes, State.createPending, State.insertPending, Info.isInbound]
      · refine run_ok (s1 := ⟨false, m, 1, [], BMap.empty.insert 0 ⟨a, .outbound nonce⟩, BMap.empty, 0,
          (BMap.empty.insert 0 ⟨false, .handshake, false, false, false⟩).insert 0
            ⟨false, .informed, false, false, false⟩⟩) (o1 := []) rfl ?_
        exact run_ok (o1 := []) rfl rfl
    rw [this] at g1
    cases g1
    exact ⟨by simp, by simp⟩
  have hst' := Stuck.run hi1 hst h1 h2 g2
  have hi := (Inv.init true m).run h
  refine ⟨?_, by simp [BMap.contains, hst'.1], ?_⟩
  · have hd := Dials.run (Inv.init true m) a h
    have e1 : (lost a nonce theirs ++ es).count (.connect a) = 1 := by
      rw [List.count_append, List.count_eq_zero.mpr h3]
      simp [lost]
    have e2 : cnt (·.dialled a) (State.init true m).pending = 0 := rfl
    have e3 : (State.init true m).dialing.count a = 0 := rfl
    have e4 := cnt_erase (f := (·.dialled a)) hst'.1
    have e5 : Pending.dialled a ⟨a, .outbound nonce⟩ = true := by simp [Pending.dialled, Info.isInbound]
    rw [if_pos e5] at e4
    rw [e1, e2, e3] at hd
    have hz : (o1 ++ o2).countP (·.answers a) = 0 := by
      have : cnt (fun x => x.dialled a) s.pending ≥ 1 := by
        omega
      omega
    intro o ho
    have := List.countP_eq_zero.mp hz o ho
    simpa using this
  · intro e s' o hs
    simp only [State.step, hst'.2] at hs
    cases e <;> simp [Task.can] at hs

example : ((State.init true 2).run (lost 7 111 5 ++ [.incoming 9 true, .connect 8, .dialled 8 none,
    .disconnect 0, .accept 0 true])).toOption.map (fun r => (r.2, r.1.pending.contains 0)) =
    some ([.connError 8 false], true) := by decide +kernel

end Verif.Conn
