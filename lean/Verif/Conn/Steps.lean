import Verif.Base.Amount
import Verif.Conn.Model

/-!
The effects of one event on the backend, case by case.
-/
namespace Verif.Conn
open Verif

/-- A new connection. -/
def State.added (s : State) (info : Info) (a : Addr) : State :=
  { s with
    next := s.next + 1
    tasks := s.tasks.insert s.next ⟨info.isInbound, .handshake, false, false, false⟩
    pending := s.pending.insert s.next ⟨a, info⟩
    count := if info.isInbound then s.count + 1 else s.count }

/-- A new state of a task. -/
def State.upd (s : State) (id : Nat) (t : Task) : State := { s with tasks := s.tasks.insert id t }

/-- The count without a pending connection. -/
def State.less (s : State) (p : Pending) : Nat := if p.info.isInbound then s.count - 1 else s.count

/-- How an established connection is reported. -/
def openOut (id : Nat) (p : Pending) : Out :=
  if p.info.isInbound then .inbound id p.addr else .outbound id p.addr

/-- What is reported of a connection which was pending when it closed. -/
def lostOut : Option Pending → List Out
  | some p => if p.info.isInbound then [] else [.connError p.addr false]
  | none => []

/-- What is reported of a peer when it closed. -/
def goneOut (id : Nat) : Option Peer → List Out
  | some p => (if p.accepted then [.syncDisconnected id] else []) ++ [.closed id]
  | none => []

/-- The effects of one event. -/
inductive Step (s : State) : Event → State → List Out → Prop
  | connect (a) : Step s (.connect a) { s with dialing := a :: s.dialing } []
  | dialFail (a) : a ∈ s.dialing →
      Step s (.dialled a none) { s with dialing := s.dialing.erase a } [.connError a false]
  | dialOk (a n) : a ∈ s.dialing →
      Step s (.dialled a (some (n, true)))
        (({ s with dialing := s.dialing.erase a } : State).added (.outbound n) a) []
  | ignored (a b) : (s.enabled = false ∨ s.maxPending ≤ s.count) → Step s (.incoming a b) s []
  | incoming (a) : s.enabled = true → s.count < s.maxPending →
      Step s (.incoming a true) (s.added .inbound a) []
  | quiet (id t e) : s.tasks.get id = some t → t.can e = true → e ≠ .closed → e ≠ .misbehaved →
      (∀ n al, e = .info n al → s.enabled = false ∨ s.pending.get id = none) →
      (e = .message → s.enabled = false ∨ s.peers.get id = none) →
      (e = .misbehavedOnHandshake → s.pending.get id = none) →
      Step s (.peer id e) (s.upd id (t.after e)) []
  | opened (id t n al p) : s.tasks.get id = some t → t.can (.info n al) = true → s.enabled = true →
      s.pending.get id = some p →
      (p.info = .inbound → ∀ x q, s.pending.get x = some q → q.info ≠ .outbound n) →
      Step s (.peer id (.info n al))
        { s.upd id (t.after (.info n al)) with
          pending := s.pending.erase id
          count := s.less p
          peers := s.peers.insert id ⟨p.addr, p.info.isInbound, false⟩ }
        [openOut id p]
  | self (id t n p x q tx) : s.tasks.get id = some t → t.can (.info n true) = true →
      s.enabled = true → s.pending.get id = some p → p.info = .inbound →
      s.pending.get x = some q → q.info = .outbound n → x ≠ id →
      (s.tasks.get x = some tx ∨ s.tasks.get x = none) →
      Step s (.peer id (.info n true))
        ((({ s.upd id (t.after (.info n true)) with
          pending := (s.pending.erase id).erase x
          count := s.count - 1 } : State).task x (fun t => { t with told := true })).task id
            (fun t => { t with told := true }))
        [.connError q.addr true, .toPeerDisconnect id]
  | message (id t) : s.tasks.get id = some t → t.can .message = true → s.enabled = true →
      s.peers.contains id = true →
      Step s (.peer id .message) (s.upd id (t.after .message)) [.message id]
  | misHandshake (id t p) : s.tasks.get id = some t → t.can .misbehavedOnHandshake = true →
      s.pending.get id = some p →
      Step s (.peer id .misbehavedOnHandshake) (s.upd id (t.after .misbehavedOnHandshake))
        [.misbehavedOnHandshake p.addr]
  | misbehaved (id t) : s.tasks.get id = some t → t.can .misbehaved = true →
      Step s (.peer id .misbehaved) (s.upd id (t.after .misbehaved)) [.misbehaved id]
  | closed (id t) : s.tasks.get id = some t → t.can .closed = true →
      Step s (.peer id .closed)
        { s.upd id (t.after .closed) with
          pending := s.pending.erase id
          count := match s.pending.get id with | some p => s.less p | none => s.count
          peers := s.peers.erase id }
        (lostOut (s.pending.get id) ++ goneOut id (s.peers.get id))
  | acceptNone (id al) : (s.peers.get id = none ∨ al = false) → Step s (.accept id al) s []
  | accepted (id p) : s.peers.get id = some p → p.accepted = false →
      Step s (.accept id true)
        (({ s with peers := s.peers.insert id { p with accepted := true } } : State).task id
          (fun t => { t with accepted := true }))
        [.toPeerAccepted id, .syncConnected id]
  | toldNone (id) : s.peers.get id = none → Step s (.disconnect id) s []
  | told (id) : s.peers.contains id = true →
      Step s (.disconnect id) (s.task id (fun t => { t with told := true })) [.toPeerDisconnect id]
  | wroteNone (id) : s.peers.get id = none → Step s (.send id) s []
  | wrote (id) : s.peers.contains id = true →
      Step s (.send id) (s.task id (fun t => { t with wrote := true })) [.toPeerSend id]
  | enable (b) : Step s (.enable b) (s.enableNet b).1 (s.enableNet b).2

theorem contains_false {V : Type} {m : BMap Nat V} {k : Nat} (h : ¬ m.contains k = true) :
    m.get k = none := by
  unfold BMap.contains at h
  cases hg : m.get k with
  | none => rfl
  | some v => rw [hg] at h; exact absurd rfl h

theorem removePending_ok {s s' : State} {id : Nat} {o : Option Pending}
    (h : s.removePending id = .ok (o, s')) :
    o = s.pending.get id ∧
    s' = { s with
      pending := s.pending.erase id
      count := match s.pending.get id with | some p => s.less p | none => s.count } := by
  unfold State.removePending at h
  split at h
  · rename_i hg
    cases h
    rw [hg]
    refine ⟨rfl, ?_⟩
    simp only
    rw [BMap.erase_of_none hg]
  · rename_i p hg
    rw [hg]
    simp only at h
    split at h
    · rename_i hi
      split at h
      · cases h
      · cases h
        simp [State.less, hi]
    · rename_i hi
      cases h
      simp [State.less, hi]

theorem withNonce_nil {s : State} {n : Nat} (h : s.withNonce n = []) (x : Nat) (q : Pending)
    (hq : s.pending.get x = some q) : q.info ≠ .outbound n := by
  intro hi
  have : (x, q) ∈ s.withNonce n := by
    unfold State.withNonce
    rw [List.mem_filter]
    exact ⟨BMap.mem_entries.mpr hq, by simp [hi]⟩
  rw [h] at this
  cases this

theorem withNonce_cons {s : State} {n x : Nat} {q : Pending} {l : List (Nat × Pending)}
    (h : s.withNonce n = (x, q) :: l) : s.pending.get x = some q ∧ q.info = .outbound n := by
  have : (x, q) ∈ s.withNonce n := by rw [h]; simp
  unfold State.withNonce at this
  rw [List.mem_filter] at this
  exact ⟨BMap.mem_entries.mp this.1, by simpa using this.2⟩

theorem createPending_ok {s s' : State} {info : Info} {a : Addr} {b : Bool} {o : List Out}
    (h : s.createPending info a b = .ok (s', o)) : b = true ∧ s' = s.added info a ∧ o = [] := by
  unfold State.createPending at h
  split at h
  · rename_i hb
    cases h
    exact ⟨hb, rfl, rfl⟩
  · cases h

theorem createPeer_ok {s s' : State} {id n : Nat} {al : Bool} {o : List Out}
    (h : s.createPeer id n al = .ok (s', o)) :
    (s.pending.get id = none ∧ s' = s ∧ o = []) ∨
    (∃ p, s.pending.get id = some p ∧
      (p.info = .inbound → ∀ x q, s.pending.get x = some q → q.info ≠ .outbound n) ∧
      s' = { s with
        pending := s.pending.erase id
        count := s.less p
        peers := s.peers.insert id ⟨p.addr, p.info.isInbound, false⟩ } ∧
      o = [openOut id p]) ∨
    (∃ p x q, s.pending.get id = some p ∧ p.info = .inbound ∧ al = true ∧
      s.pending.get x = some q ∧ q.info = .outbound n ∧ x ≠ id ∧
      s' = (({ s with
        pending := (s.pending.erase id).erase x
        count := s.count - 1 } : State).task x (fun t => { t with told := true })).task id
          (fun t => { t with told := true }) ∧
      o = [.connError q.addr true, .toPeerDisconnect id]) := by
  unfold State.createPeer at h
  obtain ⟨⟨op, s1⟩, h1, h⟩ := bind_eq_ok.mp h
  obtain ⟨rfl, rfl⟩ := removePending_ok h1
  cases hg : s.pending.get id with
  | none =>
    left
    rw [hg] at h
    simp only at h
    cases h
    refine ⟨rfl, ?_, rfl⟩
    rw [BMap.erase_of_none hg]
  | some p =>
    right
    rw [hg] at h
    simp only at h
    obtain ⟨⟨self, s2, o2⟩, h2, h⟩ := bind_eq_ok.mp h
    unfold State.fromSelf at h2
    split at h2
    · rename_i hin
      split at h2
      · rename_i hw
        cases h2
        simp only [Bool.false_eq_true, if_false] at h
        cases h
        left
        refine ⟨p, rfl, ?_, rfl, ?_⟩
        · intro _ x q hq
          by_cases hx : x = id
          · subst hx
            rw [hg] at hq
            cases hq
            rw [hin]; nofun
          · exact withNonce_nil hw x q (by rw [BMap.get_erase_ne _ hx]; exact hq)
        · simp [openOut]
      · rename_i x q l hw
        obtain ⟨hx, hq⟩ := withNonce_cons hw
        obtain ⟨⟨op2, s3⟩, h3, h2⟩ := bind_eq_ok.mp h2
        obtain ⟨rfl, rfl⟩ := removePending_ok h3
        simp only at hx
        rw [hx] at h2
        cases h2
        simp only [if_true] at h
        split at h
        · rename_i hal
          cases h
          right
          have hne : x ≠ id := by
            rintro rfl
            rw [BMap.get_erase_self] at hx
            cases hx
          refine ⟨p, x, q, rfl, hin, hal, ?_, hq, hne, ?_, rfl⟩
          · rwa [BMap.get_erase_ne _ hne] at hx
          · simp only [hx, State.less, hq, hin, Info.isInbound, if_true, Bool.false_eq_true, if_false]
        · cases h
    · rename_i hin
      cases h2
      simp only [Bool.false_eq_true, if_false] at h
      cases h
      left
      exact ⟨p, rfl, fun h => absurd h hin, rfl, by simp [openOut]⟩

theorem createPeer_self {s : State} {id n x : Nat} {al : Bool} {a : Addr} {q : Pending}
    {l : List (Nat × Pending)}
    (hp : s.pending.get id = some ⟨a, .inbound⟩) (hc : s.count ≠ 0)
    (hw : ({ s with pending := s.pending.erase id, count := s.count - 1 } : State).withNonce n =
      (x, q) :: l) :
    (al = false → s.createPeer id n al = .error .stop) ∧
    (al = true → ∃ r, s.createPeer id n al = .ok r) := by
  obtain ⟨w1, w2⟩ := withNonce_cons hw
  have h1 : s.removePending id =
      .ok (some ⟨a, .inbound⟩, { s with pending := s.pending.erase id, count := s.count - 1 }) := by
    simp [State.removePending, hp, Info.isInbound, hc]
  generalize ({ s with pending := s.pending.erase id, count := s.count - 1 } : State) = s1 at h1 hw w1
  have h2 : ∃ s2 o, s1.fromSelf .inbound n = .ok (true, s2, o) := by
    refine ⟨({ s1 with pending := s1.pending.erase x } : State).task x (fun t => { t with told := true }),
      [.connError q.addr true], ?_⟩
    have h3 : s1.removePending x = .ok (some q, { s1 with pending := s1.pending.erase x }) := by
      simp [State.removePending, w1, Info.isInbound, w2]
    unfold State.fromSelf
    rw [if_pos rfl, hw]
    simp only
    rw [h3]
    rfl
  obtain ⟨s2, o, h2⟩ := h2
  unfold State.createPeer
  rw [h1]
  simp only [show ∀ (x : Option Pending × State) (f : _ → Res), (Except.ok x >>= f) = f x from
    fun _ _ => rfl]
  rw [h2]
  simp only [show ∀ (x : Bool × State × List Out) (f : _ → Res), (Except.ok x >>= f) = f x from
    fun _ _ => rfl, if_true]
  constructor
  · rintro rfl
    rfl
  · rintro rfl
    exact ⟨_, rfl⟩

/-- Every event which succeeds has one of these effects. -/
theorem step_ok {s s' : State} {e : Event} {o : List Out} (h : s.step e = .ok (s', o)) :
    Step s e s' o := by
  cases e with
  | connect a => cases h; exact .connect a
  | dialled a r =>
    change s.connectRes a r = _ at h
    unfold State.connectRes at h
    split at h
    · rename_i ha
      cases r with
      | none => cases h; exact .dialFail a ha
      | some r =>
        obtain ⟨n, b⟩ := r
        obtain ⟨rfl, rfl, rfl⟩ := createPending_ok h
        exact .dialOk a n ha
    · cases h
  | incoming a b =>
    change s.incoming a b = _ at h
    unfold State.incoming at h
    split at h
    · rename_i he
      cases h
      exact .ignored a b (.inl (by simpa using he))
    · rename_i he
      split at h
      · rename_i hc
        cases h
        exact .ignored a b (.inr hc)
      · rename_i hc
        obtain ⟨rfl, rfl, rfl⟩ := createPending_ok h
        exact .incoming a (by simpa using he) (by omega)
  | peer id e =>
    simp only [State.step] at h
    split at h
    · cases h
    rename_i t ht
    split at h
    swap
    · cases h
    rename_i hc
    cases e with
    | info n al =>
      simp only [State.peerEvent] at h
      split at h
      · rename_i he
        rcases createPeer_ok h with ⟨hp, rfl, rfl⟩ | ⟨p, hp, hn, rfl, rfl⟩ |
            ⟨p, x, q, hp, hi, rfl, hx, hq, hne, rfl, rfl⟩
        · exact .quiet id t _ ht hc (by nofun) (by nofun) (fun _ _ _ => .inr hp) (by nofun) (by nofun)
        · exact .opened id t n al p ht hc he hp hn
        · cases htx : s.tasks.get x with
          | none => exact .self id t n p x q t ht hc he hp hi hx hq hne (.inr htx)
          | some tx => exact .self id t n p x q tx ht hc he hp hi hx hq hne (.inl htx)
      · rename_i he
        cases h
        exact .quiet id t _ ht hc (by nofun) (by nofun) (fun _ _ _ => .inl (by simpa using he))
          (by nofun) (by nofun)
    | sync =>
      cases h
      exact .quiet id t _ ht hc (by nofun) (by nofun) (by nofun) (by nofun) (by nofun)
    | message =>
      simp only [State.peerEvent] at h
      split at h
      · rename_i he
        split at h
        · rename_i hp
          cases h
          exact .message id t ht hc he hp
        · rename_i hp
          cases h
          exact .quiet id t _ ht hc (by nofun) (by nofun) (by nofun)
            (fun _ => .inr (contains_false hp)) (by nofun)
      · rename_i he
        cases h
        exact .quiet id t _ ht hc (by nofun) (by nofun) (by nofun)
          (fun _ => .inl (by simpa using he)) (by nofun)
    | misbehavedOnHandshake =>
      simp only [State.peerEvent] at h
      split at h
      · rename_i p hp
        cases h
        exact .misHandshake id t p ht hc hp
      · rename_i hp
        cases h
        exact .quiet id t _ ht hc (by nofun) (by nofun) (by nofun) (by nofun) (fun _ => hp)
    | misbehaved =>
      cases h
      exact .misbehaved id t ht hc
    | closed =>
      simp only [State.peerEvent] at h
      obtain ⟨⟨op, s1⟩, h1, h⟩ := bind_eq_ok.mp h
      obtain ⟨rfl, rfl⟩ := removePending_ok h1
      have := Step.closed (s := s) id t ht hc
      convert this using 1
      · unfold State.destroyPeer at h
        split at h
        · rename_i hp
          cases h
          simp only at hp
          rw [BMap.erase_of_none hp]
          rfl
        · cases h
          rfl
      · unfold State.destroyPeer at h
        split at h
        · rename_i hp
          cases h
          simp only at hp
          rw [hp]
          rfl
        · rename_i p hp
          cases h
          simp only at hp
          rw [hp]
          rfl
  | accept id al =>
    change s.acceptPeer id al = _ at h
    unfold State.acceptPeer at h
    split at h
    · rename_i hp
      cases h
      exact .acceptNone id al (.inl hp)
    · rename_i p hp
      split at h
      · rename_i ha
        cases h
        exact .acceptNone id al (.inr (by simpa using ha))
      · rename_i ha
        split at h
        · cases h
        · rename_i hpa
          cases h
          have : al = true := by simpa using ha
          subst this
          exact .accepted id p hp (by simpa using hpa)
  | disconnect id =>
    simp only [State.step] at h
    split at h
    · rename_i hp
      cases h
      exact .told id hp
    · rename_i hp
      cases h
      exact .toldNone id (contains_false hp)
  | send id =>
    simp only [State.step] at h
    split at h
    · rename_i hp
      cases h
      exact .wrote id hp
    · rename_i hp
      cases h
      exact .wroteNone id (contains_false hp)
  | enable b =>
    have h' : s.enableNet b = (s', o) := Except.ok.inj h
    have := Step.enable (s := s) b
    rw [h'] at this
    exact this

end Verif.Conn
