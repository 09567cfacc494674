import Verif.Relay.Node

/-!
C81: the relay of transactions.

The specification speaks of the turns of the task with a peer (`Session`: from its start, with any messages, any
events and any answers of a sane mempool), of the announcements that passed between the two nodes (`exchanged`),
and of the life of the whole node (`History`).
-/
set_option maxRecDepth 100000
namespace Verif.Relay
open Verif

/-! ### Requests and responses -/

/-- A transaction is requested exactly when the peer announces it, the initial block download is over, both nodes
have the service of transactions, the mempool lacks it, it is not already requested from this peer, and fewer
requests than the limit are open. -/
theorem C81_request {c : Cfg} {p q : Peer} {i : Input} {e : Env} {out : List Effect}
    (h : p.turn c i e = .ok (q, out)) (id : Nat) :
    .send (.request id) ∈ out ↔
      i = .msg (.new id) ∧ e.ibd = false ∧ p.service = true ∧ e.tx id = none ∧ p.requested.get id = none ∧
        p.requested.size < c.maxRequests := by
  obtain ⟨p1, o1, d, hx⟩ := turn_other h
  rw [hx _ (by nofun)]
  cases d with
  | heard id' _ ho hn =>
    constructor
    · intro hm
      rcases ho with rfl | ⟨rfl, _⟩ <;> simp at hm
    · rintro ⟨h1, h2, h3, h4, h5, h6⟩
      cases h1
      exact absurd ⟨h2, h3, h5, h6, h4⟩ hn
  | asked id' h1 h2 h3 h4 h5 =>
    simp only [List.mem_singleton, Effect.send.injEq, Msg.request.injEq, Input.msg.injEq, Msg.new.injEq]
    constructor
    · rintro rfl; exact ⟨rfl, h1, h2, h5, h3, h4⟩
    · rintro ⟨rfl, _⟩; rfl
  | got _ _ _ _ hr => rcases hr with ⟨rfl, _⟩ | rfl | ⟨_, rfl, _⟩ <;> simp
  | _ => simp

/-- A transaction of the peer goes to the mempool exactly when the peer sends it as the response to an open
request. -/
theorem C81_accept {c : Cfg} {p q : Peer} {i : Input} {e : Env} {out : List Effect}
    (h : p.turn c i e = .ok (q, out)) (tx : Tx) :
    .submit tx ∈ out ↔ i = .msg (.found tx) ∧ (p.requested.get tx.id).isSome = true := by
  obtain ⟨p1, o1, d, hx⟩ := turn_other h
  rw [hx _ (by nofun)]
  cases d with
  | heard id' _ ho hn => rcases ho with rfl | ⟨rfl, _⟩ <;> simp
  | ignored tx' h' =>
    constructor
    · intro hm; cases hm
    · rintro ⟨h1, h2⟩
      cases h1
      rw [h'] at h2; cases h2
  | got tx' t rest h' hr =>
    have : .submit tx ∉ rest := by rcases hr with ⟨rfl, _⟩ | rfl | ⟨_, rfl, _⟩ <;> simp
    simp only [List.mem_cons, this, or_false, Effect.submit.injEq, Input.msg.injEq, Msg.found.injEq]
    constructor
    · rintro rfl; exact ⟨rfl, by rw [h']; rfl⟩
    · rintro ⟨rfl, _⟩; rfl
  | _ => simp

/-- In a session, what goes to the mempool under an id is never more than what was requested under this id: each
request lets one transaction in, and an open request is one that let none in. -/
theorem C81_once {c : Cfg} {p : Peer} {log : List (Input × List Effect)} (s : Session c p log) (id : Nat) :
    times (isSubmit id) log + (if (p.requested.get id).isSome then 1 else 0) ≤ times (isRequest id) log :=
  s.count id

/-- The open requests never exceed the limit, and no turn of a session panics. -/
theorem C81_limit {c : Cfg} {p : Peer} {log : List (Input × List Effect)} (s : Session c p log) :
    p.requested.size ≤ c.maxRequests ∧ ∀ i e, ∃ r, p.turn c i e = .ok r := by
  refine ⟨s.size, fun i e => ?_⟩
  obtain ⟨r, hr⟩ := handle_isOk c p i e
  have hn := s.nextPurge
  have hp : ∃ q, r.1.purge e.purgeNow = .ok q := by
    have := (handle_ok (show p.handle c i e = .ok (r.1, r.2) from hr)).service.2.1
    unfold Peer.purge
    split
    · rw [if_neg (by omega)]; exact ⟨_, rfl⟩
    · exact ⟨_, rfl⟩
  obtain ⟨q, hq⟩ := hp
  refine ⟨((q.finish e).1, r.2 ++ (q.finish e).2), ?_⟩
  unfold Peer.turn
  rw [hr]
  show (do let q ← r.1.purge e.purgeNow; _) = _
  rw [hq]
  rfl

/-- An open request is forgotten only with a response to it, or when it is more than an hour old. -/
theorem C81_kept {c : Cfg} {p q : Peer} {i : Input} {e : Env} {out : List Effect} {id t : Nat}
    (h : p.turn c i e = .ok (q, out)) (hr : p.requested.get id = some t) (hq : q.requested.get id = none) :
    (∃ tx, i = .msg (.found tx) ∧ tx.id = id) ∨ i = .msg (.notFound id) ∨ t + 3600 * 1000000000 < e.purgeNow := by
  by_contra hc
  simp only [not_or, not_exists, not_and, Nat.not_lt] at hc
  obtain ⟨h1, h2, h3⟩ := hc
  have := turn_keeps h hr (by
    cases i with
    | msg m =>
      cases m with
      | found tx => simpa [isResponse] using h1 tx rfl
      | notFound i' =>
        simp only [isResponse, beq_eq_false_iff_ne, ne_eq]
        rintro rfl; exact h2 rfl
      | _ => rfl
    | _ => rfl) h3
  rw [this] at hq
  cases hq

/-- And it is forgotten then: five seconds after a clearing at the latest, a turn leaves no request open that is
more than an hour old. -/
theorem C81_cleared {c : Cfg} {p q : Peer} {i : Input} {e : Env} {out : List Effect}
    (h : p.turn c i e = .ok (q, out)) (ht : p.nextPurge ≤ e.purgeNow) :
    q.nextPurge = e.purgeNow + 5 * 1000000000 ∧
    ∀ id t, q.requested.get id = some t → e.purgeNow ≤ t + 3600 * 1000000000 := by
  obtain ⟨p1, o1, p2, hh, hp, rfl, rfl⟩ := turn_ok h
  rw [(finish_state p2 e).2.1, (finish_state p2 e).2.2.1]
  have hs := (handle_ok hh).service.2.1
  obtain ⟨_, _, _, _, ⟨h', _⟩ | ⟨_, _, h', h''⟩⟩ := purge_ok hp
  · omega
  · refine ⟨h'', fun id t hg => ?_⟩
    rw [h', BMap.get_filter, Option.filter_eq_some_iff] at hg
    have := of_decide_eq_true hg.2
    simp only [expiry] at this
    omega

/-- Turns of a task that hold no response for the given transaction and happen before the given time. -/
inductive Quiet (c : Cfg) (id limit : Nat) : Peer → Peer → Prop
  | refl (p : Peer) : Quiet c id limit p p
  | turn {p q r : Peer} {i : Input} {e : Env} {out : List Effect} (s : Quiet c id limit p q)
      (hi : ∀ tx, tx.id = id → i ≠ .msg (.found tx)) (hn : i ≠ .msg (.notFound id)) (ht : e.purgeNow ≤ limit)
      (h : q.turn c i e = .ok (r, out)) : Quiet c id limit p r

/-- A requested transaction that the peer delivers within an hour goes to the mempool, whatever else happens
between the two nodes in the meantime. -/
theorem C81_fetch {c : Cfg} {p q r s : Peer} {e e' : Env} {out out' : List Effect} (tx : Tx)
    (h : p.turn c (.msg (.new tx.id)) e = .ok (q, out)) (hr : .send (.request tx.id) ∈ out)
    (ht : e.purgeNow ≤ e.now + 3600 * 1000000000) (hw : Quiet c tx.id (e.now + 3600 * 1000000000) q r)
    (h' : r.turn c (.msg (.found tx)) e' = .ok (s, out')) : .submit tx ∈ out' := by
  have h0 : q.requested.get tx.id = some e.now := by
    obtain ⟨_, h2, h3, h4, h5, h6⟩ := (C81_request h tx.id).1 hr
    obtain ⟨p1, o1, p2, hh, hp, rfl, rfl⟩ := turn_ok h
    have d := handle_ok hh
    have hp1 : p1.requested.get tx.id = some e.now := by
      cases d with
      | heard _ _ _ hn => exact absurd ⟨h2, h3, h5, h6, h4⟩ hn
      | asked =>
        show (p.requested.insert tx.id e.now).get tx.id = _
        rw [BMap.get_insert, if_pos rfl]
    rw [(finish_state p2 e).2.1]
    obtain ⟨_, _, _, _, ⟨_, h', _⟩ | ⟨_, _, h', _⟩⟩ := purge_ok hp
    · rw [h']; exact hp1
    · rw [h', BMap.get_filter, hp1, Option.filter_eq_some_iff]
      refine ⟨rfl, decide_eq_true ?_⟩
      simp only [expiry]
      omega
  have h1 : r.requested.get tx.id = some e.now := by
    clear h'
    induction hw with
    | refl => exact h0
    | @turn q1 r1 i e1 out1 _ hi hn ht1 h1 ih =>
      by_contra hc
      cases hg : r1.requested.get tx.id with
      | none =>
        rcases C81_kept h1 ih hg with ⟨t, rfl, hid⟩ | rfl | hlt
        · exact hi t hid rfl
        · exact hn rfl
        · omega
      | some t =>
        apply hc
        rw [turn_keeps h1 ih ?_ ht1]
        cases i with
        | msg m =>
          cases m with
          | found t' => simp only [isResponse, beq_eq_false_iff_ne, ne_eq]; intro hh; exact hi t' hh rfl
          | notFound i' => simp only [isResponse, beq_eq_false_iff_ne, ne_eq]; rintro rfl; exact hn rfl
          | _ => rfl
        | _ => rfl
  exact (C81_accept h' tx).2 ⟨rfl, by rw [h1]; rfl⟩

/-- A request of the peer is answered in the same turn, by the transaction if the mempool has it, and otherwise by
the statement that it was not found; the rest of the turn are announcements.  Without the service there is no
answer. -/
theorem C81_answer {c : Cfg} {p q : Peer} {e : Env} {out : List Effect} {id : Nat}
    (h : p.turn c (.msg (.request id)) e = .ok (q, out)) :
    ∃ rest : List Nat, out = (if p.service then
        match e.tx id with
        | some tx => [.send (.found tx), .sent id]
        | none => [.send (.notFound id)]
      else [.score 20]) ++ rest.map (fun k => .send (.new k)) := by
  obtain ⟨p1, o1, p2, hh, hp, rfl, rfl⟩ := turn_ok h
  refine ⟨p2.batch e, ?_⟩
  have d := handle_ok hh
  cases d with
  | refused _ hv => simp [hv, unexpectedScore]
  | gave _ tx hv ht => simp [hv, ht]
  | lacked _ hv ht => simp [hv, ht]

/-- Transactions are sent only as answers. -/
theorem C81_asked {c : Cfg} {p q : Peer} {i : Input} {e : Env} {out : List Effect} (he : e.Sane) {tx : Tx}
    (h : p.turn c i e = .ok (q, out)) (ht : .send (.found tx) ∈ out) :
    i = .msg (.request tx.id) ∧ e.tx tx.id = some tx ∧ p.service = true := by
  obtain ⟨p1, o1, d, hx⟩ := turn_other h
  rw [hx _ (by nofun)] at ht
  cases d with
  | heard id' _ ho hn => rcases ho with rfl | ⟨rfl, _⟩ <;> simp at ht
  | got _ _ _ _ hr => rcases hr with ⟨rfl, _⟩ | rfl | ⟨_, rfl, _⟩ <;> simp at ht
  | gave id tx' hs hg =>
    simp only [List.mem_cons, Effect.send.injEq, Msg.found.injEq, reduceCtorEq, List.not_mem_nil, or_false] at ht
    subst ht
    have := he.id _ _ hg
    subst this
    exact ⟨rfl, hg, hs⟩
  | _ => simp at ht

/-- The score of a peer changes only because of a message that needs a service it does not share (by 20), or because
the mempool rejects a transaction it was asked for (by what the mempool says). -/
theorem C81_score {c : Cfg} {p q : Peer} {i : Input} {e : Env} {out : List Effect} {s : Nat}
    (h : p.turn c i e = .ok (q, out)) (hs : .score s ∈ out) :
    (s = 20 ∧ p.service = false ∧ ∃ id, i = .msg (.new id) ∨ i = .msg (.request id)) ∨
    (∃ tx, i = .msg (.found tx) ∧ (p.requested.get tx.id).isSome = true ∧ 0 < s ∧ e.add tx = .error (.other s)) := by
  obtain ⟨p1, o1, d, hx⟩ := turn_other h
  rw [hx _ (by nofun)] at hs
  cases d with
  | heard id' _ ho hn =>
    rcases ho with rfl | ⟨rfl, hv⟩
    · simp at hs
    · simp only [List.mem_singleton, Effect.score.injEq] at hs
      exact Or.inl ⟨hs, hv, id', Or.inl rfl⟩
  | refused id' hv =>
    simp only [List.mem_singleton, Effect.score.injEq] at hs
    exact Or.inl ⟨hs, hv, id', Or.inr rfl⟩
  | got tx t rest hg hr =>
    rcases hr with ⟨rfl, _⟩ | rfl | ⟨s', rfl, hp, ha⟩
    · simp at hs
    · simp at hs
    · simp only [List.mem_cons, reduceCtorEq, Effect.score.injEq, List.not_mem_nil, or_false, false_or] at hs
      subst hs
      exact Or.inr ⟨tx, rfl, by rw [hg]; rfl, hp, ha⟩
  | _ => simp at hs

/-- A peer is credited exactly for requested transactions that go into the mempool proper. -/
theorem C81_credit {c : Cfg} {p q : Peer} {i : Input} {e : Env} {out : List Effect} {id : Nat}
    (h : p.turn c i e = .ok (q, out)) :
    .valid id ∈ out ↔ ∃ tx, i = .msg (.found tx) ∧ tx.id = id ∧ (p.requested.get id).isSome = true ∧
      e.add tx = .ok .inMempool := by
  by_cases hi : ∃ tx, i = .msg (.found tx)
  · obtain ⟨tx, rfl⟩ := hi
    obtain ⟨p1, o1, p2, hh, hp, rfl, rfl⟩ := turn_ok h
    have hn : ∀ l : List Nat, Effect.valid id ∉ l.map (fun id => Effect.send (.new id)) := by
      intro l hl
      obtain ⟨_, _, h'⟩ := List.mem_map.1 hl
      cases h'
    rw [List.mem_append, or_iff_left (hn _)]
    have hh := Except.ok.inj hh
    have ho : o1 = (p.handleResponse tx.id (some tx) e).2 := by rw [hh]
    subst ho
    have : (∃ tx', Input.msg (.found tx) = .msg (.found tx') ∧ tx'.id = id ∧ (p.requested.get id).isSome = true ∧
        e.add tx' = .ok .inMempool) ↔ tx.id = id ∧ (p.requested.get tx.id).isSome = true ∧ e.add tx = .ok .inMempool := by
      constructor
      · rintro ⟨_, h1, rfl, h2, h3⟩; cases h1; exact ⟨rfl, h2, h3⟩
      · rintro ⟨rfl, h2, h3⟩; exact ⟨tx, rfl, rfl, h2, h3⟩
    rw [this]
    unfold Peer.handleResponse
    cases hg : p.requested.get tx.id with
    | none => simp
    | some t =>
      simp only
      cases ha : e.add tx with
      | ok st => cases st <;> simp [eq_comm]
      | error er =>
        cases er with
        | full => simp [PoolErr.effects]
        | other sc => simp only [PoolErr.effects]; split <;> simp
  · obtain ⟨p1, o1, d, hx⟩ := turn_other h
    rw [hx _ (by nofun)]
    refine ⟨fun hv => ?_, fun ⟨tx, h1, _⟩ => absurd ⟨tx, h1⟩ hi⟩
    exfalso
    cases d with
    | heard id' _ ho hn => rcases ho with rfl | ⟨rfl, _⟩ <;> simp at hv
    | got tx => exact hi ⟨tx, rfl⟩
    | _ => simp at hv

/-- With a peer that does not share the service nothing is exchanged. -/
theorem C81_no_service {c : Cfg} {p q : Peer} {log : List (Input × List Effect)} {i : Input} {e : Env}
    {out : List Effect} (s : Session c p log) (hs : p.service = false) (he : e.Sane)
    (h : p.turn c i e = .ok (q, out)) : ∀ x ∈ out, x = .score 20 := by
  intro x hx
  cases x with
  | send m =>
    exfalso
    cases m with
    | new id =>
      obtain ⟨_, hw | ⟨_, _, _, hw, _⟩, _⟩ := (turn_new he h id).1 hx
      · exact (s.bare hs id).1 hw
      · rw [hs] at hw; cases hw
    | request id =>
      have := ((C81_request h id).1 hx).2.2.1
      rw [hs] at this; cases this
    | found tx =>
      have := (C81_asked he h hx).2.2
      rw [hs] at this; cases this
    | notFound id =>
      obtain ⟨p1, o1, d, hx'⟩ := turn_other h
      rw [hx' _ (by nofun)] at hx
      cases d with
      | heard id' _ ho hn => rcases ho with rfl | ⟨rfl, _⟩ <;> simp at hx
      | got _ _ _ _ hr => rcases hr with ⟨rfl, _⟩ | rfl | ⟨_, rfl, _⟩ <;> simp at hx
      | lacked _ hv => rw [hs] at hv; cases hv
      | _ => simp at hx
  | score n =>
    rcases C81_score h hx with ⟨rfl, _⟩ | ⟨tx, _, hg, _⟩
    · rfl
    · rw [(s.bare hs _).2] at hg; cases hg
  | submit tx =>
    have := ((C81_accept h tx).1 hx).2
    rw [(s.bare hs _).2] at this; cases this
  | valid id =>
    exfalso
    obtain ⟨p1, o1, d, hx'⟩ := turn_other h
    rw [hx' _ (by nofun)] at hx
    cases d with
    | heard id' _ ho hn => rcases ho with rfl | ⟨rfl, _⟩ <;> simp at hx
    | got tx t _ hg _ => rw [(s.bare hs _).2] at hg; cases hg
    | _ => simp at hx
  | sent id =>
    obtain ⟨tx, _, hf⟩ := sent_found he h hx
    have := (C81_asked he h hf).2.2
    rw [hs] at this; cases this

/-! ### Announcements -/

/-- What is announced in a turn: when the time for announcing has come, all transactions that wait and are still in
the mempool, and nothing else.  A transaction waits if it waited before, or if the turn brings the event for it and
the filter does not report it as exchanged with this peer.  What waits and is not announced then waits on, unless
the time has come. -/
theorem C81_announce {c : Cfg} {p q : Peer} {i : Input} {e : Env} {out : List Effect} (he : e.Sane)
    (h : p.turn c i e = .ok (q, out)) (id : Nat) :
    (.send (.new id) ∈ out ↔ p.nextAnnounce ≤ e.mono ∧ Waits c p i id ∧ (e.tx id).isSome = true) ∧
    (q.toAnnounce.get id = some () ↔ e.mono < p.nextAnnounce ∧ Waits c p i id) :=
  ⟨turn_new he h id, turn_queue h id⟩

/-- The announcements go out in the order the mempool gives to the transactions that wait and are still in it. -/
theorem C81_order {c : Cfg} {p q : Peer} {i : Input} {e : Env} {out : List Effect}
    (h : p.turn c i e = .ok (q, out)) (ht : p.nextAnnounce ≤ e.mono) :
    ∃ l, (∀ id, id ∈ l ↔ Waits c p i id ∧ (e.tx id).isSome = true) ∧ l.Pairwise (· < ·) ∧
      out.filterMap said = (e.best l).map (fun id => (true, id)) := by
  obtain ⟨p1, o1, p2, d, hp, rfl, hs⟩ := turn_said h
  refine ⟨_, fun id => ?_, ?_, by rw [hs, Peer.batch, if_pos]; rw [(purge_ok hp).2.2.2.1, d.service.2.2]; exact ht⟩
  · rw [mem_queue, (purge_ok hp).2.2.1, d.waits]
  · rw [List.pairwise_map]
    exact (p2.toAnnounce.filter (fun id _ => (e.tx id).isSome)).sorted

/-- The filter reports what was lately exchanged: between two announcements of one transaction to the same peer, at
least as many announcements pass between the two nodes as the filter is made for (`ROLLING_BLOOM_FILTER_SIZE`, 50000
in the code). -/
theorem C81_spaced {c : Cfg} {p : Peer} {log : List (Input × List Effect)} (s : Session c p log)
    (pre mid post : List (Bool × Nat)) (id : Nat)
    (h : exchanged log = pre ++ (true, id) :: (mid ++ (true, id) :: post)) : c.filterSize ≤ mid.length :=
  s.spaced.2 pre mid post id h

/-- An event for a transaction that one of the two nodes lately announced to the other makes no announcement. -/
theorem C81_not_back {c : Cfg} {p q : Peer} {log : List (Input × List Effect)} {ids : List Nat} {e : Env}
    {out : List Effect} (s : Session c p log) (he : e.Sane) (h : p.turn c (.event ids) e = .ok (q, out)) (id : Nat)
    (b : Bool) (hk : (b, id) ∈ (exchanged log).take c.filterSize) (hw : p.toAnnounce.get id = none) :
    .send (.new id) ∉ out ∧ q.toAnnounce.get id ≠ some () := by
  have hc : p.known.contains c.fp id = true := by
    rw [s.known, Rolling.contains_iff (Rolling.inv_after _ _)]
    left
    have hsz := Rolling.new_size (α := Nat) c.filterSize
    have hm : id ∈ ((exchanged log).map Prod.snd).take c.filterSize := by
      rw [← List.map_take]
      exact List.mem_map_of_mem (f := Prod.snd) hk
    refine List.take_subset_take_left _ ?_ hm
    rw [Rolling.after_max]; omega
  have hn : ¬ Waits c p (.event ids) id := by
    rintro (h' | ⟨_, _, _, _, h'⟩)
    · rw [hw] at h'; cases h'
    · rw [hc] at h'; cases h'
  exact ⟨fun x => hn ((turn_new he h id).1 x).2.1, fun x => hn ((turn_queue h id).1 x).2⟩

/-! ### The node -/

/-- A node announces only transactions that its mempool accepted for relay. -/
theorem C81_accepted {c : Cfg} {n m : Node} {log : List (Op × List (Nat × Effect))} {o : Op} {e : Env}
    {out : List (Nat × Effect)} (s : History c n log) (he : e.Sane) (h : n.step c o e = .ok (m, out)) (p id : Nat)
    (ha : (p, Effect.send (.new id)) ∈ out) :
    ∃ t u, (Op.processed t, u) ∈ log ∧ t.id = id ∧ t.relay = true ∧ ∃ b, t.result = .ok b := by
  have := (step_good he s.good h).2 p id ha
  obtain ⟨t, u, hm, hh⟩ := this
  rcases List.mem_cons.1 hm with hm | hm
  · exfalso
    cases hm
    obtain ⟨k, hk, _⟩ := step_ok h
    have hk := Except.ok.inj hk
    unfold Node.processed at hk
    have hk2 := congrArg Prod.snd hk
    simp only at hk2
    rw [← hk2] at ha
    repeat' split at ha
    all_goals simp at ha
  · exact ⟨t, u, hm, hh⟩

/-- Each connected peer is in a session of its own, so all of the above holds for it; and the node panics only if a
peer connects that is connected, or one disconnects that is not. -/
theorem C81_sessions {c : Cfg} {n : Node} {log : List (Op × List (Nat × Effect))} (s : History c n log) :
    (∀ p x, n.peers.get p = some x → ∃ l, Session c x.peer l) ∧
    ∀ o e, (∃ r, n.step c o e = .ok r) ∨
      (∃ p b t, o = .connect p b t ∧ (n.peers.get p).isSome = true) ∨
      (∃ p, o = .disconnect p ∧ n.peers.get p = none) := by
  refine ⟨s.good.session, fun o e => ?_⟩
  have ht : ∀ p x i ev, n.peers.get p = some x → ∃ r, n.taken p ev (x.peer.turn c i e) = .ok r := by
    intro p x i ev hx
    obtain ⟨l, sl⟩ := s.good.session p x hx
    obtain ⟨r, hr⟩ := (C81_limit sl).2 i e
    rw [hr]
    exact ⟨_, rfl⟩
  have hs : (∃ r, n.handle c o e = .ok r) → ∃ r, n.step c o e = .ok r := by
    rintro ⟨r, hr⟩
    unfold Node.step
    rw [hr]
    by_cases hc : o.manager = true ∧ e.mono ≥ r.1.nextRequeue
    · exact ⟨_, if_pos hc⟩
    · exact ⟨_, if_neg hc⟩
  cases o with
  | processed t => exact Or.inl (hs ⟨_, rfl⟩)
  | connect p b t =>
    cases hp : (n.peers.get p).isSome with
    | true => exact Or.inr (Or.inl ⟨p, b, t, rfl, hp⟩)
    | false => exact Or.inl (hs ⟨_, by simp only [Node.handle, BMap.contains, hp]; rfl⟩)
  | disconnect p =>
    cases hp : n.peers.get p with
    | none => exact Or.inr (Or.inr ⟨p, rfl, hp⟩)
    | some x => exact Or.inl (hs ⟨_, by simp only [Node.handle, BMap.contains, hp]; rfl⟩)
  | note =>
    refine Or.inl (hs ?_)
    simp only [Node.handle]
    split <;> exact ⟨_, rfl⟩
  | idle => exact Or.inl (hs ⟨_, rfl⟩)
  | message p m =>
    refine Or.inl (hs ?_)
    simp only [Node.handle]
    split
    · exact ⟨_, rfl⟩
    · rename_i x hx; exact ht p x _ _ hx
  | event p =>
    refine Or.inl (hs ?_)
    simp only [Node.handle]
    split
    · exact ⟨_, rfl⟩
    · rename_i x hx
      split
      · exact ⟨_, rfl⟩
      · exact ht p x _ _ hx
  | tick p =>
    refine Or.inl (hs ?_)
    simp only [Node.handle]
    split
    · exact ⟨_, rfl⟩
    · rename_i x hx; exact ht p x _ _ hx

/-- Whether a processed transaction is passed on: it was accepted, is to be relayed, and is new or comes from the
node itself. -/
def Relayed (t : Processed) : Prop := t.relay = true ∧ (t.result = .ok true ∨ (t.result = .ok false ∧ t.origin = none))

/-- Every transaction that is passed on is put before every connected peer, in the order of acceptance; nothing
else of a processed transaction reaches the peers.  (Apart from the re-announcing that may follow.) -/
theorem C81_relay (n : Node) (t : Processed) (p : Nat) (x : Ctx) (hx : n.peers.get p = some x) :
    (Relayed t → (n.processed t).1.peers.get p = some { x with events := x.events ++ [[t.id]] }) ∧
    (¬ Relayed t → (n.processed t).1.peers.get p = some x) := by
  have hse : (n.sendEvent [t.id]).peers.get p = some { x with events := x.events ++ [[t.id]] } :=
    (get_sendEvent n _ p _).2 ⟨x, hx, rfl⟩
  obtain ⟨id, origin, relay, result⟩ := t
  unfold Relayed Node.processed
  cases result with
  | error s =>
    refine ⟨(by rintro ⟨_, h | ⟨h, _⟩⟩ <;> cases h), fun _ => ?_⟩
    cases origin <;> exact hx
  | ok b =>
    cases relay with
    | false => exact ⟨(by rintro ⟨h, _⟩; cases h), fun _ => hx⟩
    | true =>
      cases origin with
      | none => cases b <;> exact ⟨fun _ => hse, fun hn => absurd (by simp) hn⟩
      | some o =>
        cases b with
        | true => exact ⟨fun _ => hse, fun hn => absurd (by simp) hn⟩
        | false => exact ⟨(by rintro ⟨_, h | ⟨_, h⟩⟩ <;> cases h), fun _ => hx⟩

/-- For a rejected transaction the peer it came from is blamed with the score of the rejection, if there is one;
nobody is blamed otherwise. -/
theorem C81_blame (n : Node) (t : Processed) (p : Nat) (x : Effect) :
    (p, x) ∈ (n.processed t).2 ↔ ∃ s, x = .score s ∧ 0 < s ∧ t.result = .error s ∧ t.origin = some p := by
  obtain ⟨id, origin, relay, result⟩ := t
  unfold Node.processed
  cases result with
  | ok b => simp only; (repeat' split) <;> simp
  | error s =>
    cases origin with
    | none => simp
    | some o =>
      simp only
      split
      · simp only [List.mem_singleton, Prod.mk.injEq, Except.error.injEq, Option.some.injEq]
        constructor
        · rintro ⟨rfl, rfl⟩; exact ⟨s, rfl, by assumption, rfl, rfl⟩
        · rintro ⟨s', rfl, _, rfl, rfl⟩; exact ⟨rfl, rfl⟩
      · refine ⟨by nofun, ?_⟩
        rintro ⟨s', _, h1, h2, _⟩
        cases h2
        contradiction

/-- What waits for a peer is handled in order, each event once, by a turn of its task; messages and the clock leave it
waiting.  Other peers are not affected. -/
theorem C81_event {c : Cfg} {n m : Node} {e : Env} {out : List (Nat × Effect)} {p : Nat} {x : Ctx} {o : Op}
    (hx : n.peers.get p = some x) (h : n.step c o e = .ok (m, out)) :
    (∀ ids rest, o = .event p → x.events = ids :: rest →
      ∃ q l, x.peer.turn c (.event ids) e = .ok (q, l) ∧ m.peers.get p = some ⟨q, rest⟩ ∧ out = l.map (fun y => (p, y))) ∧
    (∀ msg, o = .message p msg →
      ∃ q l, x.peer.turn c (.msg msg) e = .ok (q, l) ∧ m.peers.get p = some ⟨q, x.events⟩ ∧ out = l.map (fun y => (p, y))) ∧
    (o = .tick p →
      ∃ q l, x.peer.turn c .tick e = .ok (q, l) ∧ m.peers.get p = some ⟨q, x.events⟩ ∧ out = l.map (fun y => (p, y))) ∧
    (∀ p', p' ≠ p → (o = .event p' ∨ (∃ msg, o = .message p' msg) ∨ o = .tick p') → m.peers.get p = some x) := by
  obtain ⟨k, hk, hm⟩ := step_ok h
  have hmk : o.manager = false → m = k := by
    intro ho
    rcases hm with ⟨ho', _⟩ | ⟨_, rfl⟩
    · rw [ho] at ho'; cases ho'
    · rfl
  have ht : ∀ ev i, n.taken p ev (x.peer.turn c i e) = .ok (k, out) →
      ∃ q l, x.peer.turn c i e = .ok (q, l) ∧ k.peers.get p = some ⟨q, ev⟩ ∧ out = l.map (fun y => (p, y)) := by
    intro ev i hi
    cases hr : x.peer.turn c i e with
    | error y => rw [hr] at hi; cases hi
    | ok r =>
      rw [hr] at hi
      cases hi
      exact ⟨r.1, r.2, rfl, by simp [BMap.get_insert], rfl⟩
  have hother : ∀ p' ev r, p' ≠ p → n.taken p' ev r = .ok (k, out) → k.peers.get p = some x := by
    intro p' ev r hne hi
    cases r with
    | error y => cases hi
    | ok r =>
      cases hi
      simp only
      rw [BMap.get_insert_ne _ _ (Ne.symm hne)]
      exact hx
  refine ⟨?_, ?_, ?_, ?_⟩
  · rintro ids rest rfl hev
    rw [hmk rfl]
    simp only [Node.handle, hx, hev] at hk
    exact ht _ _ hk
  · rintro msg rfl
    rw [hmk rfl]
    simp only [Node.handle, hx] at hk
    exact ht _ _ hk
  · rintro rfl
    rw [hmk rfl]
    simp only [Node.handle, hx] at hk
    exact ht _ _ hk
  · rintro p' hne (rfl | ⟨msg, rfl⟩ | rfl)
    · rw [hmk rfl]
      simp only [Node.handle] at hk
      split at hk
      · cases hk; exact hx
      · split at hk
        · cases hk; exact hx
        · exact hother _ _ _ hne hk
    · rw [hmk rfl]
      simp only [Node.handle] at hk
      split at hk
      · cases hk; exact hx
      · exact hother _ _ _ hne hk
    · rw [hmk rfl]
      simp only [Node.handle] at hk
      split at hk
      · cases hk; exact hx
      · exact hother _ _ _ hne hk

/-- A peer that connects starts a session with the services it shares, and nothing waits for it. -/
theorem C81_connect {c : Cfg} {n k : Node} {e : Env} {out : List (Nat × Effect)} {p now : Nat} {b : Bool}
    (h : n.handle c (.connect p b now) e = .ok (k, out)) :
    n.peers.get p = none ∧ out = [] ∧ k.unconfirmed = n.unconfirmed ∧
    ∃ x, k.peers.get p = some x ∧ x.events = [] ∧ x.peer.service = b ∧ x.peer.requested.size = 0 ∧
      (∀ id, x.peer.toAnnounce.get id = none) ∧ Session c x.peer [] := by
  simp only [Node.handle] at h
  split at h
  · cases h
  · rename_i hc
    cases h
    refine ⟨by simpa [BMap.contains] using hc, rfl, rfl, _, by rw [BMap.get_insert, if_pos rfl], rfl, rfl, rfl,
      fun _ => rfl, .start _ _ _ _⟩

/-- A transaction of the node itself that was passed on is remembered. -/
theorem C81_remembered {c : Cfg} {n m : Node} {e : Env} {t : Processed} {out : List (Nat × Effect)}
    (h : n.step c (.processed t) e = .ok (m, out)) (hr : Relayed t) (ho : t.origin = none) (hp : (e.tx t.id).isSome = true) :
    m.unconfirmed.get t.id = some () := by
  have hu : (n.processed t).1.unconfirmed.get t.id = some () := by
    obtain ⟨id, origin, relay, result⟩ := t
    simp only at ho
    subst ho
    obtain ⟨h1, h2⟩ := hr
    simp only at h1 h2
    subst h1
    rcases h2 with rfl | ⟨rfl, _⟩ <;> simp [Node.processed, BMap.get_insert]
  obtain ⟨k, hk, hm⟩ := step_ok h
  have hk := Except.ok.inj hk
  have hk : k = (n.processed t).1 := by rw [hk]
  subst hk
  rcases hm with ⟨_, _, rfl⟩ | ⟨_, rfl⟩
  · have : ((n.processed t).1.requeue e.tx).unconfirmed.get t.id = some () := by
      unfold Node.requeue
      simp only
      split <;> simp [Node.sendEvent, BMap.get_filter, hu, Option.filter, hp]
    exact this
  · exact hu

/-- It is forgotten only when it was sent to some peer, or when it is found missing from the mempool at a time of
re-announcing. -/
theorem C81_forgotten {c : Cfg} {n m : Node} {log : List (Op × List (Nat × Effect))} {o : Op} {e : Env}
    {out : List (Nat × Effect)} (s : History c n log) (h : n.step c o e = .ok (m, out)) (id : Nat)
    (hu : n.unconfirmed.get id = some ()) (hm : m.unconfirmed.get id ≠ some ()) :
    (∃ o' out' p tx, (o', out') ∈ log ∧ (p, Effect.send (.found tx)) ∈ out' ∧ tx.id = id) ∨
    (o.manager = true ∧ n.nextRequeue ≤ e.mono ∧ e.tx id = none) := by
  obtain ⟨k, hk, hmm⟩ := step_ok h
  have hh : (k.unconfirmed.get id = some () ∧ k.nextRequeue = n.nextRequeue) ∨ id ∈ n.notes := by
    have htk : ∀ p ev r, n.taken p ev r = .ok (k, out) → k.unconfirmed.get id = some () ∧ k.nextRequeue = n.nextRequeue := by
      intro p ev r hr
      cases r with
      | error x => cases hr
      | ok r => cases hr; exact ⟨hu, rfl⟩
    cases o with
    | processed t =>
      left
      have hk := Except.ok.inj hk
      have hk : k = (n.processed t).1 := by rw [hk]
      subst hk
      refine ⟨?_, processed_requeue n t⟩
      unfold Node.processed
      simp only
      repeat' split
      all_goals simp [Node.sendEvent, BMap.get_insert, hu]
    | connect p b t =>
      simp only [Node.handle] at hk
      split at hk <;> cases hk
      exact Or.inl ⟨hu, rfl⟩
    | disconnect p =>
      simp only [Node.handle] at hk
      split at hk <;> cases hk
      exact Or.inl ⟨hu, rfl⟩
    | note =>
      simp only [Node.handle] at hk
      split at hk
      · cases hk; exact Or.inl ⟨hu, rfl⟩
      · rename_i id' rest hn
        cases hk
        by_cases hid : id = id'
        · right; rw [hn, hid]; exact List.mem_cons_self
        · exact Or.inl ⟨by rw [BMap.get_erase_ne _ hid]; exact hu, rfl⟩
    | idle => cases hk; exact Or.inl ⟨hu, rfl⟩
    | message p msg =>
      simp only [Node.handle] at hk
      split at hk
      · cases hk; exact Or.inl ⟨hu, rfl⟩
      · exact Or.inl (htk _ _ _ hk)
    | event p =>
      simp only [Node.handle] at hk
      split at hk
      · cases hk; exact Or.inl ⟨hu, rfl⟩
      · split at hk
        · cases hk; exact Or.inl ⟨hu, rfl⟩
        · exact Or.inl (htk _ _ _ hk)
    | tick p =>
      simp only [Node.handle] at hk
      split at hk
      · cases hk; exact Or.inl ⟨hu, rfl⟩
      · exact Or.inl (htk _ _ _ hk)
  rcases hh with ⟨h1, h2⟩ | h1
  · right
    rcases hmm with ⟨ho, ht, rfl⟩ | ⟨_, rfl⟩
    · refine ⟨ho, by omega, ?_⟩
      by_contra hc
      apply hm
      have hp : (e.tx id).isSome = true := Option.isSome_iff_ne_none.2 hc
      have : (k.requeue e.tx).unconfirmed.get id = some () := by
        unfold Node.requeue
        simp only
        split <;> simp [Node.sendEvent, BMap.get_filter, h1, Option.filter, hp]
      exact this
    · exact absurd h1 hm
  · left
    exact s.good.notes id h1

/-- And it is forgotten when the notification that it was sent arrives. -/
theorem C81_confirmed {c : Cfg} {n m : Node} {e : Env} {out : List (Nat × Effect)} {id : Nat} {rest : List Nat}
    (hn : n.notes = id :: rest) (h : n.step c .note e = .ok (m, out)) :
    m.unconfirmed.get id = none ∧ m.notes = rest := by
  obtain ⟨k, hk, hmm⟩ := step_ok h
  simp only [Node.handle, hn] at hk
  cases hk
  have h0 : (n.unconfirmed.erase id).get id = none := by rw [BMap.get_erase, if_pos rfl]
  rcases hmm with ⟨_, _, rfl⟩ | ⟨_, rfl⟩
  · unfold Node.requeue
    simp only
    split <;> exact ⟨by simp [Node.sendEvent, BMap.get_filter, h0], rfl⟩
  · exact ⟨h0, rfl⟩

/-- Every transaction sent makes a notification. -/
theorem C81_notified {c : Cfg} {n m : Node} {o : Op} {e : Env} {out : List (Nat × Effect)} (he : e.Sane) {p : Nat} {tx : Tx}
    (h : n.step c o e = .ok (m, out)) (hs : (p, Effect.send (.found tx)) ∈ out) : tx.id ∈ m.notes := by
  obtain ⟨k, hk, hmm⟩ := step_ok h
  have hkn : tx.id ∈ k.notes := by
    have ht : ∀ p' ev x i, n.taken p' ev (Peer.turn c x i e) = .ok (k, out) → tx.id ∈ k.notes := by
      intro p' ev x i hi
      cases hr : Peer.turn c x i e with
      | error y => rw [hr] at hi; cases hi
      | ok r =>
        rw [hr] at hi
        cases hi
        obtain ⟨y, hy, hy'⟩ := List.mem_map.1 hs
        cases hy'
        have hr' : Peer.turn c x i e = .ok (r.1, r.2) := hr
        obtain ⟨rfl, hg, hv⟩ := C81_asked he hr' hy
        obtain ⟨l, hl⟩ := C81_answer hr'
        rw [hg, hv] at hl
        refine List.mem_append_right _ (List.mem_filterMap.2 ⟨.sent tx.id, ?_, rfl⟩)
        rw [hl]
        simp
    cases o with
    | processed t =>
      have hk := Except.ok.inj hk
      have ho : out = (n.processed t).2 := by rw [hk]
      rw [ho, C81_blame] at hs
      obtain ⟨s, hs, _⟩ := hs
      cases hs
    | connect p' b t =>
      simp only [Node.handle] at hk
      split at hk <;> cases hk
      cases hs
    | disconnect p' =>
      simp only [Node.handle] at hk
      split at hk <;> cases hk
      cases hs
    | note =>
      simp only [Node.handle] at hk
      split at hk <;> cases hk <;> cases hs
    | idle => cases hk; cases hs
    | message p' msg =>
      simp only [Node.handle] at hk
      split at hk
      · cases hk; cases hs
      · exact ht _ _ _ _ hk
    | event p' =>
      simp only [Node.handle] at hk
      split at hk
      · cases hk; cases hs
      · split at hk
        · cases hk; cases hs
        · exact ht _ _ _ _ hk
    | tick p' =>
      simp only [Node.handle] at hk
      split at hk
      · cases hk; cases hs
      · exact ht _ _ _ _ hk
  rcases hmm with ⟨_, _, rfl⟩ | ⟨_, rfl⟩
  · unfold Node.requeue
    simp only
    split <;> exact hkn
  · exact hkn

/-- At a time of re-announcing, all transactions remembered are put before every connected peer. -/
theorem C81_again {c : Cfg} {n m : Node} {o : Op} {e : Env} {out : List (Nat × Effect)} (h : n.step c o e = .ok (m, out))
    (ho : o.manager = true) (ht : n.nextRequeue ≤ e.mono) (p id : Nat) (x : Ctx) (hx : m.peers.get p = some x)
    (hu : m.unconfirmed.get id = some ()) :
    (e.tx id).isSome = true ∧ ∃ ids, x.events.getLast? = some ids ∧ id ∈ ids := by
  obtain ⟨k, hk, hmm⟩ := step_ok h
  have hnr := handle_requeue hk
  rcases hmm with ⟨_, _, rfl⟩ | ⟨hc | hc, _⟩
  · have hx' : (k.requeue e.tx).peers.get p = some x := hx
    have hu' : (k.requeue e.tx).unconfirmed.get id = some () := hu
    unfold Node.requeue at hx' hu'
    simp only at hx' hu'
    split at hx'
    · rename_i he
      rw [if_pos he, ← BMap.mem_entries] at hu'
      rw [show (k.unconfirmed.filter (fun id _ => (e.tx id).isSome)).entries = [] from he] at hu'
      cases hu'
    · rename_i he
      rw [if_neg he] at hu'
      have hu'' : (k.unconfirmed.filter (fun id _ => (e.tx id).isSome)).get id = some () := hu'
      obtain ⟨y, hy, rfl⟩ := (get_sendEvent _ _ _ _).1 hx'
      refine ⟨?_, _, List.getLast?_concat, ?_⟩
      · rw [BMap.get_filter, Option.filter_eq_some_iff] at hu''
        exact hu''.2
      · exact List.mem_map.2 ⟨(id, ()), BMap.mem_entries.2 hu'', rfl⟩
  · rw [hc] at ho; cases ho
  · omega

/-! ### Examples -/

/-- Surroundings for examples: a mempool with the given transactions, in the order of their ids, that takes all
transactions but number 13. -/
def world (txs : List Nat) (now mono : Nat) : Env :=
  { tx := fun i => if i ∈ txs then some ⟨i, 0⟩ else none
    best := id
    add := fun t => if t.id = 13 then .error (.other 100) else .ok .inMempool
    ibd := false
    now := now
    purgeNow := now
    mono := mono
    delay := 10 }

theorem world_sane (txs : List Nat) (now mono : Nat) : (world txs now mono).Sane := by
  refine ⟨?_, fun l => List.Perm.refl _⟩
  intro i t h
  simp only [world] at h
  split at h
  · cases h; rfl
  · cases h

/-- A configuration with room for two requests and a filter for four announcements that lets nothing else through. -/
def small : Cfg := { maxRequests := 2, filterSize := 4, fp := fun _ _ _ => false }

/-- Turns of a task one after the other. -/
def Peer.turns (c : Cfg) (p : Peer) : List (Input × Env) → Except Panic (List (List Effect))
  | [] => .ok []
  | (i, e) :: rest =>
    match p.turn c i e with
    | .error x => .error x
    | .ok r =>
      match Peer.turns c r.1 rest with
      | .error x => .error x
      | .ok l => .ok (r.2 :: l)

/-- A session: two announced transactions are requested, a third is over the limit, the first comes and is taken, a
second copy is not; then the third is announced again and requested. -/
theorem C81_example_fetch :
    ((Peer.new small true 0 0 1000).turns small
      [(.msg (.new 1), world [] 1 1), (.msg (.new 2), world [] 2 2), (.msg (.new 3), world [] 3 3),
       (.msg (.found ⟨1, 0⟩), world [] 4 4), (.msg (.found ⟨1, 0⟩), world [1] 5 5), (.msg (.new 3), world [1] 6 6)]).toOption =
    some [[.send (.request 1)], [.send (.request 2)], [], [.submit ⟨1, 0⟩, .valid 1], [], [.send (.request 3)]] := by
  decide +kernel

/-- A session with announcements: two transactions wait until it is time, one leaves the mempool; a repeated event
makes no second announcement; requests are answered. -/
theorem C81_example_announce :
    ((Peer.new small true 0 0 10).turns small
      [(.event [7], world [7, 8] 1 1), (.event [8], world [7, 8] 2 2), (.tick, world [7] 3 11), (.event [7], world [7] 4 30),
       (.msg (.request 7), world [7] 4 31), (.msg (.request 8), world [7] 4 32)]).toOption =
    some [[], [], [.send (.new 7)], [], [.send (.found ⟨7, 0⟩), .sent 7], [.send (.notFound 8)]] := by
  decide +kernel

/-- Between the event and the announcement the filter is not asked again: a transaction that the peer announces in
the meantime is announced back to it. -/
theorem C81_announced_back :
    ((Peer.new small true 0 0 10).turns small
      [(.event [7], world [7] 1 1), (.msg (.new 7), world [7] 2 2), (.tick, world [7] 3 11)]).toOption =
    some [[], [], [.send (.new 7)]] := by
  decide +kernel

/-- Operations of a node one after the other. -/
def Node.steps (c : Cfg) (n : Node) : List (Op × Env) → Except Panic (List (List (Nat × Effect)))
  | [] => .ok []
  | (o, e) :: rest =>
    match n.step c o e with
    | .error x => .error x
    | .ok r =>
      match Node.steps c r.1 rest with
      | .error x => .error x
      | .ok l => .ok (r.2 :: l)

/-- A local transaction is announced to the peer of the time, and later to one that connected afterwards; it is not
announced to a third after the second asked for it. -/
theorem C81_example_node :
    ((Node.new 0 50).steps small
      [(.connect 1 true 0, world [] 0 0), (.processed ⟨7, none, true, .ok true⟩, world [7] 0 1), (.event 1, world [7] 0 20),
       (.connect 2 true 0, world [7] 0 21), (.idle, world [7] 0 60), (.event 1, world [7] 0 61), (.event 2, world [7] 0 62),
       (.message 2 (.request 7), world [7] 0 63), (.note, world [7] 0 64), (.connect 3 true 0, world [7] 0 65),
       (.idle, world [7] 0 100), (.event 3, world [7] 0 120)]).toOption =
    some [[], [], [(1, .send (.new 7))], [], [], [], [(2, .send (.new 7))], [(2, .send (.found ⟨7, 0⟩)), (2, .sent 7)], [], [], [], []] := by
  decide +kernel

/-- A rejected transaction costs its sender the score twice: once as the error of the response, and once with the
event by which the mempool reports the rejection (`make_tx_rejected_event`, mempool/src/pool/mod.rs 678-688). -/
theorem C81_punished_twice :
    ((Node.new 0 50).steps small
      [(.connect 1 true 0, world [] 0 0), (.message 1 (.new 13), world [] 0 1), (.message 1 (.found ⟨13, 0⟩), world [] 0 2),
       (.processed ⟨13, some 1, false, .error 100⟩, world [] 0 3)]).toOption =
    some [[], [(1, .send (.request 13))], [(1, .submit ⟨13, 0⟩), (1, .score 100)], [(1, .score 100)]] := by
  decide +kernel

end Verif.Relay
