import Verif.Relay.Session

/-!
The turns of a task and of the node as a whole.
-/
namespace Verif.Relay
open Verif

/-- The transactions that wait to be announced after the input of a turn. -/
def Waits (c : Cfg) (p : Peer) (i : Input) (id : Nat) : Prop :=
  p.toAnnounce.get id = some () ∨
    ∃ ids, i = .event ids ∧ id ∈ ids ∧ p.service = true ∧ p.known.contains c.fp id = false

theorem Did.waits {c : Cfg} {p q : Peer} {e : Env} {i : Input} {out : List Effect} (d : Did c p e i q out)
    (id : Nat) : q.toAnnounce.get id = some () ↔ Waits c p i id := by
  cases d with
  | told ids =>
    rw [(enqueue_state c ids p).2.2.2.2.2]
    simp only [Waits, Input.event.injEq, exists_eq_left']
    tauto
  | _ => simp [Waits, Peer.addKnown]

theorem turn_new {c : Cfg} {p q : Peer} {i : Input} {e : Env} {out : List Effect} (he : e.Sane)
    (h : p.turn c i e = .ok (q, out)) (id : Nat) :
    .send (.new id) ∈ out ↔ p.nextAnnounce ≤ e.mono ∧ Waits c p i id ∧ (e.tx id).isSome = true := by
  obtain ⟨p1, o1, p2, hh, hp, rfl, rfl⟩ := turn_ok h
  have d := handle_ok hh
  rw [List.mem_append]
  have h1 : Effect.send (.new id) ∈ (p2.batch e).map (fun id => Effect.send (.new id)) ↔ id ∈ p2.batch e := by
    simp
  rw [h1, mem_batch he, (purge_ok hp).2.2.1, (purge_ok hp).2.2.2.1, d.service.2.2, d.waits]
  exact ⟨fun x => x.elim (fun y => absurd y (d.no_new id)) (fun y => y), Or.inr⟩

theorem turn_queue {c : Cfg} {p q : Peer} {i : Input} {e : Env} {out : List Effect}
    (h : p.turn c i e = .ok (q, out)) (id : Nat) :
    q.toAnnounce.get id = some () ↔ e.mono < p.nextAnnounce ∧ Waits c p i id := by
  obtain ⟨p1, o1, p2, hh, hp, rfl, rfl⟩ := turn_ok h
  have d := handle_ok hh
  rw [finish_queue, (purge_ok hp).2.2.2.1, (purge_ok hp).2.2.1, d.service.2.2, ← d.waits]
  split
  · rename_i hm
    exact ⟨fun x => (by cases x), fun x => (by omega)⟩
  · rename_i hm
    exact ⟨fun x => ⟨by omega, x⟩, fun x => x.2⟩

theorem turn_service {c : Cfg} {p q : Peer} {i : Input} {e : Env} {out : List Effect}
    (h : p.turn c i e = .ok (q, out)) : q.service = p.service := by
  obtain ⟨p1, o1, p2, hh, hp, rfl, rfl⟩ := turn_ok h
  rw [(finish_state p2 e).1, (purge_ok hp).1, (handle_ok hh).service.1]

/-- Effects other than announcements come from the input of the turn. -/
theorem turn_other {c : Cfg} {p q : Peer} {i : Input} {e : Env} {out : List Effect}
    (h : p.turn c i e = .ok (q, out)) :
    ∃ p1 o1, Did c p e i p1 o1 ∧ ∀ x, (∀ id, x ≠ .send (.new id)) → (x ∈ out ↔ x ∈ o1) := by
  obtain ⟨p1, o1, p2, hh, hp, rfl, rfl⟩ := turn_ok h
  refine ⟨p1, o1, handle_ok hh, fun x hx => ?_⟩
  rw [List.mem_append]
  refine ⟨fun y => y.elim id (fun z => ?_), Or.inl⟩
  obtain ⟨a, _, rfl⟩ := List.mem_map.1 z
  exact absurd rfl (hx a)

theorem Session.bare {c : Cfg} {p : Peer} {log : List (Input × List Effect)} (s : Session c p log)
    (hs : p.service = false) (id : Nat) : p.toAnnounce.get id ≠ some () ∧ p.requested.get id = none := by
  induction s with
  | start => exact ⟨by simp [Peer.new, get_empty], rfl⟩
  | @turn p q log i e out s he h ih =>
    have hs' : p.service = false := by rw [← turn_service h]; exact hs
    obtain ⟨h1, h2⟩ := ih hs'
    refine ⟨?_, ?_⟩
    · rw [Ne, turn_queue h]
      rintro ⟨_, hw | ⟨_, _, _, hw, _⟩⟩
      · exact h1 hw
      · rw [hs'] at hw; cases hw
    · obtain ⟨p1, o1, p2, hh, hp, rfl, rfl⟩ := turn_ok h
      rw [(finish_state p2 e).2.1]
      have hp1 : p1.requested.get id = none := by
        have d := handle_ok hh
        cases d with
        | asked _ _ h2 => rw [hs'] at h2; cases h2
        | told ids => rw [(enqueue_state c ids p).2.2.1]; exact h2
        | got tx => show (p.requested.erase tx.id).get id = none; rw [BMap.get_erase, h2]; simp
        | missing id' => show (p.requested.erase id').get id = none; rw [BMap.get_erase, h2]; simp
        | _ => exact h2
      obtain ⟨_, _, _, _, ⟨_, h', _⟩ | ⟨_, _, h', _⟩⟩ := purge_ok hp
      · rw [h']; exact hp1
      · rw [h', BMap.get_filter, hp1]; rfl

/-- Whether an input is the response to a request. -/
def isResponse (id : Nat) : Input → Bool
  | .msg (.found tx) => tx.id == id
  | .msg (.notFound i) => i == id
  | _ => false

theorem turn_keeps {c : Cfg} {p q : Peer} {i : Input} {e : Env} {out : List Effect} {id t : Nat}
    (h : p.turn c i e = .ok (q, out)) (hr : p.requested.get id = some t) (hi : isResponse id i = false)
    (ht : e.purgeNow ≤ t + expiry) : q.requested.get id = some t := by
  obtain ⟨p1, o1, p2, hh, hp, rfl, rfl⟩ := turn_ok h
  rw [(finish_state p2 e).2.1]
  have hp1 : p1.requested.get id = some t := by
    have d := handle_ok hh
    cases d with
    | asked id' _ _ h3 =>
      show (p.requested.insert id' e.now).get id = some t
      rw [BMap.get_insert_ne _ _ (by rintro rfl; rw [hr] at h3; cases h3)]
      exact hr
    | told ids => rw [(enqueue_state c ids p).2.2.1]; exact hr
    | got tx =>
      show (p.requested.erase tx.id).get id = some t
      rw [BMap.get_erase_ne _ (by rintro rfl; simp [isResponse] at hi)]
      exact hr
    | missing id' =>
      show (p.requested.erase id').get id = some t
      rw [BMap.get_erase_ne _ (by rintro rfl; simp [isResponse] at hi)]
      exact hr
    | _ => exact hr
  obtain ⟨_, _, _, _, ⟨_, h', _⟩ | ⟨_, _, h', _⟩⟩ := purge_ok hp
  · rw [h']; exact hp1
  · rw [h', BMap.get_filter, hp1]
    have : e.purgeNow - expiry ≤ t := by omega
    simp only [Option.filter]
    rw [if_pos (decide_eq_true this)]

/-! ### The node -/

/-- The life of a node; the log holds all operations and their effects, the newest first. -/
inductive History (c : Cfg) : Node → List (Op × List (Nat × Effect)) → Prop
  | start (mono delay : Nat) : History c (Node.new mono delay) []
  | step {n m : Node} {log : List (Op × List (Nat × Effect))} {o : Op} {e : Env} {out : List (Nat × Effect)}
      (s : History c n log) (he : e.Sane) (h : n.step c o e = .ok (m, out)) : History c m ((o, out) :: log)

/-- The mempool accepted a transaction that is to be relayed. -/
def Accepted (log : List (Op × List (Nat × Effect))) (id : Nat) : Prop :=
  ∃ t out, (Op.processed t, out) ∈ log ∧ t.id = id ∧ t.relay = true ∧ ∃ b, t.result = .ok b

/-- ... from the node itself. -/
def AcceptedLocal (log : List (Op × List (Nat × Effect))) (id : Nat) : Prop :=
  ∃ t out, (Op.processed t, out) ∈ log ∧ t.id = id ∧ t.relay = true ∧ t.origin = none ∧ ∃ b, t.result = .ok b

/-- The transaction was sent to some peer. -/
def Given (log : List (Op × List (Nat × Effect))) (id : Nat) : Prop :=
  ∃ o out p tx, (o, out) ∈ log ∧ (p, Effect.send (.found tx)) ∈ out ∧ tx.id = id

structure Good (c : Cfg) (n : Node) (R L G : Nat → Prop) : Prop where
  unconfirmed : ∀ id, n.unconfirmed.get id = some () → L id
  notes : ∀ id ∈ n.notes, G id
  session : ∀ p x, n.peers.get p = some x → ∃ log, Session c x.peer log
  events : ∀ p x, n.peers.get p = some x → ∀ ids ∈ x.events, ∀ id ∈ ids, R id
  queue : ∀ p x, n.peers.get p = some x → ∀ id, x.peer.toAnnounce.get id = some () → R id

theorem Good.mono {c : Cfg} {n : Node} {R L G R' L' G' : Nat → Prop} (g : Good c n R L G) (hR : ∀ id, R id → R' id)
    (hL : ∀ id, L id → L' id) (hG : ∀ id, G id → G' id) : Good c n R' L' G' :=
  ⟨fun id h => hL _ (g.unconfirmed id h), fun id h => hG _ (g.notes id h), g.session,
    fun p x h ids hi id hid => hR _ (g.events p x h ids hi id hid), fun p x h id hid => hR _ (g.queue p x h id hid)⟩

theorem get_sendEvent (n : Node) (ids : List Nat) (p : Nat) (y : Ctx) :
    (n.sendEvent ids).peers.get p = some y ↔
      ∃ x, n.peers.get p = some x ∧ y = { x with events := x.events ++ [ids] } := by
  simp only [Node.sendEvent, BMap.get_mapV, Option.map_eq_some_iff]
  exact ⟨fun ⟨x, h, h'⟩ => ⟨x, h, h'.symm⟩, fun ⟨x, h, h'⟩ => ⟨x, h, h'.symm⟩⟩

theorem Good.sendEvent {c : Cfg} {n : Node} {R L G : Nat → Prop} (g : Good c n R L G) {ids : List Nat}
    (h : ∀ id ∈ ids, R id) : Good c (n.sendEvent ids) R L G := by
  refine ⟨g.unconfirmed, g.notes, ?_, ?_, ?_⟩
  · intro p y hy
    obtain ⟨x, hx, rfl⟩ := (get_sendEvent n ids p y).1 hy
    exact g.session p x hx
  · intro p y hy i hi id hid
    obtain ⟨x, hx, rfl⟩ := (get_sendEvent n ids p y).1 hy
    rcases List.mem_append.1 hi with hi | hi
    · exact g.events p x hx i hi id hid
    · rw [List.mem_singleton] at hi
      subst hi
      exact h id hid
  · intro p y hy
    obtain ⟨x, hx, rfl⟩ := (get_sendEvent n ids p y).1 hy
    exact g.queue p x hx

theorem Good.requeue {c : Cfg} {n : Node} {R L G : Nat → Prop} (g : Good c n R L G) (hLR : ∀ id, L id → R id)
    (tx : Nat → Option Tx) (t : Nat) : Good c { n.requeue tx with nextRequeue := t } R L G := by
  have hu : ∀ id, (n.unconfirmed.filter (fun id _ => (tx id).isSome)).get id = some () → L id := by
    intro id h
    apply g.unconfirmed
    rw [BMap.get_filter] at h
    cases hg : n.unconfirmed.get id with
    | none => rw [hg] at h; cases h
    | some u => rfl
  have g1 : Good c { n with unconfirmed := n.unconfirmed.filter (fun id _ => (tx id).isSome) } R L G :=
    ⟨hu, g.notes, g.session, g.events, g.queue⟩
  have g2 : Good c (n.requeue tx) R L G := by
    unfold Node.requeue
    simp only
    split
    · exact g1
    · apply g1.sendEvent
      intro id hid
      apply hLR
      obtain ⟨⟨a, ⟨⟩⟩, h, rfl⟩ := List.mem_map.1 hid
      exact hu a (BMap.mem_entries.1 h)
  exact ⟨g2.unconfirmed, g2.notes, g2.session, g2.events, g2.queue⟩

theorem sent_found {c : Cfg} {p q : Peer} {i : Input} {e : Env} {out : List Effect} {id : Nat} (he : e.Sane)
    (h : p.turn c i e = .ok (q, out)) (hs : .sent id ∈ out) : ∃ tx, tx.id = id ∧ .send (.found tx) ∈ out := by
  obtain ⟨p1, o1, d, hx⟩ := turn_other h
  have hs := (hx _ (by nofun)).1 hs
  cases d with
  | heard _ _ ho _ => rcases ho with rfl | ⟨rfl, _⟩ <;> simp at hs
  | got _ _ _ _ hr => rcases hr with ⟨rfl, _⟩ | rfl | ⟨_, rfl, _⟩ <;> simp at hs
  | gave id' tx h' ht =>
    simp only [List.mem_cons, Effect.sent.injEq, List.not_mem_nil, or_false, reduceCtorEq, false_or] at hs
    subst hs
    exact ⟨tx, he.id _ _ ht, (hx _ (by nofun)).2 (by simp)⟩
  | _ => simp at hs

/-- A turn of the task of a connected peer. -/
theorem Good.taken {c : Cfg} {n m : Node} {R L G G' : Nat → Prop} (g : Good c n R L G) {p : Nat} {x : Ctx}
    {events : List (List Nat)} {i : Input} {e : Env} {out : List (Nat × Effect)} (he : e.Sane)
    (hx : n.peers.get p = some x) (hev : ∀ ids ∈ events, ids ∈ x.events)
    (hi : ∀ ids, i = .event ids → ids ∈ x.events)
    (h : n.taken p events (x.peer.turn c i e) = .ok (m, out))
    (hG : ∀ id, G id → G' id) (hG' : ∀ id tx, (p, Effect.send (.found tx)) ∈ out → tx.id = id → G' id) :
    Good c m R L G' ∧ ∀ p' id, (p', Effect.send (.new id)) ∈ out → R id := by
  cases ht : x.peer.turn c i e with
  | error err => rw [ht] at h; cases h
  | ok r =>
    obtain ⟨q, o⟩ := r
    rw [ht] at h
    cases h
    have hw : ∀ id, Waits c x.peer i id → R id := by
      rintro id (h | ⟨ids, rfl, hid, _⟩)
      · exact g.queue p x hx id h
      · exact g.events p x hx ids (hi ids rfl) id hid
    refine ⟨⟨g.unconfirmed, ?_, ?_, ?_, ?_⟩, ?_⟩
    · intro id hid
      rcases List.mem_append.1 hid with hid | hid
      · exact hG _ (g.notes id hid)
      · obtain ⟨y, hy, hy'⟩ := List.mem_filterMap.1 hid
        split at hy'
        · cases hy'
          obtain ⟨tx, htx, hf⟩ := sent_found he ht hy
          exact hG' _ tx (List.mem_map_of_mem hf) htx
        · cases hy'
    · intro p' y hy
      simp only [BMap.get_insert] at hy
      split at hy
      · cases hy
        obtain ⟨log, s⟩ := g.session p x hx
        exact ⟨_, s.turn he ht⟩
      · exact g.session p' y hy
    · intro p' y hy ids hids id hid
      simp only [BMap.get_insert] at hy
      split at hy
      · cases hy
        exact g.events p x hx ids (hev ids hids) id hid
      · exact g.events p' y hy ids hids id hid
    · intro p' y hy id hid
      simp only [BMap.get_insert] at hy
      split at hy
      · cases hy
        exact hw id ((turn_queue ht id).1 hid).2
      · exact g.queue p' y hy id hid
    · intro p' id hid
      obtain ⟨y, hy, hy'⟩ := List.mem_map.1 hid
      cases hy'
      exact hw id ((turn_new he ht id).1 hy).2.1

theorem step_ok {c : Cfg} {n m : Node} {o : Op} {e : Env} {out : List (Nat × Effect)}
    (h : n.step c o e = .ok (m, out)) :
    ∃ k, n.handle c o e = .ok (k, out) ∧
      ((o.manager = true ∧ k.nextRequeue ≤ e.mono ∧ m = { k.requeue e.tx with nextRequeue := e.mono + e.delay }) ∨
       ((o.manager = false ∨ e.mono < k.nextRequeue) ∧ m = k)) := by
  unfold Node.step at h
  cases hh : n.handle c o e with
  | error x => rw [hh] at h; cases h
  | ok r =>
    rw [hh] at h
    change (if o.manager = true ∧ e.mono ≥ r.1.nextRequeue then _ else _) = _ at h
    split at h
    · rename_i hc
      have h := Except.ok.inj h
      exact ⟨r.1, by rw [show out = r.2 from (congrArg Prod.snd h).symm],
        Or.inl ⟨hc.1, hc.2, (congrArg Prod.fst h).symm⟩⟩
    · rename_i hc
      have h := Except.ok.inj h
      refine ⟨r.1, by rw [show out = r.2 from (congrArg Prod.snd h).symm], Or.inr ⟨?_, (congrArg Prod.fst h).symm⟩⟩
      cases hm : o.manager with
      | false => exact Or.inl rfl
      | true => exact Or.inr (by by_contra hn; exact hc ⟨hm, by omega⟩)

theorem processed_requeue (n : Node) (t : Processed) : (n.processed t).1.nextRequeue = n.nextRequeue := by
  unfold Node.processed
  simp only
  repeat' split
  all_goals rfl

theorem handle_requeue {c : Cfg} {n k : Node} {o : Op} {e : Env} {out : List (Nat × Effect)}
    (h : n.handle c o e = .ok (k, out)) : k.nextRequeue = n.nextRequeue := by
  have ht : ∀ p ev r, n.taken p ev r = .ok (k, out) → k.nextRequeue = n.nextRequeue := by
    intro p ev r hr
    cases r with
    | error x => cases hr
    | ok r => cases hr; rfl
  cases o with
  | processed t =>
    have h := Except.ok.inj h
    rw [show k = (n.processed t).1 by rw [h]]
    exact processed_requeue n t
  | connect p b t =>
    simp only [Node.handle] at h
    split at h <;> cases h
    rfl
  | disconnect p =>
    simp only [Node.handle] at h
    split at h <;> cases h
    rfl
  | note =>
    simp only [Node.handle] at h
    split at h <;> cases h <;> rfl
  | idle => cases h; rfl
  | message p m =>
    simp only [Node.handle] at h
    split at h
    · cases h; rfl
    · exact ht _ _ _ h
  | event p =>
    simp only [Node.handle] at h
    split at h
    · cases h; rfl
    · split at h
      · cases h; rfl
      · exact ht _ _ _ h
  | tick p =>
    simp only [Node.handle] at h
    split at h
    · cases h; rfl
    · exact ht _ _ _ h

theorem handle_good {c : Cfg} {n m : Node} {o : Op} {e : Env} {out : List (Nat × Effect)} (he : e.Sane)
    {log : List (Op × List (Nat × Effect))}
    (g : Good c n (Accepted log) (AcceptedLocal log) (Given log))
    (h : n.handle c o e = .ok (m, out)) :
    Good c m (Accepted ((o, out) :: log)) (AcceptedLocal ((o, out) :: log)) (Given ((o, out) :: log)) ∧
    ∀ p id, (p, Effect.send (.new id)) ∈ out → Accepted ((o, out) :: log) id := by
  have hR : ∀ id, Accepted log id → Accepted ((o, out) :: log) id := by
    rintro id ⟨t, u, hm, hh⟩
    exact ⟨t, u, List.mem_cons_of_mem _ hm, hh⟩
  have hL : ∀ id, AcceptedLocal log id → AcceptedLocal ((o, out) :: log) id := by
    rintro id ⟨t, u, hm, hh⟩
    exact ⟨t, u, List.mem_cons_of_mem _ hm, hh⟩
  have hG : ∀ id, Given log id → Given ((o, out) :: log) id := by
    rintro id ⟨o', u, p, tx, hm, hh⟩
    exact ⟨o', u, p, tx, List.mem_cons_of_mem _ hm, hh⟩
  have hG' : ∀ p id tx, (p, Effect.send (.found tx)) ∈ out → tx.id = id → Given ((o, out) :: log) id :=
    fun p id tx h1 h2 => ⟨o, out, p, tx, List.mem_cons_self, h1, h2⟩
  have g' := g.mono hR hL hG
  cases o with
  | processed t =>
    have h := Except.ok.inj h
    unfold Node.processed at h
    split at h
    · rename_i b hb
      split at h
      · rename_i hr
        split at h
        · have hacc : Accepted ((Op.processed t, out) :: log) t.id :=
            ⟨t, out, List.mem_cons_self, rfl, hr, b, hb⟩
          have gs := g'.sendEvent (ids := [t.id]) (by
            intro id hid
            rw [List.mem_singleton] at hid
            subst hid; exact hacc)
          simp only at h
          split at h
          · rename_i ho
            cases h
            refine ⟨⟨?_, gs.notes, gs.session, gs.events, gs.queue⟩, by simp⟩
            intro id hid
            simp only [BMap.get_insert] at hid
            split at hid
            · rename_i hid'
              subst hid'
              exact ⟨t, [], List.mem_cons_self, rfl, hr, ho, b, hb⟩
            · exact gs.unconfirmed id hid
          · cases h
            exact ⟨gs, by simp⟩
        · cases h; exact ⟨g', by simp⟩
      · cases h; exact ⟨g', by simp⟩
    · split at h
      · cases h
        refine ⟨g', ?_⟩
        intro p id hid
        split at hid <;> simp at hid
      · cases h; exact ⟨g', by simp⟩
  | connect p s now =>
    simp only [Node.handle] at h
    split at h
    · cases h
    · cases h
      refine ⟨⟨g'.unconfirmed, g'.notes, ?_, ?_, ?_⟩, by simp⟩
      · intro p' y hy
        simp only [BMap.get_insert] at hy
        split at hy
        · cases hy; exact ⟨[], .start _ _ _ _⟩
        · exact g'.session p' y hy
      · intro p' y hy ids hids
        simp only [BMap.get_insert] at hy
        split at hy
        · cases hy; cases hids
        · exact g'.events p' y hy ids hids
      · intro p' y hy id hid
        simp only [BMap.get_insert] at hy
        split at hy
        · cases hy; cases hid
        · exact g'.queue p' y hy id hid
  | disconnect p =>
    simp only [Node.handle] at h
    split at h
    · cases h
      have hsub : ∀ p' y, (n.peers.erase p).get p' = some y → n.peers.get p' = some y := by
        intro p' y hy
        rw [BMap.get_erase] at hy
        split at hy
        · cases hy
        · exact hy
      exact ⟨⟨g'.unconfirmed, g'.notes, fun p' y hy => g'.session p' y (hsub p' y hy),
        fun p' y hy => g'.events p' y (hsub p' y hy), fun p' y hy => g'.queue p' y (hsub p' y hy)⟩, by simp⟩
    · cases h
  | note =>
    simp only [Node.handle] at h
    split at h
    · cases h; exact ⟨g', by simp⟩
    · rename_i id rest hn
      cases h
      refine ⟨⟨?_, ?_, g'.session, g'.events, g'.queue⟩, by simp⟩
      · intro id' hid
        simp only [BMap.get_erase] at hid
        split at hid
        · cases hid
        · exact g'.unconfirmed id' hid
      · intro id' hid
        exact g'.notes id' (by rw [hn]; exact List.mem_cons_of_mem _ hid)
  | idle => cases h; exact ⟨g', by simp⟩
  | message p msg =>
    simp only [Node.handle] at h
    split at h
    · cases h; exact ⟨g', by simp⟩
    · rename_i x hx
      exact g'.taken he hx (fun _ h => h) (by nofun) h (fun _ h => h) (hG' p)
  | event p =>
    simp only [Node.handle] at h
    split at h
    · cases h; exact ⟨g', by simp⟩
    · rename_i x hx
      split at h
      · cases h; exact ⟨g', by simp⟩
      · rename_i ids rest hev
        exact g'.taken he hx (fun i hi => by rw [hev]; exact List.mem_cons_of_mem _ hi)
          (fun i hi => by cases hi; rw [hev]; exact List.mem_cons_self) h (fun _ h => h) (hG' p)
  | tick p =>
    simp only [Node.handle] at h
    split at h
    · cases h; exact ⟨g', by simp⟩
    · rename_i x hx
      exact g'.taken he hx (fun _ h => h) (by nofun) h (fun _ h => h) (hG' p)

theorem local_accepted {log : List (Op × List (Nat × Effect))} (id : Nat) (h : AcceptedLocal log id) :
    Accepted log id := by
  obtain ⟨t, u, h1, h2, h3, _, h4⟩ := h
  exact ⟨t, u, h1, h2, h3, h4⟩

theorem step_good {c : Cfg} {n m : Node} {o : Op} {e : Env} {out : List (Nat × Effect)} (he : e.Sane)
    {log : List (Op × List (Nat × Effect))}
    (g : Good c n (Accepted log) (AcceptedLocal log) (Given log))
    (h : n.step c o e = .ok (m, out)) :
    Good c m (Accepted ((o, out) :: log)) (AcceptedLocal ((o, out) :: log)) (Given ((o, out) :: log)) ∧
    ∀ p id, (p, Effect.send (.new id)) ∈ out → Accepted ((o, out) :: log) id := by
  obtain ⟨k, hk, hm⟩ := step_ok h
  obtain ⟨g1, h1⟩ := handle_good he g hk
  refine ⟨?_, h1⟩
  rcases hm with ⟨_, _, rfl⟩ | ⟨_, rfl⟩
  · exact g1.requeue local_accepted _ _
  · exact g1

theorem History.good {c : Cfg} {n : Node} {log : List (Op × List (Nat × Effect))} (s : History c n log) :
    Good c n (Accepted log) (AcceptedLocal log) (Given log) := by
  induction s with
  | start => exact ⟨by nofun, by nofun, by nofun, by nofun, by nofun⟩
  | step s he h ih => exact (step_good he ih h).1

end Verif.Relay
