import Verif.Relay.Lemmas

/-!
Sessions: what a task did from its start, and what holds in them.
-/
namespace Verif.Relay
open Verif

/-- What the mempool promises in a turn: a transaction is found under its own id, and the order of announcing is
an order of the transactions it was asked about. -/
structure Env.Sane (e : Env) : Prop where
  id : ∀ i t, e.tx i = some t → t.id = i
  best : ∀ l, (e.best l).Perm l

/-- A session: the task with a peer from its start.  The log holds the inputs and effects of all turns, the newest
first. -/
inductive Session (c : Cfg) : Peer → List (Input × List Effect) → Prop
  | start (service : Bool) (now mono delay : Nat) : Session c (Peer.new c service now mono delay) []
  | turn {p q : Peer} {log : List (Input × List Effect)} {i : Input} {e : Env} {out : List Effect}
      (s : Session c p log) (he : e.Sane) (h : p.turn c i e = .ok (q, out)) : Session c q ((i, out) :: log)

/-- How often an effect of a kind happened. -/
def times (f : Effect → Bool) (log : List (Input × List Effect)) : Nat :=
  ((log.map Prod.snd).flatten).countP f

/-- A request for a transaction was sent. -/
def isRequest (id : Nat) : Effect → Bool
  | .send (.request i) => i == id
  | _ => false

/-- A transaction with this id was given to the mempool. -/
def isSubmit (id : Nat) : Effect → Bool
  | .submit t => t.id == id
  | _ => false

/-- The announcement that an input is. -/
def heardOf : Input → List (Bool × Nat)
  | .msg (.new id) => [(false, id)]
  | _ => []

/-- The announcement that an effect is. -/
def said : Effect → Option (Bool × Nat)
  | .send (.new id) => some (true, id)
  | _ => none

/-- All announcements that passed between the two nodes, the newest first; `true` marks our own. -/
def exchanged : List (Input × List Effect) → List (Bool × Nat)
  | [] => []
  | (i, out) :: log => (out.filterMap said).reverse ++ heardOf i ++ exchanged log

/-- Whether a request is recorded, as a number. -/
def ind (p : Peer) (id : Nat) : Nat := if (p.requested.get id).isSome then 1 else 0

theorem times_cons (f : Effect → Bool) (i : Input) (out : List Effect) (log : List (Input × List Effect)) :
    times f ((i, out) :: log) = out.countP f + times f log := by
  simp [times, List.countP_append]

theorem news_count (f : Effect → Bool) (hf : ∀ id, f (.send (.new id)) = false) (l : List Nat) :
    (l.map (fun id => Effect.send (.new id))).countP f = 0 := by
  induction l with
  | nil => rfl
  | cons x t ih => rw [List.map_cons, List.countP_cons_of_neg (by simp [hf]), ih]

theorem news_said (l : List Nat) :
    (l.map (fun id => Effect.send (.new id))).filterMap said = l.map (fun id => (true, id)) := by
  induction l with
  | nil => rfl
  | cons x t ih => simp [said, ih]

theorem Did.said {c : Cfg} {p q : Peer} {e : Env} {i : Input} {out : List Effect} (d : Did c p e i q out) :
    out.filterMap said = [] := by
  rw [List.filterMap_eq_nil_iff]
  intro x hx
  cases x with
  | send m =>
    cases m with
    | new id => exact absurd hx (d.no_new id)
    | _ => rfl
  | _ => rfl

theorem Did.count {c : Cfg} {p q : Peer} {e : Env} {i : Input} {out : List Effect} (d : Did c p e i q out)
    (id : Nat) : out.countP (isSubmit id) + ind q id ≤ out.countP (isRequest id) + ind p id := by
  cases d with
  | heard id' _ ho _ =>
    rcases ho with rfl | ⟨rfl, _⟩ <;> simp [isSubmit, isRequest, ind, Peer.addKnown] <;> exact Nat.le_refl _
  | asked id' h1 h2 h3 h4 h5 =>
    simp only [ind, BMap.get_insert]
    by_cases e : id = id'
    · subst e; simp [isSubmit, isRequest, h3]
    · simp [isSubmit, isRequest, e]
  | refused id' h => simp [isSubmit, isRequest]
  | gave id' tx h ht => simp [isSubmit, isRequest]
  | lacked id' h ht => simp [isSubmit, isRequest]
  | ignored tx h => simp
  | got tx t rest h hr =>
    have h1 : rest.countP (isSubmit id) = 0 := by
      rcases hr with ⟨rfl, _⟩ | rfl | ⟨_, rfl, _⟩ <;> simp [isSubmit]
    have h2 : rest.countP (isRequest id) = 0 := by
      rcases hr with ⟨rfl, _⟩ | rfl | ⟨_, rfl, _⟩ <;> simp [isRequest]
    simp only [ind, BMap.get_erase, List.countP_cons, h1, h2]
    by_cases e : id = tx.id
    · subst e; simp [isSubmit, isRequest, h]
    · have e' : ¬ tx.id = id := fun x => e x.symm
      simp [isSubmit, isRequest, e, e']
  | missing id' =>
    simp only [ind, BMap.get_erase, List.countP_nil]
    by_cases e : id = id'
    · subst e; simp
    · simp [e]
  | told ids =>
    obtain ⟨_, _, h3, _⟩ := enqueue_state c ids p
    simp [ind, h3]
  | tick => simp

theorem purge_ind {p q : Peer} {now : Nat} (h : p.purge now = .ok q) (id : Nat) : ind q id ≤ ind p id := by
  obtain ⟨_, _, _, _, ⟨_, h', _⟩ | ⟨_, _, h', _⟩⟩ := purge_ok h
  · simp [ind, h']
  · simp only [ind, h', BMap.get_filter]
    cases hg : p.requested.get id with
    | none => simp
    | some t =>
      simp only [Option.isSome_some, if_true]
      split <;> omega

theorem turn_count {c : Cfg} {p q : Peer} {i : Input} {e : Env} {out : List Effect}
    (h : p.turn c i e = .ok (q, out)) (id : Nat) :
    out.countP (isSubmit id) + ind q id ≤ out.countP (isRequest id) + ind p id := by
  obtain ⟨p1, o1, p2, hh, hp, rfl, rfl⟩ := turn_ok h
  have h1 := (handle_ok hh).count id
  have h2 := purge_ind hp id
  have h3 : ind (p2.finish e).1 id = ind p2 id := by
    simp only [ind, (finish_state p2 e).2.1]
  rw [List.countP_append, List.countP_append, news_count _ (fun _ => rfl), news_count _ (fun _ => rfl), h3]
  omega

theorem Session.count {c : Cfg} {p : Peer} {log : List (Input × List Effect)} (s : Session c p log) (id : Nat) :
    times (isSubmit id) log + ind p id ≤ times (isRequest id) log := by
  induction s with
  | start => simp [times, ind, Peer.new, get_empty]
  | turn s _ h ih =>
    have := turn_count h id
    rw [times_cons, times_cons]
    omega

theorem Did.size {c : Cfg} {p q : Peer} {e : Env} {i : Input} {out : List Effect} (d : Did c p e i q out)
    (h : p.requested.size ≤ c.maxRequests) : q.requested.size ≤ c.maxRequests := by
  cases d with
  | asked id h1 h2 h3 h4 h5 =>
    have := size_insert_le p.requested id e.now
    show (p.requested.insert id e.now).size ≤ _
    omega
  | got tx => exact Nat.le_trans (size_erase_le _ _) h
  | missing id => exact Nat.le_trans (size_erase_le _ _) h
  | told ids => rw [(enqueue_state c ids p).2.2.1]; exact h
  | _ => exact h

theorem turn_size {c : Cfg} {p q : Peer} {i : Input} {e : Env} {out : List Effect}
    (h : p.turn c i e = .ok (q, out)) (hs : p.requested.size ≤ c.maxRequests) :
    q.requested.size ≤ c.maxRequests := by
  obtain ⟨p1, o1, p2, hh, hp, rfl, rfl⟩ := turn_ok h
  rw [(finish_state p2 e).2.1]
  have h1 := (handle_ok hh).size hs
  obtain ⟨_, _, _, _, ⟨_, h', _⟩ | ⟨_, _, h', _⟩⟩ := purge_ok hp
  · rw [h']; exact h1
  · rw [h']; exact Nat.le_trans (size_filter_le _ _) h1

theorem Session.size {c : Cfg} {p : Peer} {log : List (Input × List Effect)} (s : Session c p log) :
    p.requested.size ≤ c.maxRequests := by
  induction s with
  | start => exact Nat.zero_le _
  | turn s _ h ih => exact turn_size h ih

theorem turn_nextPurge {c : Cfg} {p q : Peer} {i : Input} {e : Env} {out : List Effect}
    (h : p.turn c i e = .ok (q, out)) (hs : expiry ≤ p.nextPurge) : expiry ≤ q.nextPurge := by
  obtain ⟨p1, o1, p2, hh, hp, rfl, rfl⟩ := turn_ok h
  rw [(finish_state p2 e).2.2.1]
  have h1 := (handle_ok hh).service.2.1
  obtain ⟨_, _, _, _, ⟨_, _, h'⟩ | ⟨_, h2, _, h'⟩⟩ := purge_ok hp
  · omega
  · omega

theorem Session.nextPurge {c : Cfg} {p : Peer} {log : List (Input × List Effect)} (s : Session c p log) :
    expiry ≤ p.nextPurge := by
  induction s with
  | start => exact Nat.le_add_left _ _
  | turn s _ h ih => exact turn_nextPurge h ih

/-! ### What is announced -/

theorem foldl_insert_after (size : Nat) (l : List Nat) (h : List Nat) :
    l.foldl Rolling.Filter.insert (Rolling.Filter.after size h) = Rolling.Filter.after size (l.reverse ++ h) := by
  induction l generalizing h with
  | nil => rfl
  | cons x t ih =>
    rw [List.foldl_cons, show (Rolling.Filter.after size h).insert x = Rolling.Filter.after size (x :: h) from rfl, ih]
    simp

theorem Did.known {c : Cfg} {p q : Peer} {e : Env} {i : Input} {out : List Effect} (d : Did c p e i q out)
    {h : List Nat} (hk : p.known = Rolling.Filter.after c.filterSize h) :
    q.known = Rolling.Filter.after c.filterSize ((heardOf i).map Prod.snd ++ h) := by
  cases d with
  | heard id => show p.known.insert id = _; rw [hk]; rfl
  | asked id => show p.known.insert id = _; rw [hk]; rfl
  | told ids => rw [(enqueue_state c ids p).2.1]; exact hk
  | _ => exact hk

theorem turn_said {c : Cfg} {p q : Peer} {i : Input} {e : Env} {out : List Effect}
    (h : p.turn c i e = .ok (q, out)) :
    ∃ p1 o1 p2, Did c p e i p1 o1 ∧ p1.purge e.purgeNow = .ok p2 ∧ q = (p2.finish e).1 ∧
      out.filterMap said = (p2.batch e).map (fun id => (true, id)) := by
  obtain ⟨p1, o1, p2, hh, hp, rfl, rfl⟩ := turn_ok h
  have d := handle_ok hh
  exact ⟨p1, o1, p2, d, hp, rfl, by rw [List.filterMap_append, d.said, news_said]; rfl⟩

theorem Session.known {c : Cfg} {p : Peer} {log : List (Input × List Effect)} (s : Session c p log) :
    p.known = Rolling.Filter.after c.filterSize ((exchanged log).map Prod.snd) := by
  induction s with
  | start => rfl
  | @turn p q log i e out s _ h ih =>
    obtain ⟨p1, o1, p2, d, hp, rfl, hs⟩ := turn_said h
    rw [(finish_state p2 e).2.2.2, (purge_ok hp).2.1, d.known ih, foldl_insert_after]
    have hmap : ((p2.batch e).map (fun id => (true, id))).map Prod.snd = p2.batch e := by
      rw [List.map_map]; exact List.map_id _
    rw [exchanged, hs, List.map_append, List.map_append, List.map_reverse, hmap, List.append_assoc]

theorem mem_queue (p : Peer) (e : Env) (id : Nat) :
    id ∈ (p.toAnnounce.filter (fun id _ => (e.tx id).isSome)).entries.map Prod.fst ↔
      p.toAnnounce.get id = some () ∧ (e.tx id).isSome = true := by
  rw [List.mem_map]
  constructor
  · rintro ⟨⟨a, ⟨⟩⟩, h, rfl⟩
    rw [BMap.mem_entries, BMap.get_filter] at h
    cases hg : p.toAnnounce.get a with
    | none => rw [hg] at h; simp at h
    | some u =>
      rw [hg] at h
      refine ⟨rfl, ?_⟩
      by_contra hc
      simp [hc] at h
  · rintro ⟨h1, h2⟩
    refine ⟨(id, ()), ?_, rfl⟩
    rw [BMap.mem_entries, BMap.get_filter, h1]
    simp [h2]

theorem mem_batch {p : Peer} {e : Env} (he : e.Sane) (id : Nat) :
    id ∈ p.batch e ↔ p.nextAnnounce ≤ e.mono ∧ p.toAnnounce.get id = some () ∧ (e.tx id).isSome = true := by
  unfold Peer.batch
  split
  · rename_i h
    rw [(he.best _).mem_iff, mem_queue]
    exact ⟨fun x => ⟨h, x⟩, fun x => x.2⟩
  · rename_i h
    exact ⟨fun x => absurd x (List.not_mem_nil), fun x => absurd x.1 h⟩

theorem batch_nodup {p : Peer} {e : Env} (he : e.Sane) : (p.batch e).Nodup := by
  unfold Peer.batch
  split
  · rw [(he.best _).nodup_iff]
    have := (p.toAnnounce.filter (fun id _ => (e.tx id).isSome)).sorted
    rw [List.Nodup, List.pairwise_map]
    exact this.imp (fun h => Nat.ne_of_lt h)
  · exact List.nodup_nil

/-- No announcement that waits repeats one of the last announcements. -/
def Apart (c : Cfg) (p : Peer) (h : List (Bool × Nat)) : Prop :=
  ∀ id, p.toAnnounce.get id = some () → (true, id) ∉ h.take c.filterSize

/-- Equal announcements of ours are far apart. -/
def Spaced (n : Nat) (h : List (Bool × Nat)) : Prop :=
  ∀ pre mid post id, h = pre ++ (true, id) :: (mid ++ (true, id) :: post) → n ≤ mid.length

theorem not_mem_take_cons {n : Nat} {x y : Bool × Nat} {h : List (Bool × Nat)} (hne : y ≠ x) (hh : y ∉ h.take n) :
    y ∉ (x :: h).take n := by
  cases n with
  | zero => simp
  | succ n =>
    rw [List.take_succ_cons, List.mem_cons]
    rintro (rfl | h')
    · exact hne rfl
    · exact hh (List.take_subset_take_left h (Nat.le_succ n) h')

theorem spaced_cons {n : Nat} {x : Bool × Nat} {h : List (Bool × Nat)} (hs : Spaced n h)
    (hx : x.1 = true → x ∉ h.take n) : Spaced n (x :: h) := by
  intro pre mid post id hh
  cases pre with
  | nil =>
    simp only [List.nil_append, List.cons.injEq] at hh
    obtain ⟨rfl, rfl⟩ := hh
    have := hx rfl
    by_contra hc
    apply this
    rw [List.mem_take_iff_getElem]
    refine ⟨mid.length, ?_, ?_⟩
    · simp only [List.length_append, List.length_cons]; omega
    · simp
  | cons y pre =>
    simp only [List.cons_append, List.cons.injEq] at hh
    exact hs pre mid post id hh.2

theorem spaced_batch {n : Nat} (l : List Nat) (h : List (Bool × Nat)) (hs : Spaced n h) (hd : l.Nodup)
    (hl : ∀ id ∈ l, (true, id) ∉ h.take n) : Spaced n ((l.map (fun id => (true, id))).reverse ++ h) := by
  induction l generalizing h with
  | nil => simpa using hs
  | cons x t ih =>
    rw [List.nodup_cons] at hd
    rw [List.map_cons, List.reverse_cons, List.append_assoc]
    apply ih _ _ hd.2
    · intro id hid
      apply not_mem_take_cons
      · rintro he
        simp only [Prod.mk.injEq, true_and] at he
        exact hd.1 (he ▸ hid)
      · exact hl id (List.mem_cons_of_mem _ hid)
    · exact spaced_cons hs (fun _ => hl x List.mem_cons_self)

theorem Session.spaced {c : Cfg} {p : Peer} {log : List (Input × List Effect)} (s : Session c p log) :
    Apart c p (exchanged log) ∧ Spaced c.filterSize (exchanged log) := by
  induction s with
  | start =>
    refine ⟨fun id h => by simp [exchanged], ?_⟩
    intro pre mid post id h
    exact absurd h (by simp [exchanged])
  | @turn p q log i e out s he h ih =>
    obtain ⟨ha, hs⟩ := ih
    have hk := s.known
    obtain ⟨p1, o1, p2, d, hp, rfl, hsaid⟩ := turn_said h
    -- after the input
    have hs1 : Spaced c.filterSize (heardOf i ++ exchanged log) := by
      cases d with
      | heard id => exact spaced_cons hs (by nofun)
      | asked id => exact spaced_cons hs (by nofun)
      | _ => exact hs
    have hin : ∀ id, (true, id) ∉ (exchanged log).take c.filterSize →
        (true, id) ∉ (heardOf i ++ exchanged log).take c.filterSize := by
      intro id hid
      cases d with
      | heard id' => exact not_mem_take_cons (by simp) hid
      | asked id' => exact not_mem_take_cons (by simp) hid
      | _ => exact hid
    have ha1 : Apart c p1 (heardOf i ++ exchanged log) := by
      intro id hid
      apply hin
      cases d with
      | told ids =>
        rw [(enqueue_state c ids p).2.2.2.2.2] at hid
        rcases hid with hid | ⟨_, _, hid⟩
        · exact ha id hid
        · intro hc
          rw [hk] at hid
          have hm : id ∈ ((exchanged log).map Prod.snd).take c.filterSize := by
            rw [← List.map_take]
            exact List.mem_map_of_mem (f := Prod.snd) hc
          have : (Rolling.Filter.after c.filterSize ((exchanged log).map Prod.snd)).contains c.fp id = true := by
            rw [Rolling.contains_iff (Rolling.inv_after _ _)]
            left
            have hsz := Rolling.new_size (α := Nat) c.filterSize
            refine List.take_subset_take_left _ ?_ hm
            rw [Rolling.after_max]; omega
          rw [this] at hid
          cases hid
      | _ => exact ha id hid
    have ht : p2.toAnnounce = p1.toAnnounce := (purge_ok hp).2.2.1
    rw [exchanged, hsaid, List.append_assoc]
    by_cases hm : e.mono ≥ p2.nextAnnounce
    · constructor
      · intro id hid
        rw [finish_queue, if_pos hm] at hid
        cases hid
      · apply spaced_batch _ _ hs1 (batch_nodup he)
        intro id hid
        rw [mem_batch he, ht] at hid
        exact ha1 id hid.2.1
    · have hb : p2.batch e = [] := by simp only [Peer.batch, if_neg hm]
      rw [hb]
      refine ⟨?_, hs1⟩
      intro id hid
      rw [finish_queue, if_neg hm, ht] at hid
      exact ha1 id hid

end Verif.Relay
