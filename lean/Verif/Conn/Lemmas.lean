import Verif.Conn.Steps

/-!
The invariant of the connections of the backend.
-/
namespace Verif.Conn
open Verif

@[simp] theorem task_pending (s : State) (x f) : (s.task x f).pending = s.pending := by
  unfold State.task; split <;> rfl
@[simp] theorem task_peers (s : State) (x f) : (s.task x f).peers = s.peers := by
  unfold State.task; split <;> rfl
@[simp] theorem task_count (s : State) (x f) : (s.task x f).count = s.count := by
  unfold State.task; split <;> rfl
@[simp] theorem task_next (s : State) (x f) : (s.task x f).next = s.next := by
  unfold State.task; split <;> rfl
@[simp] theorem task_dialing (s : State) (x f) : (s.task x f).dialing = s.dialing := by
  unfold State.task; split <;> rfl
@[simp] theorem task_enabled (s : State) (x f) : (s.task x f).enabled = s.enabled := by
  unfold State.task; split <;> rfl
@[simp] theorem task_maxPending (s : State) (x f) : (s.task x f).maxPending = s.maxPending := by
  unfold State.task; split <;> rfl

theorem task_get (s : State) (x : Nat) (f : Task → Task) (id : Nat) :
    (s.task x f).tasks.get id = if id = x then (s.tasks.get id).map f else s.tasks.get id := by
  unfold State.task
  split
  · rename_i t ht
    simp only [BMap.get_insert]
    by_cases h : id = x
    · subst h; simp [ht]
    · simp [h]
  · rename_i ht
    by_cases h : id = x
    · subst h; simp [ht]
    · simp [h]

/-- Telling several tasks to disconnect. -/
def State.tell (s : State) (ids : List Nat) : State :=
  ids.foldl (fun s id => s.task id (fun t => { t with told := true })) s

theorem tell_fields (ids : List Nat) (s : State) :
    (s.tell ids).pending = s.pending ∧ (s.tell ids).peers = s.peers ∧ (s.tell ids).count = s.count ∧
    (s.tell ids).next = s.next ∧ (s.tell ids).dialing = s.dialing ∧
    (s.tell ids).enabled = s.enabled ∧ (s.tell ids).maxPending = s.maxPending := by
  induction ids generalizing s with
  | nil => exact ⟨rfl, rfl, rfl, rfl, rfl, rfl, rfl⟩
  | cons x l ih =>
    have := ih (s.task x (fun t => { t with told := true }))
    simpa [State.tell] using this

theorem tell_get (ids : List Nat) (s : State) (id : Nat) :
    (s.tell ids).tasks.get id =
      (s.tasks.get id).map (fun t => if id ∈ ids then { t with told := true } else t) := by
  induction ids generalizing s with
  | nil => simp [State.tell]
  | cons x l ih =>
    have := ih (s.task x (fun t => { t with told := true }))
    have e : s.tell (x :: l) = (s.task x (fun t => { t with told := true })).tell l := rfl
    rw [e, this, task_get]
    by_cases hx : id = x
    · subst hx
      cases s.tasks.get id with
      | none => simp
      | some t => by_cases hl : id ∈ l <;> simp [hl]
    · cases s.tasks.get id with
      | none => simp [hx]
      | some t => simp [hx]

/-- The connections of the backend. -/
def State.ids (s : State) : List Nat := s.peers.entries.map (·.1) ++ s.pending.entries.map (·.1)

theorem enableNet_eq (s : State) (b : Bool) :
    s.enableNet b =
      if s.enabled = true ∧ b = false then
        (({ s with enabled := false } : State).tell s.ids, s.ids.map .toPeerDisconnect)
      else ({ s with enabled := b }, []) := by
  unfold State.enableNet
  cases he : s.enabled <;> cases b <;> simp [State.tell, State.ids]
  · cases s; simp_all
  · cases s; simp_all

theorem enableNet_cases (s : State) (b : Bool) :
    ∃ ids, (s.enableNet b).1 = ({ s with enabled := b } : State).tell ids ∧
      (s.enableNet b).2 = ids.map .toPeerDisconnect := by
  rw [enableNet_eq]
  split
  · rename_i h
    exact ⟨s.ids, by rw [h.2], rfl⟩
  · exact ⟨[], rfl, rfl⟩

/-- How many pending connections satisfy this. -/
def cnt (f : Pending → Bool) (m : BMap Nat Pending) : Nat := m.sumV (fun _ p => if f p then 1 else 0)

theorem cnt_erase {f : Pending → Bool} {m : BMap Nat Pending} {k : Nat} {p : Pending}
    (h : m.get k = some p) : cnt f m = cnt f (m.erase k) + if f p then 1 else 0 :=
  BMap.sumV_erase_of_get _ h

theorem cnt_insert {f : Pending → Bool} {m : BMap Nat Pending} {k : Nat} (p : Pending)
    (h : m.get k = none) : cnt f (m.insert k p) = cnt f m + if f p then 1 else 0 := by
  have := BMap.sumV_insert_of_none (fun _ p => if f p then 1 else 0) p h
  unfold cnt
  rw [this]

/-- The invariant. -/
structure Inv (s : State) : Prop where
  count : s.count = cnt (·.info.isInbound) s.pending
  bound : s.count ≤ s.maxPending
  lt : ∀ id t, s.tasks.get id = some t → id < s.next
  pend : ∀ id p, s.pending.get id = some p →
    ∃ t, s.tasks.get id = some t ∧ t.phase ≠ .ended ∧ t.accepted = false ∧
      t.inbound = p.info.isInbound
  peer : ∀ id p, s.peers.get id = some p →
    s.pending.get id = none ∧
    ∃ t, s.tasks.get id = some t ∧ (t.phase = .informed ∨ t.phase = .failing) ∧
      t.accepted = p.accepted ∧ t.inbound = p.inbound
  acc : ∀ id t, s.tasks.get id = some t → t.accepted = true → t.phase ≠ .ended →
    ∃ p, s.peers.get id = some p

theorem Inv.init (b : Bool) (m : Nat) : Inv (State.init b m) := by
  refine ⟨rfl, Nat.zero_le _, ?_, ?_, ?_, ?_⟩ <;> intro _ _ h <;> cases h

/-- Only told and written change. -/
theorem Inv.retask {s s' : State} (h : Inv s) (hc : s'.count = s.count) (hp : s'.pending = s.pending)
    (hr : s'.peers = s.peers) (hn : s'.next = s.next) (hm : s'.maxPending = s.maxPending)
    (ht : ∀ id, ∃ f : Task → Task, s'.tasks.get id = (s.tasks.get id).map f ∧
      ∀ t, (f t).phase = t.phase ∧ (f t).accepted = t.accepted ∧ (f t).inbound = t.inbound) :
    Inv s' := by
  refine ⟨by rw [hc, hp]; exact h.count, by rw [hc, hm]; exact h.bound, ?_, ?_, ?_, ?_⟩
  · intro id t' h'
    obtain ⟨f, hf, _⟩ := ht id
    rw [hf] at h'
    cases hg : s.tasks.get id with
    | none => rw [hg] at h'; cases h'
    | some t => rw [hn]; exact h.lt id t hg
  · intro id p h'
    rw [hp] at h'
    obtain ⟨t, h1, h2, h3, h4⟩ := h.pend id p h'
    obtain ⟨f, hf, hff⟩ := ht id
    obtain ⟨f1, f2, f3⟩ := hff t
    exact ⟨f t, by rw [hf, h1]; rfl, by rw [f1]; exact h2, by rw [f2]; exact h3, by rw [f3]; exact h4⟩
  · intro id p h'
    rw [hr] at h'
    obtain ⟨h0, t, h1, h2, h3, h4⟩ := h.peer id p h'
    obtain ⟨f, hf, hff⟩ := ht id
    obtain ⟨f1, f2, f3⟩ := hff t
    exact ⟨by rw [hp]; exact h0, f t, by rw [hf, h1]; rfl, by rw [f1]; exact h2, by rw [f2]; exact h3,
      by rw [f3]; exact h4⟩
  · intro id t' h' ha he
    obtain ⟨f, hf, hff⟩ := ht id
    rw [hf] at h'
    cases hg : s.tasks.get id with
    | none => rw [hg] at h'; cases h'
    | some t =>
      rw [hg] at h'
      cases h'
      obtain ⟨f1, f2, f3⟩ := hff t
      rw [hr]
      exact h.acc id t hg (by rw [← f2]; exact ha) (by rw [← f1]; exact he)

theorem Inv.task {s : State} (h : Inv s) (x : Nat) {f : Task → Task}
    (hf : ∀ t, (f t).phase = t.phase ∧ (f t).accepted = t.accepted ∧ (f t).inbound = t.inbound) :
    Inv (s.task x f) := by
  refine h.retask (by simp) (by simp) (by simp) (by simp) (by simp) fun id => ?_
  rw [task_get]
  by_cases hx : id = x
  · exact ⟨f, by simp [hx], hf⟩
  · exact ⟨fun t => t, by simp [hx], fun t => ⟨rfl, rfl, rfl⟩⟩

theorem Inv.told {s : State} (h : Inv s) (x : Nat) :
    Inv (s.task x (fun t => { t with told := true })) := h.task x fun _ => ⟨rfl, rfl, rfl⟩

theorem Inv.fresh {s : State} (h : Inv s) :
    s.tasks.get s.next = none ∧ s.pending.get s.next = none ∧ s.peers.get s.next = none := by
  have h0 : s.tasks.get s.next = none := by
    cases hg : s.tasks.get s.next with
    | none => rfl
    | some t => exact absurd (h.lt _ _ hg) (by omega)
  refine ⟨h0, ?_, ?_⟩
  · cases hg : s.pending.get s.next with
    | none => rfl
    | some p =>
      obtain ⟨t, ht, _⟩ := h.pend _ _ hg
      rw [h0] at ht; cases ht
  · cases hg : s.peers.get s.next with
    | none => rfl
    | some p =>
      obtain ⟨_, t, ht, _⟩ := h.peer _ _ hg
      rw [h0] at ht; cases ht

theorem Inv.added {s : State} (h : Inv s) (info : Info) (a : Addr)
    (hb : info = .inbound → s.count < s.maxPending) : Inv (s.added info a) := by
  obtain ⟨f1, f2, f3⟩ := h.fresh
  refine ⟨?_, ?_, ?_, ?_, ?_, ?_⟩
  · simp only [State.added]
    rw [cnt_insert _ f2, ← h.count]
    cases info <;> simp [Info.isInbound]
  · simp only [State.added]
    cases info with
    | inbound => exact hb rfl
    | outbound n => simpa [Info.isInbound] using h.bound
  · intro id t ht
    simp only [State.added, BMap.get_insert] at ht ⊢
    split at ht
    · rename_i e; omega
    · have := h.lt _ _ ht; omega
  · intro id p hp
    simp only [State.added, BMap.get_insert] at hp ⊢
    split at hp
    · rename_i e
      cases hp
      exact ⟨_, by simp [e]; rfl, by nofun, rfl, rfl⟩
    · rename_i e
      rw [if_neg e]
      exact h.pend _ _ hp
  · intro id p hp
    simp only [State.added, BMap.get_insert] at hp ⊢
    have e : id ≠ s.next := by
      rintro rfl
      rw [f3] at hp; cases hp
    rw [if_neg e, if_neg e]
    exact h.peer _ _ hp
  · intro id t ht ha he
    simp only [State.added, BMap.get_insert] at ht ⊢
    split at ht
    · cases ht; cases ha
    · exact h.acc _ _ ht ha he

theorem after_inbound (t : Task) (e : PeerEvent) : (t.after e).inbound = t.inbound := by
  cases e <;> rfl

theorem after_accepted (t : Task) (e : PeerEvent) : (t.after e).accepted = t.accepted := by
  cases e <;> rfl

/-- A task goes on. -/
theorem Inv.upd {s : State} (h : Inv s) {id : Nat} {t : Task} {e : PeerEvent}
    (ht : s.tasks.get id = some t) (hc : t.can e = true) (he : e ≠ .closed)  :
    Inv (s.upd id (t.after e)) := by
  have hph : t.phase ≠ .ended ∧ (t.after e).phase ≠ .ended ∧
      (t.phase = .informed ∨ t.phase = .failing →
        (t.after e).phase = .informed ∨ (t.after e).phase = .failing) := by
    cases e <;> simp [Task.can, Task.after] at hc he ⊢ <;>
      cases hp : t.phase <;> simp_all
  refine ⟨h.count, h.bound, ?_, ?_, ?_, ?_⟩
  · intro id' t' ht'
    simp only [State.upd, BMap.get_insert] at ht' ⊢
    split at ht'
    · rename_i e; rw [e]; exact h.lt _ _ ht
    · exact h.lt _ _ ht'
  · intro id' p hp
    obtain ⟨t', h1, h2, h3, h4⟩ := h.pend id' p hp
    simp only [State.upd, BMap.get_insert]
    by_cases hi : id' = id
    · subst hi
      rw [ht] at h1; cases h1
      exact ⟨t.after e, by simp, hph.2.1, by rw [after_accepted]; exact h3, by rw [after_inbound]; exact h4⟩
    · rw [if_neg hi]; exact ⟨t', h1, h2, h3, h4⟩
  · intro id' p hp
    obtain ⟨h0, t', h1, h2, h3, h4⟩ := h.peer id' p hp
    refine ⟨h0, ?_⟩
    simp only [State.upd, BMap.get_insert]
    by_cases hi : id' = id
    · subst hi
      rw [ht] at h1; cases h1
      exact ⟨t.after e, by simp, hph.2.2 h2, by rw [after_accepted]; exact h3,
        by rw [after_inbound]; exact h4⟩
    · rw [if_neg hi]; exact ⟨t', h1, h2, h3, h4⟩
  · intro id' t' ht' ha hne
    simp only [State.upd, BMap.get_insert] at ht' ⊢
    split at ht'
    · rename_i e
      cases ht'
      rw [after_accepted] at ha
      rw [e]
      exact h.acc _ _ ht ha hph.1
    · exact h.acc _ _ ht' ha hne

theorem Inv.peer_none_of_pending {s : State} (h : Inv s) {id : Nat} {p : Pending}
    (hp : s.pending.get id = some p) : s.peers.get id = none := by
  cases hg : s.peers.get id with
  | none => rfl
  | some q => rw [(h.peer _ _ hg).1] at hp; cases hp

theorem Inv.less {s : State} (h : Inv s) {id : Nat} {p : Pending} (hp : s.pending.get id = some p) :
    s.less p = cnt (·.info.isInbound) (s.pending.erase id) ∧ s.less p ≤ s.count ∧
      (p.info.isInbound = true → s.count ≠ 0) := by
  have := cnt_erase (f := (·.info.isInbound)) hp
  rw [← h.count] at this
  unfold State.less
  by_cases hi : p.info.isInbound = true <;> simp [hi] at this ⊢ <;> omega

theorem Inv.erasePending {s : State} (h : Inv s) {id : Nat} {p : Pending}
    (hp : s.pending.get id = some p) :
    Inv { s with pending := s.pending.erase id, count := s.less p } := by
  obtain ⟨l1, l2, _⟩ := h.less hp
  refine ⟨l1, Nat.le_trans l2 h.bound, h.lt, ?_, ?_, h.acc⟩
  · intro id' q hq
    simp only [BMap.get_erase] at hq
    split at hq
    · cases hq
    · exact h.pend _ _ hq
  · intro id' q hq
    obtain ⟨h0, h1⟩ := h.peer _ _ hq
    refine ⟨?_, h1⟩
    simp only [BMap.get_erase]
    split
    · rfl
    · exact h0

theorem Inv.step {s s' : State} {e : Event} {o : List Out} (h : Inv s) (hs : Step s e s' o) :
    Inv s' := by
  cases hs with
  | connect a => exact ⟨h.count, h.bound, h.lt, h.pend, h.peer, h.acc⟩
  | dialFail a ha => exact ⟨h.count, h.bound, h.lt, h.pend, h.peer, h.acc⟩
  | dialOk a n ha =>
    exact Inv.added (s := { s with dialing := s.dialing.erase a })
      ⟨h.count, h.bound, h.lt, h.pend, h.peer, h.acc⟩ _ _ (by nofun)
  | ignored => exact h
  | incoming a he hc => exact h.added _ _ fun _ => hc
  | quiet id t e ht hc he => exact h.upd ht hc he
  | opened id t n al p ht hc he hp hn =>
    have h1 := (h.upd ht hc (by nofun)).erasePending (id := id) (p := p) hp
    have hpr := h.peer_none_of_pending hp
    refine ⟨h1.count, h1.bound, h1.lt, h1.pend, ?_, ?_⟩
    · intro id' q hq
      simp only [BMap.get_insert] at hq
      split at hq
      · rename_i e
        subst e
        cases hq
        obtain ⟨t', g1, g2, g3, g4⟩ := h.pend _ _ hp
        rw [ht] at g1; cases g1
        exact ⟨by simp [BMap.get_erase], t.after (.info n al), by simp [State.upd],
          .inl rfl, g3, g4⟩
      · exact h1.peer _ _ hq
    · intro id' t' ht' ha hne
      simp only [BMap.get_insert]
      split
      · exact ⟨_, rfl⟩
      · exact h1.acc _ _ ht' ha hne
  | self id t n p x q tx ht hc he hp hi hx hq hne htx =>
    refine Inv.told (Inv.told ?_ _) _
    have h1 := (h.upd ht hc (by nofun)).erasePending (id := id) (p := p) hp
    have h2 := h1.erasePending (id := x) (p := q)
      (by show (s.pending.erase id).get x = _; rw [BMap.get_erase_ne _ hne]; exact hx)
    convert h2 using 1
    simp [State.less, hi, hq, Info.isInbound, State.upd]
  | message id t ht hc => exact h.upd ht hc (by nofun)
  | misHandshake id t p ht hc => exact h.upd ht hc (by nofun)
  | misbehaved id t ht hc => exact h.upd ht hc (by nofun)
  | closed id t ht hc =>
    have h1 : Inv { s with
        pending := s.pending.erase id
        count := match s.pending.get id with | some p => s.less p | none => s.count } := by
      cases hp : s.pending.get id with
      | none =>
        rw [BMap.erase_of_none hp]
        exact h
      | some p => exact h.erasePending hp
    refine ⟨h1.count, h1.bound, ?_, ?_, ?_, ?_⟩
    · intro id' t' ht'
      simp only [State.upd, BMap.get_insert] at ht' ⊢
      split at ht'
      · rename_i e; rw [e]; exact h.lt _ _ ht
      · exact h.lt _ _ ht'
    · intro id' p hp
      have : id' ≠ id := by
        rintro rfl
        simp only [BMap.get_erase] at hp
        simp at hp
      obtain ⟨t', g⟩ := h1.pend _ _ hp
      exact ⟨t', by simp only [State.upd, BMap.get_insert, if_neg this]; exact g.1, g.2⟩
    · intro id' p hp
      simp only [BMap.get_erase] at hp
      split at hp
      · cases hp
      · rename_i e
        obtain ⟨g0, t', g⟩ := h1.peer _ _ hp
        exact ⟨g0, t', by simp only [State.upd, BMap.get_insert, if_neg e]; exact g.1, g.2⟩
    · intro id' t' ht' ha hne
      simp only [State.upd, BMap.get_insert, BMap.get_erase] at ht' ⊢
      split at ht'
      · cases ht'
        exact absurd rfl hne
      · rename_i e
        rw [if_neg e]
        exact h.acc _ _ ht' ha hne
  | acceptNone => exact h
  | accepted id p hp hpa =>
    refine ⟨by simpa using h.count, by simpa using h.bound, ?_, ?_, ?_, ?_⟩
    · intro id' t' ht'
      rw [task_get] at ht'
      rw [task_next]
      split at ht'
      · cases hg : s.tasks.get id' with
        | none => simp [hg] at ht'
        | some t => exact h.lt _ _ hg
      · exact h.lt _ _ ht'
    · intro id' q hq
      rw [task_pending] at hq
      obtain ⟨t', g⟩ := h.pend _ _ hq
      have : id' ≠ id := by
        rintro rfl
        rw [(h.peer _ _ hp).1] at hq; cases hq
      exact ⟨t', by rw [task_get, if_neg this]; exact g.1, g.2⟩
    · intro id' q hq
      rw [task_peers] at hq
      simp only [BMap.get_insert] at hq
      split at hq
      · rename_i e
        subst e
        cases hq
        obtain ⟨g0, t', g1, g2, g3, g4⟩ := h.peer _ _ hp
        exact ⟨by simpa using g0, { t' with accepted := true }, by rw [task_get]; simp [g1], g2, rfl, g4⟩
      · rename_i e
        obtain ⟨g0, t', g⟩ := h.peer _ _ hq
        exact ⟨by simpa using g0, t', by rw [task_get, if_neg e]; exact g.1, g.2⟩
    · intro id' t' ht' ha hne
      rw [task_get] at ht'
      rw [task_peers]
      simp only [BMap.get_insert]
      by_cases e : id' = id
      · rw [if_pos e]; exact ⟨_, rfl⟩
      · rw [if_neg e] at ht' ⊢
        exact h.acc _ _ ht' ha hne
  | toldNone => exact h
  | told id => exact h.task _ fun t => ⟨rfl, rfl, rfl⟩
  | wroteNone => exact h
  | wrote id => exact h.task _ fun t => ⟨rfl, rfl, rfl⟩
  | enable b =>
    obtain ⟨ids, e, _⟩ := enableNet_cases s b
    rw [e]
    obtain ⟨f1, f2, f3, f4, f5, f6, f7⟩ := tell_fields ids { s with enabled := b }
    refine h.retask f3 f1 f2 f4 f7 fun id => ⟨_, tell_get ids _ id, fun t => ?_⟩
    by_cases hi : id ∈ ids <;> simp [hi]

theorem run_cons {s s' : State} {e : Event} {es : List Event} {o : List Out}
    (h : s.run (e :: es) = .ok (s', o)) :
    ∃ s1 o1 o2, s.step e = .ok (s1, o1) ∧ s1.run es = .ok (s', o2) ∧ o = o1 ++ o2 := by
  unfold State.run at h
  obtain ⟨⟨s1, o1⟩, h1, h⟩ := bind_eq_ok.mp h
  obtain ⟨⟨s2, o2⟩, h2, h⟩ := bind_eq_ok.mp h
  cases h
  exact ⟨s1, o1, o2, h1, h2, rfl⟩

theorem Inv.run {s s' : State} {es : List Event} {o : List Out} (h : Inv s)
    (hr : s.run es = .ok (s', o)) : Inv s' := by
  induction es generalizing s o with
  | nil => cases hr; exact h
  | cons e es ih =>
    obtain ⟨s1, o1, o2, h1, h2, rfl⟩ := run_cons hr
    exact ih (h.step (step_ok h1)) h2

theorem run_append {s s' : State} {es es' : List Event} {o : List Out}
    (h : s.run (es ++ es') = .ok (s', o)) :
    ∃ s1 o1 o2, s.run es = .ok (s1, o1) ∧ s1.run es' = .ok (s', o2) ∧ o = o1 ++ o2 := by
  induction es generalizing s o with
  | nil => exact ⟨s, [], o, rfl, h, rfl⟩
  | cons e es ih =>
    obtain ⟨s1, o1, o2, h1, h2, rfl⟩ := run_cons h
    obtain ⟨s2, o3, o4, h3, h4, rfl⟩ := ih h2
    refine ⟨s2, o1 ++ o3, o4, ?_, h4, by simp⟩
    unfold State.run
    rw [h1]
    show (do let (s, os) ← s1.run es; return (s, o1 ++ os)) = _
    rw [h3]
    rfl

end Verif.Conn
