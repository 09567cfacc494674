import Verif.Conn.Life

/-!
Which connections being made can still end.
-/
namespace Verif.Conn
open Verif

/-- No dial succeeds while networking is disabled. -/
def Calm : Bool → List Event → Prop
  | _, [] => True
  | _, .enable b :: es => Calm b es
  | on, .dialled _ (some _) :: es => on = true ∧ Calm on es
  | on, _ :: es => Calm on es

/-- Connections being made can end. -/
structure CanEnd (s : State) : Prop where
  told : s.enabled = false → ∀ id p t, s.pending.get id = some p → s.tasks.get id = some t → t.told = true
  live : ∀ id p t, s.pending.get id = some p → s.tasks.get id = some t → t.phase = .informed →
    t.told = true ∨ t.inbound = true

/-- Whether networking is enabled after an event. -/
def Event.on (on : Bool) : Event → Bool
  | .enable b => b
  | _ => on

theorem step_enabled {s s' : State} {e : Event} {o : List Out} (hs : Step s e s' o) :
    s'.enabled = e.on s.enabled := by
  cases hs <;> try (first | rfl | (simp [State.upd, Event.on]; done))
  rename_i b
  obtain ⟨ids, e1, e2⟩ := enableNet_cases s b
  rw [e1]
  exact (tell_fields ids _).2.2.2.2.2.1

theorem CanEnd.retask {s s' : State} (h : CanEnd s) (he : s'.enabled = s.enabled)
    (hp : ∀ id p, s'.pending.get id = some p → s.pending.get id = some p)
    (ht : ∀ id, ∃ f : Task → Task, s'.tasks.get id = (s.tasks.get id).map f ∧
      ∀ t, (f t).phase = t.phase ∧ (t.told = true → (f t).told = true) ∧ (f t).inbound = t.inbound) :
    CanEnd s' := by
  refine ⟨fun h0 id p t' h1 h2 => ?_, fun id p t' h1 h2 h3 => ?_⟩ <;>
    obtain ⟨f, hf, hff⟩ := ht id <;> rw [hf] at h2 <;>
    cases hg : s.tasks.get id with
    | none => rw [hg] at h2; cases h2
    | some t => ?_
  · rw [hg] at h2; cases h2
    exact (hff t).2.1 (h.told (by rw [← he]; exact h0) id p t (hp _ _ h1) hg)
  · rw [hg] at h2; cases h2
    rcases h.live id p t (hp _ _ h1) hg (by rw [← (hff t).1]; exact h3) with g | g
    · exact .inl ((hff t).2.1 g)
    · exact .inr (by rw [(hff t).2.2]; exact g)

theorem CanEnd.task {s : State} (h : CanEnd s) (x : Nat) {f : Task → Task}
    (hf : ∀ t, (f t).phase = t.phase ∧ (t.told = true → (f t).told = true) ∧
      (f t).inbound = t.inbound) : CanEnd (s.task x f) := by
  refine h.retask (by simp) (by simp) fun id => ?_
  rw [task_get]
  by_cases hx : id = x
  · exact ⟨f, by simp [hx], hf⟩
  · exact ⟨fun t => t, by simp [hx], fun t => ⟨rfl, fun h => h, rfl⟩⟩

theorem CanEnd.upd {s : State} (h : CanEnd s) {id : Nat} {t : Task} {e : PeerEvent}
    (ht : s.tasks.get id = some t)
    (hq : ∀ n al, e = .info n al → s.enabled = false ∨ s.pending.get id = none) :
    CanEnd (s.upd id (t.after e)) := by
  have htold : (t.after e).told = t.told := by cases e <;> rfl
  refine ⟨fun h0 id' p t' h1 h2 => ?_, fun id' p t' h1 h2 h3 => ?_⟩ <;>
    simp only [State.upd, BMap.get_insert] at h1 h2 <;> split at h2
  · rename_i e'; subst e'; cases h2
    rw [htold]
    exact h.told h0 _ _ _ h1 ht
  · exact h.told h0 _ _ _ h1 h2
  · rename_i e'; subst e'; cases h2
    rw [htold, after_inbound]
    cases e with
    | info n al =>
      rcases hq n al rfl with g | g
      · exact .inl (h.told g _ _ _ h1 ht)
      · rw [g] at h1; cases h1
    | misbehavedOnHandshake => cases h3
    | closed => cases h3
    | sync => exact h.live _ _ _ h1 ht h3
    | message => exact h.live _ _ _ h1 ht h3
    | misbehaved => exact h.live _ _ _ h1 ht h3
  · exact h.live _ _ _ h1 h2 h3

theorem CanEnd.added {s : State} (h : CanEnd s) (he : s.enabled = true) (info : Info) (a : Addr) :
    CanEnd (s.added info a) := by
  refine ⟨fun h0 => ?_, fun id' p t' h1 h2 h3 => ?_⟩
  · change s.enabled = false at h0
    rw [he] at h0; cases h0
  · simp only [State.added, BMap.get_insert] at h1 h2
    split at h2
    · cases h2; cases h3
    · rename_i e
      rw [if_neg e] at h1
      exact h.live _ _ _ h1 h2 h3

/-- Removing from the pending connections. -/
theorem CanEnd.sub {s s' : State} (h : CanEnd s) (he : s'.enabled = s.enabled)
    (hp : ∀ id p, s'.pending.get id = some p →
      s.pending.get id = some p ∧ s'.tasks.get id = s.tasks.get id) : CanEnd s' :=
  ⟨fun h0 id p t h1 h2 => h.told (he ▸ h0) id p t (hp _ _ h1).1 ((hp _ _ h1).2 ▸ h2),
    fun id p t h1 h2 h3 => h.live id p t (hp _ _ h1).1 ((hp _ _ h1).2 ▸ h2) h3⟩

theorem CanEnd.step {s s' : State} {e : Event} {o : List Out} (hi : Inv s) (h : CanEnd s)
    (hs : Step s e s' o) (hc : ∀ a r, e = .dialled a (some r) → s.enabled = true) : CanEnd s' := by
  cases hs with
  | connect a => exact ⟨h.told, h.live⟩
  | dialFail a ha => exact ⟨h.told, h.live⟩
  | dialOk a n ha =>
    exact CanEnd.added (s := { s with dialing := s.dialing.erase a }) ⟨h.told, h.live⟩
      (hc a (n, true) rfl) _ _
  | ignored => exact h
  | incoming a he _ => exact h.added he _ _
  | quiet id t e ht _ _ _ hq => exact h.upd ht hq
  | opened x t n al p ht hcn he hp hn =>
    refine h.sub rfl fun id p h1 => ?_
    simp only [BMap.get_erase] at h1
    split at h1
    · cases h1
    · rename_i e
      exact ⟨h1, by simp only [State.upd, BMap.get_insert, if_neg e]⟩
  | self x t n p y q ty ht hcn he hp hin hy hq hne hty =>
    refine h.sub (by simp [State.upd]) fun id p h1 => ?_
    simp only [task_pending, BMap.get_erase] at h1
    split at h1
    · cases h1
    · rename_i e1
      split at h1
      · cases h1
      · rename_i e2
        refine ⟨h1, ?_⟩
        rw [task_get, if_neg e2, task_get, if_neg e1]
        simp only [State.upd, BMap.get_insert, if_neg e2]
  | message x t ht => exact h.upd ht (by nofun)
  | misHandshake x t p ht => exact h.upd ht (by nofun)
  | misbehaved x t ht => exact h.upd ht (by nofun)
  | closed x t ht =>
    refine h.sub rfl fun id p h1 => ?_
    simp only [BMap.get_erase] at h1
    split at h1
    · cases h1
    · rename_i e
      exact ⟨h1, by simp only [State.upd, BMap.get_insert, if_neg e]⟩
  | acceptNone => exact h
  | accepted x p hp hpa =>
    refine h.sub (by simp) fun id p h1 => ?_
    rw [task_pending] at h1
    have : id ≠ x := by
      rintro rfl
      rw [(hi.peer _ _ hp).1] at h1; cases h1
    exact ⟨h1, by rw [task_get, if_neg this]⟩
  | toldNone => exact h
  | told x => exact h.task _ fun t => ⟨rfl, fun _ => rfl, rfl⟩
  | wroteNone => exact h
  | wrote x => exact h.task _ fun t => ⟨rfl, fun h => h, rfl⟩
  | enable b =>
    rw [enableNet_eq]
    split
    · rename_i hb
      obtain ⟨f1, f2, f3, f4, f5, f6, f7⟩ := tell_fields s.ids { s with enabled := false }
      have key : ∀ id p t, s.pending.get id = some p →
          (({ s with enabled := false } : State).tell s.ids).tasks.get id = some t → t.told = true := by
        intro id p t h1 h2
        have hm : id ∈ s.ids := by
          unfold State.ids
          rw [List.mem_append]
          right
          exact List.mem_map.mpr ⟨(id, p), BMap.mem_entries.mpr h1, rfl⟩
        rw [tell_get] at h2
        simp only [hm, if_true] at h2
        cases hg : s.tasks.get id with
        | none => simp [hg] at h2
        | some t0 => simp [hg] at h2; rw [← h2]
      exact ⟨fun _ id p t h1 h2 => key id p t (by rw [f1] at h1; exact h1) h2,
        fun id p t h1 h2 _ => .inl (key id p t (by rw [f1] at h1; exact h1) h2)⟩
    · rename_i hb
      refine ⟨fun h0 id p t h1 h2 => ?_, h.live⟩
      change b = false at h0
      exact h.told (by cases hh : s.enabled <;> simp_all) id p t h1 h2

theorem CanEnd.run {s s' : State} {es : List Event} {o : List Out} (hi : Inv s) (h : CanEnd s)
    (hc : Calm s.enabled es) (hr : s.run es = .ok (s', o)) : CanEnd s' := by
  induction es generalizing s o with
  | nil => cases hr; exact h
  | cons e es ih =>
    obtain ⟨s1, o1, o2, h1, h2, rfl⟩ := run_cons hr
    have hs := step_ok h1
    have he := step_enabled hs
    have hc' : (∀ a r, e = .dialled a (some r) → s.enabled = true) ∧ Calm s1.enabled es := by
      rw [he]
      cases e with
      | dialled a r =>
        cases r with
        | none => exact ⟨by nofun, hc⟩
        | some r => exact ⟨fun _ _ _ => hc.1, hc.2⟩
      | _ => exact ⟨by nofun, hc⟩
    exact ih (hi.step hs) (h.step hi hs hc'.1) hc'.2 h2

theorem CanEnd.init (b : Bool) (m : Nat) : CanEnd (State.init b m) := by
  refine ⟨?_, ?_⟩
  · intro _ _ _ _ h; cases h
  · intro _ _ _ h; cases h

/-! ### Connections which cannot end -/

/-- An outbound connection whose handshake is over, and which the backend forgot about. -/
def Stuck (s : State) (id : Nat) (a : Addr) (n : Nat) : Prop :=
  s.pending.get id = some ⟨a, .outbound n⟩ ∧ s.tasks.get id = some ⟨false, .informed, false, false, false⟩

theorem Stuck.step {s s' : State} {e : Event} {o : List Out} {id : Nat} {a : Addr} {n : Nat}
    (hi : Inv s) (h : Stuck s id a n) (hs : Step s e s' o) (h1 : e ≠ .enable false)
    (h2 : ∀ x al, e ≠ .peer x (.info n al)) : Stuck s' id a n := by
  obtain ⟨g1, g2⟩ := h
  have hpn := hi.peer_none_of_pending g1
  have hlt := hi.lt _ _ g2
  have upd : ∀ x t e, s.tasks.get x = some t → t.can e = true → x ≠ id := by
    rintro x t e ht hc rfl
    rw [g2] at ht
    cases ht
    cases e <;> simp [Task.can] at hc
  have tu : ∀ x t, x ≠ id → (s.upd x t).tasks.get id = some ⟨false, .informed, false, false, false⟩ := by
    intro x t hx
    simp only [State.upd, BMap.get_insert_ne _ _ (Ne.symm hx)]
    exact g2
  cases hs with
  | connect b => exact ⟨g1, g2⟩
  | dialFail b ha => exact ⟨g1, g2⟩
  | dialOk b m ha =>
    refine ⟨?_, ?_⟩ <;> simp only [State.added, BMap.get_insert] <;> rw [if_neg (by omega)] <;> assumption
  | ignored => exact ⟨g1, g2⟩
  | incoming b _ _ =>
    refine ⟨?_, ?_⟩ <;> simp only [State.added, BMap.get_insert] <;> rw [if_neg (by omega)] <;> assumption
  | quiet x t e ht hc => exact ⟨g1, tu _ _ (upd _ _ _ ht hc)⟩
  | opened x t m al p ht hc he hp hn =>
    have hx := upd _ _ _ ht hc
    exact ⟨by simp only [BMap.get_erase_ne _ (Ne.symm hx)]; exact g1, tu _ _ hx⟩
  | self x t m p y q ty ht hc he hp hin hy hq hne hty =>
    have hx := upd _ _ _ ht hc
    have hyy : y ≠ id := by
      rintro rfl
      rw [g1] at hy
      cases hy
      cases hq
      exact h2 _ _ rfl
    refine ⟨?_, ?_⟩
    · simp only [task_pending, BMap.get_erase_ne _ (Ne.symm hx), BMap.get_erase_ne _ (Ne.symm hyy)]
      exact g1
    · rw [task_get, if_neg (Ne.symm hx), task_get, if_neg (Ne.symm hyy)]
      exact tu _ _ hx
  | message x t ht hc => exact ⟨g1, tu _ _ (upd _ _ _ ht hc)⟩
  | misHandshake x t p ht hc => exact ⟨g1, tu _ _ (upd _ _ _ ht hc)⟩
  | misbehaved x t ht hc => exact ⟨g1, tu _ _ (upd _ _ _ ht hc)⟩
  | closed x t ht hc =>
    have hx := upd _ _ _ ht hc
    exact ⟨by simp only [BMap.get_erase_ne _ (Ne.symm hx)]; exact g1, tu _ _ hx⟩
  | acceptNone => exact ⟨g1, g2⟩
  | accepted x p hp hpa =>
    have hx : id ≠ x := by rintro rfl; rw [hpn] at hp; cases hp
    exact ⟨by simpa using g1, by rw [task_get, if_neg hx]; exact g2⟩
  | toldNone => exact ⟨g1, g2⟩
  | told x hp =>
    have hx : id ≠ x := by rintro rfl; simp [BMap.contains, hpn] at hp
    exact ⟨by simpa using g1, by rw [task_get, if_neg hx]; exact g2⟩
  | wroteNone => exact ⟨g1, g2⟩
  | wrote x hp =>
    have hx : id ≠ x := by rintro rfl; simp [BMap.contains, hpn] at hp
    exact ⟨by simpa using g1, by rw [task_get, if_neg hx]; exact g2⟩
  | enable b =>
    cases b with
    | false => exact absurd rfl h1
    | true =>
      rw [enableNet_eq, if_neg (by simp)]
      exact ⟨g1, g2⟩

theorem Stuck.run {s s' : State} {es : List Event} {o : List Out} {id : Nat} {a : Addr} {n : Nat}
    (hi : Inv s) (h : Stuck s id a n) (h1 : Event.enable false ∉ es)
    (h2 : ∀ x al, Event.peer x (.info n al) ∉ es) (hr : s.run es = .ok (s', o)) : Stuck s' id a n := by
  induction es generalizing s o with
  | nil => cases hr; exact h
  | cons e es ih =>
    obtain ⟨s1, o1, o2, g1, g2, rfl⟩ := run_cons hr
    have hs := step_ok g1
    exact ih (hi.step hs)
      (h.step hi hs (fun h => h1 (by simp [h])) (fun x al h => h2 x al (by simp [h])))
      (fun h => h1 (by simp [h])) (fun x al h => h2 x al (by simp [h])) g2

end Verif.Conn
