import Verif.TxOrphans.Queue

/-! # Fairness of the work queue -/

namespace Verif.TxOrphans

/-- Calls of the work queue. -/
inductive QOp (R : Type)
  | insert (r : Rnd) (peer item : Nat)
  | remove (peer : Nat)
  | pick (r : Rnd) (h : Nat → Nat → Option R)

/-- A call; the peer that is served, if any. -/
def stepQ {R : Type} (q : Queue) : QOp R → Option (Queue × Option Nat)
  | .insert r p x => some (q.insert r p x, none)
  | .remove p => some (q.removePeer p, none)
  | .pick r h => (q.pick r h).map (fun a => (a.1, a.2.1))

/-- A sequence of calls; the peers served, in order. -/
def runQ {R : Type} : List (QOp R) → Queue → Option (Queue × List Nat)
  | [], q => some (q, [])
  | op :: t, q =>
    (stepQ q op).bind (fun a => (runQ t a.1).map (fun b => (b.1, a.2.toList ++ b.2)))

/-- No work is inserted for a peer after it was removed (`gone`: removed before). -/
def QuietQ {R : Type} : (Nat → Prop) → List (QOp R) → Prop
  | _, [] => True
  | gone, .insert _ p _ :: t => ¬ gone p ∧ QuietQ gone t
  | gone, .remove p :: t => QuietQ (fun x => x = p ∨ gone x) t
  | gone, .pick _ _ :: t => QuietQ gone t

/-- The peer can be served in this round. -/
def Turn (q : Queue) (gone : Nat → Prop) (p : Nat) : Prop :=
  (q.items.get p = none ∧ ¬ gone p) ∨ (q.items.get p ≠ none ∧ p ∈ q.sched)

open Classical in
/-- How often `p` can be served before `w` is. -/
noncomputable def turns (q : Queue) (gone : Nat → Prop) (p w : Nat) : Nat :=
  (if Turn q gone p then 1 else 0) + (if w ∈ q.sched then 0 else 1)

theorem turns_le {q q' : Queue} {gone gone' : Nat → Prop} {p w : Nat} (h1 : Turn q' gone' p → Turn q gone p)
    (h2 : w ∈ q.sched → w ∈ q'.sched) : turns q' gone' p w ≤ turns q gone p w := by
  unfold turns
  by_cases a : Turn q' gone' p
  · rw [if_pos a, if_pos (h1 a)]
    by_cases b : w ∈ q.sched
    · rw [if_pos b, if_pos (h2 b)]
    · rw [if_neg b]; split <;> omega
  · rw [if_neg a]
    by_cases b : w ∈ q.sched
    · rw [if_pos b, if_pos (h2 b)]; split <;> omega
    · rw [if_neg b]; split <;> split <;> omega

theorem turns_round {q q' : Queue} {gone : Nat → Prop} {p w : Nat} (h1 : w ∉ q.sched) (h2 : w ∈ q'.sched) :
    turns q' gone p w ≤ 1 ∧ 1 ≤ turns q gone p w ∧ (Turn q gone p → turns q gone p w = 2) := by
  unfold turns
  rw [if_pos h2, if_neg h1]
  refine ⟨by split <;> omega, by omega, fun h => by rw [if_pos h]⟩

theorem turns_le_two (q : Queue) (gone : Nat → Prop) (p w : Nat) : turns q gone p w ≤ 2 := by
  unfold turns
  split <;> split <;> omega

open Classical in
theorem pickLoop_turns {R : Type} (r : Rnd) (h : Nat → Nat → Option R) {gone : Nat → Prop} {p w x : Nat} (hpw : p ≠ w) :
    ∀ (fuel : Nat) {q q' : Queue} {served : Option Nat} {o : Option R}, QOk q gone → q.Has w x →
      Queue.pickLoop r h fuel q = some (q', served, o) → served ≠ some w →
      turns q' gone p w + (if served = some p then 1 else 0) ≤ turns q gone p w ∧ q'.Has w x := by
  intro fuel
  induction fuel with
  | zero => intro q q' served o _ _ hr; rw [Queue.pickLoop] at hr; cases hr
  | succ n ih =>
    intro q q' served o hq hw hr hs
    rw [Queue.pickLoop] at hr
    cases hl : q.sched.getLast? with
    | none =>
      rw [hl] at hr
      cases hr
      exact ⟨by simp, hw⟩
    | some peer =>
      rw [hl] at hr
      simp only at hr
      have hpm : peer ∈ q.sched := List.mem_of_getLast? hl
      have hdl : ∀ x, x ∈ q.sched.dropLast ↔ x ∈ q.sched ∧ x ≠ peer := fun x => dropLast_sub hl hq.nodup
      obtain ⟨sw, hsw, hxw⟩ := hw
      have hnew : ∀ {m : BMap Nat (BMap Nat Unit)}, q.sched.dropLast = [] → m.get w = some sw →
          w ∈ (Queue.advance ⟨m, q.sched.dropLast⟩ r).sched := by
        intro m hd hm
        exact ((advance_new (q := ⟨m, q.sched.dropLast⟩) r hd).2.2 w).2 ⟨sw, hm, nonempty_iff.2 ⟨x, hxw⟩⟩
      cases hg : q.items.get peer with
      | none =>
        rw [hg] at hr
        simp only at hr
        have hne : w ≠ peer := by
          rintro rfl; rw [hg] at hsw; cases hsw
        have ok1 : QOk ⟨q.items, q.sched.dropLast⟩ gone :=
          ⟨hq.nodup.sublist (List.dropLast_sublist _), fun p hp => hq.work p ((hdl p).1 hp).1,
            fun p hp => hq.gone p ((hdl p).1 hp).1⟩
        have hw1 : (Queue.advance ⟨q.items, q.sched.dropLast⟩ r).Has w x := (advance_has _ r w x).2 ⟨sw, hsw, hxw⟩
        obtain ⟨h1, h2⟩ := ih (advance_ok r ok1) hw1 hr hs
        refine ⟨le_trans h1 ?_, h2⟩
        by_cases hd : q.sched.dropLast = []
        · have hwn : w ∉ q.sched := by
            intro hc
            have := (hdl w).2 ⟨hc, hne⟩
            rw [hd] at this; cases this
          obtain ⟨a1, a2, _⟩ := turns_round (q := q) (gone := gone) (p := p) hwn (hnew hd hsw)
          omega
        · rw [advance_busy r hd]
          apply turns_le
          · rintro (⟨h3, h4⟩ | ⟨h3, h4⟩)
            · exact Or.inl ⟨h3, h4⟩
            · exact Or.inr ⟨h3, ((hdl p).1 h4).1⟩
          · intro hc; exact (hdl w).2 ⟨hc, hne⟩
      | some s =>
        rw [hg] at hr
        simp only at hr
        split at hr
        · cases hr
        · generalize pickItems (h peer) s.entries s = res at hr
          obtain ⟨s', o'⟩ := res
          simp only at hr
          cases hr
          have hne : w ≠ peer := fun hc => hs (by rw [hc])
          have hsw' : (q.items.insert peer s').get w = some sw := by
            rw [BMap.get_insert_ne _ _ hne]; exact hsw
          refine ⟨?_, (advance_has _ r w x).2 ⟨sw, hsw', hxw⟩⟩
          by_cases hd : q.sched.dropLast = []
          · have hwn : w ∉ q.sched := by
              intro hc
              have := (hdl w).2 ⟨hc, hne⟩
              rw [hd] at this; cases this
            obtain ⟨a1, a2, a3⟩ := turns_round (q := q) (gone := gone) (p := p) hwn (hnew hd hsw')
            by_cases hp : peer = p
            · rw [if_pos (by rw [hp])]
              have : Turn q gone p := Or.inr ⟨by rw [← hp, hg]; simp, by rw [← hp]; exact hpm⟩
              have := a3 this
              omega
            · rw [if_neg (fun hc => hp (Option.some.inj hc))]
              omega
          · rw [advance_busy r hd]
            by_cases hp : peer = p
            · subst hp
              rw [if_pos rfl]
              have t1 : Turn q gone peer := Or.inr ⟨by rw [hg]; simp, hpm⟩
              have t2 : ¬ Turn ⟨q.items.insert peer s', q.sched.dropLast⟩ gone peer := by
                rintro (⟨h3, _⟩ | ⟨_, h4⟩)
                · have h3' : (q.items.insert peer s').get peer = none := h3
                  rw [BMap.get_insert, if_pos rfl] at h3'; cases h3'
                · exact ((hdl peer).1 h4).2 rfl
              unfold turns
              rw [if_pos t1, if_neg t2]
              by_cases b : w ∈ q.sched
              · rw [if_pos b, if_pos ((hdl w).2 ⟨b, hne⟩)]
              · rw [if_neg b, if_neg (fun hc => b ((hdl w).1 hc).1)]
            · rw [if_neg (fun hc => hp (Option.some.inj hc))]
              have hp' : p ≠ peer := fun hc => hp hc.symm
              apply turns_le
              · rintro (⟨h3, h4⟩ | ⟨h3, h4⟩)
                · have h3' : (q.items.insert peer s').get p = none := h3
                  rw [BMap.get_insert_ne _ _ hp'] at h3'
                  exact Or.inl ⟨h3', h4⟩
                · have h3' : (q.items.insert peer s').get p ≠ none := h3
                  rw [BMap.get_insert_ne _ _ hp'] at h3'
                  exact Or.inr ⟨h3', ((hdl p).1 h4).1⟩
              · intro hc; exact (hdl w).2 ⟨hc, hne⟩

theorem insert_turns {q : Queue} {gone : Nat → Prop} (hq : QOk q gone) (r : Rnd) {y : Nat} (i : Nat) (hy : ¬ gone y) (p w : Nat) :
    turns (q.insert r y i) gone p w ≤ turns q gone p w := by
  unfold Queue.insert
  cases hg : q.items.get y with
  | some s =>
    apply turns_le
    · by_cases hp : p = y
      · subst hp
        rintro (⟨h3, h4⟩ | ⟨h3, h4⟩)
        · have h3' : (q.items.insert p (s.insert i ())).get p = none := h3
          rw [BMap.get_insert, if_pos rfl] at h3'; cases h3'
        · exact Or.inr ⟨by rw [hg]; simp, h4⟩
      · rintro (⟨h3, h4⟩ | ⟨h3, h4⟩)
        · have h3' : (q.items.insert y (s.insert i ())).get p = none := h3
          rw [BMap.get_insert_ne _ _ hp] at h3'
          exact Or.inl ⟨h3', h4⟩
        · have h3' : (q.items.insert y (s.insert i ())).get p ≠ none := h3
          rw [BMap.get_insert_ne _ _ hp] at h3'
          exact Or.inr ⟨h3', h4⟩
    · exact fun h => h
  | none =>
    have hperm := pushAt_perm q.sched (r.draw 0 (q.sched.length + 1)) y
    apply turns_le
    · by_cases hp : p = y
      · subst hp
        intro _
        exact Or.inl ⟨hg, hy⟩
      · rintro (⟨h3, h4⟩ | ⟨h3, h4⟩)
        · have h3' : (q.items.insert y (BMap.empty.insert i ())).get p = none := h3
          rw [BMap.get_insert_ne _ _ hp] at h3'
          exact Or.inl ⟨h3', h4⟩
        · have h3' : (q.items.insert y (BMap.empty.insert i ())).get p ≠ none := h3
          rw [BMap.get_insert_ne _ _ hp] at h3'
          refine Or.inr ⟨h3', ?_⟩
          rcases List.mem_cons.1 (hperm.subset h4) with h5 | h5
          · exact absurd h5 hp
          · exact h5
    · intro h
      exact hperm.symm.subset (List.mem_cons_of_mem _ h)

theorem remove_turns (q : Queue) (gone : Nat → Prop) (y p w : Nat) :
    turns (q.removePeer y) (fun x => x = y ∨ gone x) p w ≤ turns q gone p w := by
  apply turns_le
  · by_cases hp : p = y
    · subst hp
      rintro (⟨_, h4⟩ | ⟨h3, _⟩)
      · exact absurd (Or.inl rfl) h4
      · have h3' : (q.items.erase p).get p ≠ none := h3
        rw [BMap.get_erase, if_pos rfl] at h3'
        exact absurd rfl h3'
    · rintro (⟨h3, h4⟩ | ⟨h3, h4⟩)
      · have h3' : (q.items.erase y).get p = none := h3
        rw [BMap.get_erase_ne _ hp] at h3'
        exact Or.inl ⟨h3', fun hc => h4 (Or.inr hc)⟩
      · have h3' : (q.items.erase y).get p ≠ none := h3
        rw [BMap.get_erase_ne _ hp] at h3'
        exact Or.inr ⟨h3', h4⟩
  · exact fun h => h

/-- The peer is not removed in these calls. -/
def Stays {R : Type} (w : Nat) (ops : List (QOp R)) : Prop := ∀ op ∈ ops, op ≠ .remove w

theorem run_turns {R : Type} {p w x : Nat} (hpw : p ≠ w) : ∀ (ops : List (QOp R)) {gone : Nat → Prop} {q q' : Queue} {l : List Nat},
    QOk q gone → QDone q → q.Has w x → QuietQ gone ops → Stays w ops → runQ ops q = some (q', l) → w ∉ l →
    l.count p ≤ turns q gone p w := by
  intro ops
  induction ops with
  | nil =>
    intro gone q q' l _ _ _ _ _ hr _
    cases hr
    simp
  | cons op t ih =>
    intro gone q q' l hq hd hw hquiet hst hr hl
    have hst' : Stays w t := fun o ho => hst o (List.mem_cons_of_mem _ ho)
    rw [runQ] at hr
    obtain ⟨⟨q1, sv⟩, h1, h2⟩ := Option.bind_eq_some_iff.1 hr
    obtain ⟨⟨q2, l2⟩, h3, h4⟩ := Option.map_eq_some_iff.1 h2
    cases h4
    cases op with
    | insert r y i =>
      cases h1
      obtain ⟨a1, a2⟩ := hquiet
      have := ih (insert_ok hq r i a1) (insert_done hd r y i) ((insert_has q r y i w x).2 (Or.inr hw)) a2 hst' h3 hl
      exact le_trans this (insert_turns hq r i a1 p w)
    | remove y =>
      cases h1
      have hne : w ≠ y := fun hc => hst _ List.mem_cons_self (by rw [hc])
      have := ih (removePeer_ok hq y) (removePeer_done hd y) ((removePeer_has q y w x).2 ⟨hne, hw⟩) hquiet hst' h3 hl
      exact le_trans this (remove_turns q gone y p w)
    | pick r h =>
      obtain ⟨⟨q3, sv3, o⟩, h5, h6⟩ := Option.map_eq_some_iff.1 h1
      cases h6
      have hnw : sv3 ≠ some w := by
        rintro rfl
        exact hl (List.mem_append_left _ (by simp))
      obtain ⟨b1, b2⟩ := pickLoop_turns r h hpw _ hq hw h5 hnw
      obtain ⟨q4, s4, o4, c1, c2, c3, _⟩ := pick_spec r h hq hd
      rw [c1] at h5
      cases h5
      have := ih c2 c3 b2 hquiet hst' h3 (fun hc => hl (List.mem_append_right _ hc))
      show (sv3.toList ++ l2).count p ≤ _
      rw [List.count_append]
      have hcnt : sv3.toList.count p ≤ if sv3 = some p then 1 else 0 := by
        cases sv3 with
        | none => simp
        | some y =>
          by_cases hy : y = p
          · subst hy; simp
          · have : some y ≠ some p := fun hc => hy (Option.some.inj hc)
            rw [if_neg this]; simp [hy]
      have hb : turns q3 gone p w + (if sv3 = some p then 1 else 0) ≤ turns q gone p w := by
        have b1' := b1
        by_cases hsv : sv3 = some p
        · rw [if_pos hsv] at b1' ⊢; exact b1'
        · rw [if_neg hsv] at b1' ⊢; exact b1'
      omega

theorem qok_new : QOk Queue.new (fun _ => False) ∧ QDone Queue.new :=
  ⟨⟨List.nodup_nil, fun p hp => (by cases hp), fun p hp => (by cases hp)⟩, fun _ _ => rfl⟩

/-- Every sequence of calls in which no work comes in for a removed peer is carried out. -/
theorem run_ok {R : Type} : ∀ (ops : List (QOp R)) {gone : Nat → Prop} {q : Queue}, QOk q gone → QDone q → QuietQ gone ops →
    ∃ q' l, runQ ops q = some (q', l) ∧ QDone q' ∧
      ∀ post, QuietQ gone (ops ++ post) → ∃ gone', QOk q' gone' ∧ QuietQ gone' post := by
  intro ops
  induction ops with
  | nil => intro gone q hq hd _; exact ⟨q, [], rfl, hd, fun post hp => ⟨gone, hq, hp⟩⟩
  | cons op t ih =>
    intro gone q hq hd hquiet
    cases op with
    | insert r y i =>
      obtain ⟨q', l, h1, h2, h3⟩ := ih (insert_ok hq r i hquiet.1) (insert_done hd r y i) hquiet.2
      exact ⟨q', l, by rw [runQ]; simp [stepQ, h1], h2, fun post hp => h3 post hp.2⟩
    | remove y =>
      obtain ⟨q', l, h1, h2, h3⟩ := ih (removePeer_ok hq y) (removePeer_done hd y) hquiet
      exact ⟨q', l, by rw [runQ]; simp [stepQ, h1], h2, h3⟩
    | pick r h =>
      obtain ⟨q4, s4, o4, c1, c2, c3, _⟩ := pick_spec r h hq hd
      obtain ⟨q', l, h1, h2, h3⟩ := ih c2 c3 hquiet
      exact ⟨q', s4.toList ++ l, by rw [runQ]; simp [stepQ, c1, h1], h2, h3⟩

theorem quiet_prefix {R : Type} : ∀ (ops : List (QOp R)) {post : List (QOp R)} {gone : Nat → Prop}, QuietQ gone (ops ++ post) →
    QuietQ gone ops
  | [], _, _, _ => trivial
  | .insert _ _ _ :: t, _, _, h => ⟨h.1, quiet_prefix t h.2⟩
  | .remove _ :: t, _, _, h => quiet_prefix t (gone := _) h
  | .pick _ _ :: t, _, _, h => quiet_prefix t (gone := _) h

end Verif.TxOrphans
