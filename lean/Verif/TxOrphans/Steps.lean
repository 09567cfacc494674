import Verif.TxOrphans.Spec
import Verif.TxOrphans.Ops

/-! # One event -/

namespace Verif.TxOrphans
open Verif.Mempool (Dep Tx)

/-! ### What a successful `pick` does, whatever the state of the queue -/

theorem pickLoop_picked {R : Type} (r : Rnd) (h : Nat → Nat → Option R) : ∀ (fuel : Nat) {q q' : Queue} {served : Option Nat}
    {o : Option R}, QDone q → Queue.pickLoop r h fuel q = some (q', served, o) → QDone q' ∧ Picked h q q' served o := by
  intro fuel
  induction fuel with
  | zero => intro q q' served o _ hr; rw [Queue.pickLoop] at hr; cases hr
  | succ n ih =>
    intro q q' served o hd hr
    rw [Queue.pickLoop] at hr
    cases hl : q.sched.getLast? with
    | none =>
      rw [hl] at hr
      cases hr
      have hs : q.sched = [] := List.getLast?_eq_none_iff.1 hl
      refine ⟨hd, ⟨fun _ => ⟨rfl, hs, ?_⟩, fun p hp => (by cases hp)⟩⟩
      rintro p x ⟨s, h1, _⟩
      rw [hd hs p] at h1; cases h1
    | some peer =>
      rw [hl] at hr
      simp only at hr
      cases hg : q.items.get peer with
      | none =>
        rw [hg] at hr
        simp only at hr
        obtain ⟨h3, h4⟩ := ih (advance_done _ r) hr
        refine ⟨h3, ⟨?_, ?_⟩⟩
        · intro hs
          obtain ⟨a1, a2, a3⟩ := h4.none hs
          exact ⟨a1, a2, fun p x hx => a3 p x ((advance_has _ r p x).2 hx)⟩
        · intro p hs
          obtain ⟨s, s', b1, b2, b3, b4, b5, b6⟩ := h4.some p hs
          have b1' : q.items.get p = some s := by
            by_cases hs2 : q.sched.dropLast = []
            · obtain ⟨a1, _, _⟩ := advance_new (q := ⟨q.items, q.sched.dropLast⟩) r hs2
              rw [a1] at b1
              exact ((get_kept _ _ _).1 b1).1
            · rw [advance_busy r hs2] at b1; exact b1
          refine ⟨s, s', b1', b2, b3, b4, ?_, ?_⟩
          · intro p' hp' x
            rw [b5 p' hp' x, advance_has]
            exact Iff.rfl
          · rw [advance_total] at b6; exact b6
      | some s =>
        rw [hg] at hr
        simp only at hr
        split at hr
        · cases hr
        · next hne =>
          have hne' : s.entries ≠ [] := by simpa using hne
          have htook := pickItems_spec (h peer) s
          generalize pickItems (h peer) s.entries s = res at htook hr
          obtain ⟨s', o'⟩ := res
          simp only at hr htook
          cases hr
          refine ⟨advance_done _ r, ⟨fun hc => (by cases hc), ?_⟩⟩
          intro p hp
          cases hp
          refine ⟨s, s', hg, hne', htook, ?_, ?_, ?_⟩
          · intro x
            rw [advance_has]
            unfold Queue.Has
            simp only
            rw [BMap.get_insert, if_pos rfl]
            constructor
            · rintro ⟨a, ha, hx⟩; cases ha; exact hx
            · intro hx; exact ⟨s', rfl, hx⟩
          · intro p' hp' x
            rw [advance_has]
            unfold Queue.Has
            simp only
            rw [BMap.get_insert_ne _ _ hp']
          · rw [advance_total]
            exact serve_total hg (htook.shorter hne')

/-! ### Children -/

theorem enqueue_has : ∀ (l : List Entry) (rs : Nat → Rnd) (q : Queue) (p x : Nat),
    (enqueue rs q l).Has p x ↔ q.Has p x ∨ ∃ e ∈ l, e.peer = p ∧ e.tx.id = x
  | [], rs, q, p, x => by
    rw [enqueue]
    constructor
    · intro h; exact Or.inl h
    · rintro (h | ⟨_, h, _⟩)
      · exact h
      · cases h
  | e :: t, rs, q, p, x => by
    rw [enqueue, enqueue_has t, insert_has]
    constructor
    · rintro ((⟨h1, h2⟩ | h) | ⟨e', he', h⟩)
      · exact Or.inr ⟨e, List.mem_cons_self, h1.symm, h2.symm⟩
      · exact Or.inl h
      · exact Or.inr ⟨e', List.mem_cons_of_mem _ he', h⟩
    · rintro (h | ⟨e', he', h1, h2⟩)
      · exact Or.inl (Or.inr h)
      · rcases List.mem_cons.1 he' with rfl | he'
        · exact Or.inl (Or.inl ⟨h1.symm, h2.symm⟩)
        · exact Or.inr ⟨e', he', h1, h2⟩

theorem enqueue_done : ∀ (l : List Entry) (rs : Nat → Rnd) {q : Queue}, QDone q → QDone (enqueue rs q l)
  | [], _, _, h => h
  | e :: t, rs, q, h => by
    rw [enqueue]
    exact enqueue_done t _ (insert_done h _ _ _)

theorem enqueue_ok : ∀ (l : List Entry) (rs : Nat → Rnd) {q : Queue} {gone : Nat → Prop}, QOk q gone →
    (∀ e ∈ l, ¬ gone e.peer) → QOk (enqueue rs q l) gone
  | [], _, _, _, h, _ => h
  | e :: t, rs, q, gone, h, hg => by
    rw [enqueue]
    exact enqueue_ok t _ (insert_ok h _ _ (hg e List.mem_cons_self)) (fun e' he' => hg e' (List.mem_cons_of_mem _ he'))

/-! ### The invariant of the pool -/

/-- The pool is in order and not too big. -/
structure Good (p : Pool) : Prop where
  ok : PoolOk p
  small : p.txs.length ≤ capacity

theorem Good.hard {p : Pool} (h : Good p) : p.txs.length ≤ hardLimit := le_trans h.small (by unfold capacity hardLimit; omega)

theorem good_new : Good Pool.new := ⟨poolOk_new, Nat.zero_le _⟩

theorem Good.without {p p' : Pool} {g : List Entry} (h : Good p) (hw : Without p p' g) : Good p' :=
  ⟨hw.1, by have := hw.length; have := h.small; omega⟩

/-- A rejected transaction on its way to the orphan pool. -/
theorem asOrphan_some {t : Tx} {origin : Option Nat} {why : Reject} {rbf : Bool} {e : Entry} (h : asOrphan t origin why rbf = some e) :
    e.tx = t ∧ origin = some e.peer ∧ t.size ≤ 20000 ∧ rbf = true ∧
      (why = .missingUtxo ∨ ∃ a b, why = .nonce a b ∧ a ≤ b ∧ b - a ≤ 2) := by
  unfold asOrphan at h
  obtain ⟨ty, h1, h2⟩ := Option.bind_eq_some_iff.1 h
  unfold policy at h2
  cases origin with
  | none => cases h2
  | some p =>
    simp only at h2
    split at h2
    · next hc =>
      cases h2
      refine ⟨rfl, rfl, hc.1, hc.2.2, ?_⟩
      cases why with
      | missingUtxo => exact Or.inl rfl
      | nonce a b =>
        right
        simp only [orphanType] at h1
        split at h1
        · next hab =>
          cases h1
          exact ⟨a, b, rfl, hab, hc.2.1⟩
        · cases h1
      | other => cases h1
    · cases h2

/-- Whatever the transaction pool answers, the call ends. -/
inductive Finalized (s s' : State) (d : Dice) (now : Nat) (t : Tx) (origin : Option Nat) : Outcome → Prop
  | added (l : List Entry) (h1 : ∀ e, e ∈ l ↔ e ∈ s.orphans.txs ∧ ChildOf e t) (h2 : s'.orphans = s.orphans)
      (h3 : s'.work = enqueue d.children s.work l) : Finalized s s' d now t origin .added
  | same {o : Outcome} (ho : o ≠ .added) (hn : ∀ why rbf, o = .rejected why rbf → asOrphan t origin why rbf = none)
      (h : s' = s) : Finalized s s' d now t origin o
  | orphan {why : Reject} {rbf : Bool} {e : Entry} {st : Status} (h1 : asOrphan t origin why rbf = some e)
      (h2 : s.orphans.insertAndEnforce d.pool e now = some (s'.orphans, st))
      (h3 : s'.work = s.work) : Finalized s s' d now t origin (.rejected why rbf)

theorem maxIndex_lt {n : Nat} : n ≤ maxIndex ↔ n < 2 ^ 32 := by unfold maxIndex; omega

theorem finalize_spec {s : State} (h : Good s.orphans) (d : Dice) (now : Nat) (t : Tx) (origin : Option Nat) (o : Outcome) :
    ∃ s', s.finalize d now t origin o = some s' ∧ Finalized s s' d now t origin o := by
  cases o with
  | added =>
    obtain ⟨l, h1, h2⟩ := children_spec h.ok h.hard t
    refine ⟨⟨s.orphans, enqueue d.children s.work l⟩, by rw [State.finalize, h1]; rfl, .added l ?_ rfl rfl⟩
    intro e
    rw [h2 e]
    unfold ChildOf
    simp only [maxIndex_lt]
  | duplicate => exact ⟨s, rfl, .same (by nofun) (fun _ _ hc => (by cases hc)) rfl⟩
  | failed => exact ⟨s, rfl, .same (by nofun) (fun _ _ hc => (by cases hc)) rfl⟩
  | rejected why rbf =>
    cases ha : asOrphan t origin why rbf with
    | none =>
      refine ⟨s, by rw [State.finalize, ha], .same (by nofun) ?_ rfl⟩
      intro w r hc
      cases hc
      exact ha
    | some e =>
      obtain ⟨p', st, _, _, _, _, h1, _⟩ := insertAndEnforce_spec h.ok h.small d.pool e now
      exact ⟨⟨p', s.work⟩, by rw [State.finalize, ha]; simp [h1], .orphan ha h1 rfl⟩

theorem finalize_finalized {s s' : State} (h : Good s.orphans) {d : Dice} {now : Nat} {t : Tx} {origin : Option Nat} {o : Outcome}
    (hf : s.finalize d now t origin o = some s') : Finalized s s' d now t origin o := by
  obtain ⟨s2, h1, h2⟩ := finalize_spec h d now t origin o
  rw [h1] at hf
  cases hf
  exact h2

/-- The orphans afterwards are among those before and the new one. -/
theorem insertAndEnforce_mem {p p' : Pool} (h : Good p) {r : Rnd} {e : Entry} {now : Nat} {st : Status}
    (hi : p.insertAndEnforce r e now = some (p', st)) : Good p' ∧ ∀ e' ∈ p'.txs, e' ∈ p.txs ∨ e' = e := by
  obtain ⟨p2, s2, p0, p1, old, ev, h1, h2, h3, h4, h5, h6, h7, h8, _⟩ := insertAndEnforce_spec h.ok h.small r e now
  rw [h1] at hi
  cases hi
  refine ⟨⟨h7.1, by omega⟩, ?_⟩
  intro e' he'
  have := h4.mem (h7.mem he')
  rcases h3 with ⟨h3, _⟩ | ⟨h3, _⟩
  · rw [h3] at this
    rcases List.mem_append.1 this with h9 | h9
    · exact Or.inl h9
    · exact Or.inr (List.mem_singleton.1 h9)
  · rw [h3] at this; exact Or.inl this

theorem Finalized.good {s s' : State} {d : Dice} {now : Nat} {t : Tx} {origin : Option Nat} {o : Outcome}
    (hf : Finalized s s' d now t origin o) (h : Good s.orphans) : Good s'.orphans := by
  cases hf with
  | added l h1 h2 h3 => rw [h2]; exact h
  | same _ _ h1 => rw [h1]; exact h
  | orphan h1 h2 h3 => exact (insertAndEnforce_mem h h2).1

theorem Finalized.done {s s' : State} {d : Dice} {now : Nat} {t : Tx} {origin : Option Nat} {o : Outcome}
    (hf : Finalized s s' d now t origin o) (h : QDone s.work) : QDone s'.work := by
  cases hf with
  | added l h1 h2 h3 => rw [h3]; exact enqueue_done l _ h
  | same _ _ h1 => rw [h1]; exact h
  | orphan h1 h2 h3 => rw [h3]; exact h

/-! ### A unit of work -/

theorem look_some {p : Pool} (h : PoolOk p) {x i : Nat} {b : Bool} (hl : State.look p x = some (i, b)) :
    ∃ e, p.txs[i]? = some e ∧ e.tx.id = x ∧ b = p.isReady e := by
  unfold State.look at hl
  cases hg : p.maps.byId.get x with
  | none => rw [hg] at hl; cases hl
  | some j =>
    obtain ⟨e, he, hid⟩ := (h.id _ _).1 hg
    rw [hg] at hl
    simp only [he] at hl
    cases hl
    exact ⟨e, he, hid, rfl⟩

theorem look_none {p : Pool} (h : PoolOk p) {x : Nat} (hl : State.look p x = none) {e : Entry} (he : e ∈ p.txs) : e.tx.id ≠ x := by
  intro hid
  obtain ⟨i, hi⟩ := List.getElem?_of_mem he
  have hg := (h.id _ _).2 ⟨e, hi, hid⟩
  unfold State.look at hl
  rw [hg] at hl
  simp only [hi] at hl
  cases hl

/-- An orphan that is not ready requires an output of an orphan. -/
theorem not_ready {p : Pool} (h : PoolOk p) {e : Entry} (hr : p.isReady e = false) :
    ∃ u n, Dep.txOutput u n ∈ e.tx.required ∧ ∃ e' ∈ p.txs, e'.tx.id = u := by
  unfold Pool.isReady at hr
  simp only [Bool.not_eq_false', List.any_eq_true] at hr
  obtain ⟨d, hd, hc⟩ := hr
  cases d with
  | txOutput u n => exact ⟨u, n, hd, (contains_iff h u).1 hc⟩
  | _ => cases hc

theorem ready_iff {p : Pool} (h : PoolOk p) (e : Entry) :
    p.isReady e = true ↔ ∀ u n, Dep.txOutput u n ∈ e.tx.required → ∀ e' ∈ p.txs, e'.tx.id ≠ u := by
  constructor
  · intro hr u n hd e' he' hid
    unfold Pool.isReady at hr
    rw [Bool.not_eq_true', List.any_eq_false] at hr
    exact hr _ hd ((contains_iff h u).2 ⟨e', he', hid⟩)
  · intro hall
    cases hr : p.isReady e with
    | true => rfl
    | false =>
      obtain ⟨u, n, h1, e', he', hid⟩ := not_ready h hr
      exact absurd hid (hall u n h1 e' he')

/-- What a unit of work does before the transaction pool is asked. -/
structure Taken (s s1 : State) (oe : Option Entry) (q : Queue) (served : Option Nat) : Prop where
  work : s1.work = q
  picked : ∃ o, Picked (fun _ id => State.look s.orphans id) s.work q served o ∧
    (oe = none → s1.orphans = s.orphans ∧ ∀ i, o ≠ some (i, true)) ∧
    (∀ e, oe = some e → ∃ i, o = some (i, true) ∧ s.orphans.txs[i]? = some e ∧ Without s.orphans s1.orphans [e])

theorem takeWork_spec {s : State} (h : Good s.orphans) {d : Dice} {q : Queue} {served : Option Nat} {o : Option (Nat × Bool)}
    (hp : s.work.pick d.pick (fun _ id => State.look s.orphans id) = some (q, served, o)) (hd : QDone s.work) :
    ∃ s1 oe, s.takeWork d = some (s1, oe) ∧ Taken s s1 oe q served ∧ QDone q := by
  obtain ⟨h1, h2⟩ := pickLoop_picked d.pick _ _ hd hp
  have hnot : ∀ o', o' = o → (∀ i, o' ≠ some (i, true)) →
      ∃ s1 oe, s.takeWork d = some (s1, oe) ∧ Taken s s1 oe q served ∧ QDone q := by
    intro o' ho' hne
    refine ⟨⟨s.orphans, q⟩, none, ?_, ⟨rfl, o, h2, fun _ => ⟨rfl, by rw [← ho']; exact hne⟩, fun e he => (by cases he)⟩, h1⟩
    unfold State.takeWork
    rw [hp, ← ho']
    cases o' with
    | none => rfl
    | some ib =>
      obtain ⟨i, b⟩ := ib
      cases b with
      | true => exact absurd rfl (hne i)
      | false => rfl
  cases ho : o with
  | none => exact hnot none ho.symm (by nofun)
  | some ib =>
    obtain ⟨i, b⟩ := ib
    cases b with
    | false => exact hnot _ ho.symm (by nofun)
    | true =>
      obtain ⟨p, hsv⟩ : ∃ p, served = some p := by
        cases hs : served with
        | none => have := (h2.none hs).1; rw [ho] at this; cases this
        | some p => exact ⟨p, rfl⟩
      obtain ⟨sq, sq', _, _, htook, _⟩ := h2.some p hsv
      obtain ⟨taken, _, _, _, h3⟩ := htook
      obtain ⟨w, _, hw, _⟩ := h3 (i, true) ho
      obtain ⟨e, he, hid, _⟩ := look_some h.ok hw
      obtain ⟨e', p', he', hr, ok1, hperm⟩ := removeAt_spec h.ok (List.getElem?_eq_some_iff.1 he).1
      rw [he] at he'; cases he'
      refine ⟨⟨p', q⟩, some e, ?_, ⟨rfl, o, h2, fun hc => (by cases hc), ?_⟩, h1⟩
      · unfold State.takeWork
        rw [hp, ho]
        simp [hr]
      · intro e2 he2
        cases he2
        exact ⟨i, ho, he, ok1, hperm⟩

/-- A successful call has picked something. -/
theorem takeWork_taken {s s1 : State} (h : Good s.orphans) {d : Dice} {oe : Option Entry} (hd : QDone s.work)
    (ht : s.takeWork d = some (s1, oe)) : ∃ q served, Taken s s1 oe q served ∧ QDone q := by
  cases hp : s.work.pick d.pick (fun _ id => State.look s.orphans id) with
  | none => unfold State.takeWork at ht; rw [hp] at ht; cases ht
  | some x =>
    obtain ⟨q, served, o⟩ := x
    obtain ⟨s2, oe2, h1, h2, h3⟩ := takeWork_spec h hp hd
    rw [h1] at ht
    cases ht
    exact ⟨q, served, h2, h3⟩

theorem Taken.good {s s1 : State} {oe : Option Entry} {q : Queue} {served : Option Nat} (ht : Taken s s1 oe q served)
    (h : Good s.orphans) : Good s1.orphans := by
  obtain ⟨o, _, h1, h2⟩ := ht.picked
  cases oe with
  | none => rw [(h1 rfl).1]; exact h
  | some e =>
    obtain ⟨_, _, _, hw⟩ := h2 e rfl
    exact h.without hw

/-! ### All events -/

theorem workUnit_cases {s s' : State} {d : Dice} {now : Nat} {answer : Entry → Outcome} (hw : s.workUnit d now answer = some s') :
    s.takeWork d = some (s', none) ∨
    ∃ s1 e, s.takeWork d = some (s1, some e) ∧ s1.finalize d now e.tx (some e.peer) (answer e) = some s' := by
  unfold State.workUnit at hw
  cases ht : s.takeWork d with
  | none => rw [ht] at hw; cases hw
  | some x =>
    obtain ⟨s1, oe⟩ := x
    rw [ht] at hw
    cases oe with
    | none => cases hw; exact Or.inl rfl
    | some e => exact Or.inr ⟨s1, e, rfl, hw⟩

/-- The pool stays in order and work does not get lost, whatever happens. -/
theorem step_good {w w' : World} (h : Good w.s.orphans) (hd : QDone w.s.work) {op : Op} (hs : w.step op = some w') :
    Good w'.s.orphans ∧ QDone w'.s.work := by
  cases op with
  | arrive d now t origin o =>
    obtain ⟨s', h1, h2⟩ := Option.map_eq_some_iff.1 hs
    subst h2
    have hf := finalize_finalized h h1
    exact ⟨hf.good h, hf.done hd⟩
  | disconnect p =>
    obtain ⟨s', h1, h2⟩ := Option.map_eq_some_iff.1 hs
    subst h2
    obtain ⟨p', h3, h4⟩ := Option.map_eq_some_iff.1 h1
    subst h4
    obtain ⟨p2, g, h5, h6, _⟩ := removeByPeer_spec h.ok h.small p
    rw [h5] at h3
    cases h3
    exact ⟨h.without h6, removePeer_done hd p⟩
  | work d now answer =>
    obtain ⟨s', h1, h2⟩ := Option.map_eq_some_iff.1 hs
    subst h2
    rcases workUnit_cases h1 with ht | ⟨s1, e, ht, hf⟩
    · obtain ⟨q, sv, htk, hdq⟩ := takeWork_taken h hd ht
      exact ⟨htk.good h, by show QDone s'.work; rw [htk.work]; exact hdq⟩
    · obtain ⟨q, sv, htk, hdq⟩ := takeWork_taken h hd ht
      have g1 := htk.good h
      have hf' := finalize_finalized g1 hf
      exact ⟨hf'.good g1, hf'.done (by rw [htk.work]; exact hdq)⟩
  | chain c l => cases hs; exact ⟨h, hd⟩

theorem run_good : ∀ (ops : List Op) {w w' : World}, Good w.s.orphans → QDone w.s.work → w.run ops = some w' →
    Good w'.s.orphans ∧ QDone w'.s.work
  | [], w, w', h, hd, hr => by cases hr; exact ⟨h, hd⟩
  | op :: t, w, w', h, hd, hr => by
    rw [World.run] at hr
    obtain ⟨w1, h1, h2⟩ := Option.bind_eq_some_iff.1 hr
    obtain ⟨h3, h4⟩ := step_good h hd h1
    exact run_good t h3 h4 h2

end Verif.TxOrphans
