import Verif.TxOrphans.Steps

/-! # No failed assertion, no forgotten orphan, an end to the work -/

namespace Verif.TxOrphans
open Verif.Mempool (Dep Tx)

/-! ### No failed assertion -/

/-- The queue is in order and no orphan is from a disconnected peer. -/
structure Safe (s : State) (gone : Nat → Prop) : Prop where
  good : Good s.orphans
  done : QDone s.work
  queue : QOk s.work gone
  peers : ∀ e ∈ s.orphans.txs, ¬ gone e.peer

theorem Finalized.safe {s s' : State} {gone : Nat → Prop} {d : Dice} {now : Nat} {t : Tx} {origin : Option Nat} {o : Outcome}
    (hf : Finalized s s' d now t origin o) (h : Safe s gone) (ho : ∀ p, origin = some p → ¬ gone p) : Safe s' gone := by
  refine ⟨hf.good h.good, hf.done h.done, ?_, ?_⟩
  · cases hf with
    | added l h1 h2 h3 => rw [h3]; exact enqueue_ok l _ h.queue (fun e he => h.peers e ((h1 e).1 he).1)
    | same _ _ h1 => rw [h1]; exact h.queue
    | orphan h1 h2 h3 => rw [h3]; exact h.queue
  · cases hf with
    | added l h1 h2 h3 => rw [h2]; exact h.peers
    | same _ _ h1 => rw [h1]; exact h.peers
    | orphan h1 h2 h3 =>
      intro e' he'
      rcases (insertAndEnforce_mem h.good h2).2 e' he' with h4 | h4
      · exact h.peers e' h4
      · rw [h4]; exact ho _ (asOrphan_some h1).2.1

theorem safe_take {s : State} {gone : Nat → Prop} (h : Safe s gone) (d : Dice) :
    ∃ s1 oe q sv, s.takeWork d = some (s1, oe) ∧ Taken s s1 oe q sv ∧ Safe s1 gone ∧ ∀ e, oe = some e → ¬ gone e.peer := by
  obtain ⟨q, sv, o, h1, h2, _, _⟩ := pick_spec d.pick (fun _ id => State.look s.orphans id) h.queue h.done
  obtain ⟨s1, oe, h3, h4, h5⟩ := takeWork_spec h.good h1 h.done
  have hsub : (∀ e ∈ s1.orphans.txs, e ∈ s.orphans.txs) ∧ ∀ e, oe = some e → e ∈ s.orphans.txs := by
    obtain ⟨o2, _, a1, a2⟩ := h4.picked
    cases oe with
    | none => rw [(a1 rfl).1]; exact ⟨fun e he => he, fun e he => (by cases he)⟩
    | some e =>
      obtain ⟨i, _, hi, hw⟩ := a2 e rfl
      exact ⟨fun e' he' => hw.mem he', fun e' he' => (by cases he'; exact List.mem_of_getElem? hi)⟩
  refine ⟨s1, oe, q, sv, h3, h4, ⟨h4.good h.good, by rw [h4.work]; exact h5, by rw [h4.work]; exact h2, ?_⟩, ?_⟩
  · exact fun e he => h.peers e (hsub.1 e he)
  · exact fun e he => h.peers e (hsub.2 e he)

theorem safe_work {s : State} {gone : Nat → Prop} (h : Safe s gone) (d : Dice) (now : Nat) (answer : Entry → Outcome) :
    ∃ s', s.workUnit d now answer = some s' ∧ Safe s' gone := by
  obtain ⟨s1, oe, q, sv, h1, _, h2, h3⟩ := safe_take h d
  cases oe with
  | none => exact ⟨s1, by unfold State.workUnit; rw [h1], h2⟩
  | some e =>
    obtain ⟨s', h4, h5⟩ := finalize_spec h2.good d now e.tx (some e.peer) (answer e)
    refine ⟨s', by unfold State.workUnit; rw [h1]; exact h4, h5.safe h2 ?_⟩
    intro p hp
    cases hp
    exact h3 e rfl

theorem safe_disconnect {s : State} {gone : Nat → Prop} (h : Safe s gone) (p : Nat) :
    ∃ s', s.disconnect p = some s' ∧ Safe s' (fun x => x = p ∨ gone x) := by
  obtain ⟨p', g, h1, h2, h3, h4⟩ := removeByPeer_spec h.good.ok h.good.small p
  refine ⟨⟨p', s.work.removePeer p⟩, by unfold State.disconnect; rw [h1]; rfl,
    ⟨h.good.without h2, removePeer_done h.done p, removePeer_ok h.queue p, ?_⟩⟩
  rintro e he (hc | hc)
  · exact h4 e he hc
  · exact h.peers e (h2.mem he) hc

theorem safe_run : ∀ (ops : List Op) {gone : Nat → Prop} {w : World}, Safe w.s gone → Quiet gone ops →
    ∃ w', w.run ops = some w' ∧ ∃ gone', Safe w'.s gone'
  | [], gone, w, h, _ => ⟨w, rfl, gone, h⟩
  | .arrive d now t origin o :: l, gone, w, h, hq => by
    obtain ⟨s', h1, h2⟩ := finalize_spec h.good d now t origin o
    obtain ⟨w', h3, h4⟩ := safe_run l (w := ⟨s', grow w.mem t o, w.confirmed⟩) (h2.safe h hq.1) hq.2
    refine ⟨w', ?_, h4⟩
    rw [World.run, World.step, h1]
    exact h3
  | .disconnect p :: l, gone, w, h, hq => by
    obtain ⟨s', h1, h2⟩ := safe_disconnect h p
    obtain ⟨w', h3, h4⟩ := safe_run l (w := ⟨s', w.mem, w.confirmed⟩) h2 hq
    refine ⟨w', ?_, h4⟩
    rw [World.run, World.step, h1]
    exact h3
  | .work d now answer :: l, gone, w, h, hq => by
    obtain ⟨s', h1, h2⟩ := safe_work h d now answer
    obtain ⟨w', h3, h4⟩ := safe_run l (w := ⟨s', match w.s.takeWork d with
          | some (_, some e) => grow w.mem e.tx (answer e)
          | _ => w.mem, w.confirmed⟩) h2 hq
    refine ⟨w', ?_, h4⟩
    rw [World.run, World.step, h1]
    exact h3
  | .chain c left :: l, gone, w, h, hq => by
    obtain ⟨w', h3, h4⟩ := safe_run l (w := ⟨w.s, w.mem.filter (fun t => !left.contains t.id), c⟩) h hq
    exact ⟨w', by rw [World.run, World.step]; exact h3, h4⟩

theorem safe_new : Safe State.new (fun _ => False) :=
  ⟨good_new, qok_new.2, qok_new.1, fun e he => (by cases he)⟩

/-! ### No forgotten orphan -/

/-- Each orphan is queued or lacks something. -/
structure Awake (s : State) (mem : List Tx) (confirmed : List Dep) : Prop where
  awake : ∀ c ∈ s.orphans.txs, s.work.Has c.peer c.tx.id ∨ ∃ d ∈ c.tx.required, ¬ Given mem confirmed d
  apart : ∀ e ∈ s.orphans.txs, ∀ t ∈ mem, t.id ≠ e.tx.id
  fits : ∀ e ∈ s.orphans.txs, Fits e.tx
  unmined : ∀ e ∈ s.orphans.txs, ∀ n, Dep.txOutput e.tx.id n ∉ confirmed

theorem not_complete {mem : List Tx} {confirmed : List Dep} {t : Tx} (h : ¬ Complete mem confirmed t) :
    ∃ d ∈ t.required, ¬ Given mem confirmed d := by
  unfold Complete at h
  by_contra hc
  apply h
  intro d hd
  by_contra hg
  exact hc ⟨d, hd, hg⟩

theorem finalize_awake {s s' : State} {mem : List Tx} {confirmed : List Dep} {d : Dice} {now : Nat} {t : Tx}
    {origin : Option Nat} {o : Outcome} (hg : Good s.orphans) (h : Awake s mem confirmed)
    (hf : Finalized s s' d now t origin o) (hon : Honest mem confirmed t o) (hfit : Fits t)
    (hun : ∀ n, Dep.txOutput t.id n ∉ confirmed) (hfresh : o = .added → ∀ e ∈ s.orphans.txs, e.tx.id ≠ t.id) : Awake s' (grow mem t o) confirmed := by
  cases hf with
  | added l h1 h2 h3 =>
    have hgrow : grow mem t .added = t :: mem := if_pos rfl
    rw [hgrow]
    refine ⟨?_, ?_, ?_, by rw [h2]; exact h.unmined⟩
    · intro c hc
      rw [h2] at hc
      rw [h3, enqueue_has]
      rcases h.awake c hc with h4 | ⟨x, hx, hn⟩
      · exact Or.inl (Or.inl h4)
      · by_cases hgv : Given (t :: mem) confirmed x
        · left; right
          refine ⟨c, (h1 c).2 ⟨hc, ?_⟩, rfl, rfl⟩
          rcases hgv with h5 | ⟨t', ht', n, h5⟩ | ⟨t', ht', h5⟩
          · exact absurd (Or.inl h5) hn
          · rcases List.mem_cons.1 ht' with rfl | ht'
            · subst h5
              exact Or.inl ⟨n, h.fits c hc _ _ hx, hx⟩
            · exact absurd (Or.inr (Or.inl ⟨t', ht', n, h5⟩)) hn
          · rcases List.mem_cons.1 ht' with rfl | ht'
            · exact Or.inr ⟨x, h5, hx⟩
            · exact absurd (Or.inr (Or.inr ⟨t', ht', h5⟩)) hn
        · exact Or.inr ⟨x, hx, hgv⟩
    · intro e he t' ht'
      rw [h2] at he
      rcases List.mem_cons.1 ht' with rfl | ht'
      · exact (hfresh rfl e he).symm
      · exact h.apart e he t' ht'
    · rw [h2]; exact h.fits
  | same ho _ h1 =>
    rw [show grow mem t o = mem from if_neg ho, h1]
    exact h
  | @orphan why rbf e st h1 h2 h3 =>
    rw [show grow mem t (.rejected why rbf) = mem from if_neg (by nofun)]
    obtain ⟨he1, _, _, _, he5⟩ := asOrphan_some h1
    have hsub := (insertAndEnforce_mem hg h2).2
    have hinc : ¬ Complete mem confirmed t := by
      rcases he5 with rfl | ⟨a, b, rfl, hab, _⟩
      · exact hon.2
      · exact hon.2 hab
    refine ⟨?_, ?_, ?_, ?_⟩
    · intro c hc
      rw [h3]
      rcases hsub c hc with h4 | h4
      · exact h.awake c h4
      · right
        rw [h4, he1]
        exact not_complete hinc
    · intro c hc t' ht'
      rcases hsub c hc with h4 | h4
      · exact h.apart c h4 t' ht'
      · rw [h4, he1]; exact hon.1 t' ht'
    · intro c hc
      rcases hsub c hc with h4 | h4
      · exact h.fits c h4
      · rw [h4, he1]; exact hfit
    · intro c hc
      rcases hsub c hc with h4 | h4
      · exact h.unmined c h4
      · rw [h4, he1]; exact hun

theorem not_provided {t : Tx} {u n : Nat} (h : Dep.txOutput u n ∈ t.provided) : False := by
  unfold Verif.Mempool.Tx.provided at h
  rcases List.mem_append.1 h with h | h
  · obtain ⟨i, _, hi⟩ := List.mem_filterMap.1 h
    cases i with
    | delegation d k => obtain ⟨_, _, hc⟩ := Option.map_eq_some_iff.1 hi; cases hc
    | tokenCommand d k => obtain ⟨_, _, hc⟩ := Option.map_eq_some_iff.1 hi; cases hc
    | _ => cases hi
  · obtain ⟨i, _, hi⟩ := List.mem_filterMap.1 h
    cases i with
    | issueToken => obtain ⟨_, _, hc⟩ := Option.map_eq_some_iff.1 hi; cases hc
    | createDelegation _ => obtain ⟨_, _, hc⟩ := Option.map_eq_some_iff.1 hi; cases hc
    | createOrder => obtain ⟨_, _, hc⟩ := Option.map_eq_some_iff.1 hi; cases hc
    | _ => cases hi

theorem take_awake {s s1 : State} {oe : Option Entry} {q : Queue} {sv : Option Nat} {mem : List Tx} {confirmed : List Dep}
    (hg : Good s.orphans) (h : Awake s mem confirmed) (ht : Taken s s1 oe q sv) : Awake s1 mem confirmed := by
  obtain ⟨o, hp, h1, h2⟩ := ht.picked
  have hsub : ∀ e ∈ s1.orphans.txs, e ∈ s.orphans.txs := by
    cases oe with
    | none => rw [(h1 rfl).1]; exact fun e he => he
    | some e =>
      obtain ⟨_, _, _, hw⟩ := h2 e rfl
      exact fun e' he' => hw.mem he'
  refine ⟨?_, fun e he => h.apart e (hsub e he), fun e he => h.fits e (hsub e he), fun e he => h.unmined e (hsub e he)⟩
  intro c hc
  have hcs := hsub c hc
  rcases h.awake c hcs with h3 | h3
  · rw [ht.work]
    cases hsv : sv with
    | none => exact absurd h3 ((hp.none hsv).2.2 _ _)
    | some p =>
      obtain ⟨sq, sq', b1, _, b3, b4, b5, _⟩ := hp.some p hsv
      by_cases hcp : c.peer = p
      · obtain ⟨taken, rfl, c1, c2, c3⟩ := b3
        by_cases hin : c.tx.id ∈ taken
        · -- it was looked at
          cases ho : o with
          | none => exact absurd rfl (look_none hg.ok ((c2 ho).1 _ hin) hcs)
          | some ib =>
            obtain ⟨i, b⟩ := ib
            obtain ⟨w, hw, hlw, hoth⟩ := c3 (i, b) ho
            by_cases hcw : c.tx.id = w
            · obtain ⟨e, he, hid, hb⟩ := look_some hg.ok hlw
              have hec : e = c := ids_unique hg.ok (List.mem_of_getElem? he) hcs (hid.trans hcw.symm)
              subst hec
              cases hr : s.orphans.isReady e with
              | true =>
                rw [hr] at hb
                subst hb
                cases oe with
                | none => exact absurd ho ((h1 rfl).2 i)
                | some e2 =>
                  obtain ⟨i2, ho2, hi2, hw2⟩ := h2 e2 rfl
                  rw [ho] at ho2
                  cases ho2
                  rw [he] at hi2
                  cases hi2
                  exact absurd rfl (Without.disjoint hg.ok hw2 List.mem_cons_self hc)
              | false =>
                right
                obtain ⟨u, n, hd, e', he', hid'⟩ := not_ready hg.ok hr
                refine ⟨_, hd, ?_⟩
                rintro (hgv | ⟨t', ht', n', hgv⟩ | ⟨t', ht', hgv⟩)
                · rw [← hid'] at hgv
                  exact h.unmined e' he' n hgv
                · cases hgv
                  exact h.apart e' he' t' ht' hid'.symm
                · exact not_provided hgv
            · exact absurd rfl (look_none hg.ok (hoth _ hin hcw) hcs)
        · left
          rw [hcp, b4, get_rest]
          refine ⟨?_, hin⟩
          obtain ⟨s3, h4, h5⟩ := h3
          rw [hcp, b1] at h4
          cases h4
          exact h5
      · exact Or.inl ((b5 _ hcp _).2 h3)
  · exact Or.inr h3

theorem step_awake {w w' : World} (hg : Good w.s.orphans) (hd : QDone w.s.work) (h : Awake w.s w.mem w.confirmed) {op : Op}
    (hl : Legal w op) (hs : w.step op = some w') : Awake w'.s w'.mem w'.confirmed := by
  cases op with
  | arrive d now t origin o =>
    obtain ⟨s', h1, h2⟩ := Option.map_eq_some_iff.1 hs
    subst h2
    obtain ⟨l1, l2, l3, l4⟩ := hl
    exact finalize_awake hg h (finalize_finalized hg h1) l1 l2 l3 l4
  | disconnect p =>
    obtain ⟨s', h1, h2⟩ := Option.map_eq_some_iff.1 hs
    subst h2
    obtain ⟨p', h3, h4⟩ := Option.map_eq_some_iff.1 h1
    subst h4
    obtain ⟨p2, g, h5, h6, _, h7⟩ := removeByPeer_spec hg.ok hg.small p
    rw [h5] at h3
    cases h3
    refine ⟨?_, fun e he => h.apart e (h6.mem he), fun e he => h.fits e (h6.mem he), fun e he => h.unmined e (h6.mem he)⟩
    intro c hc
    rcases h.awake c (h6.mem hc) with h8 | h8
    · exact Or.inl ((removePeer_has _ _ _ _).2 ⟨h7 c hc, h8⟩)
    · exact Or.inr h8
  | work d now answer =>
    obtain ⟨s', h1, h2⟩ := Option.map_eq_some_iff.1 hs
    subst h2
    rcases workUnit_cases h1 with ht | ⟨s1, e, ht, hf⟩
    · obtain ⟨q, sv, htk, hdq⟩ := takeWork_taken hg hd ht
      simp only [ht]
      exact take_awake hg h htk
    · obtain ⟨q, sv, htk, hdq⟩ := takeWork_taken hg hd ht
      have g1 := htk.good hg
      simp only [ht]
      obtain ⟨o, _, _, h2⟩ := htk.picked
      obtain ⟨i, _, hi, hw⟩ := h2 e rfl
      have hmem : e ∈ w.s.orphans.txs := List.mem_of_getElem? hi
      refine finalize_awake g1 (take_awake hg h htk) (finalize_finalized g1 hf) (hl e hmem) (h.fits e hmem)
        (h.unmined e hmem) ?_
      intro _ e' he' hc
      exact absurd hc.symm (Without.disjoint hg.ok hw List.mem_cons_self he')
  | chain c left =>
    cases hs
    refine ⟨?_, ?_, h.fits, fun e he => (hl e he).1⟩
    · intro e he
      rcases h.awake e he with h8 | ⟨d, hd, hn⟩
      · exact Or.inl h8
      · right
        refine ⟨d, hd, ?_⟩
        rintro (h9 | ⟨t, ht, h9⟩ | ⟨t, ht, h9⟩)
        · exact hn ((hl e he).2 d hd h9)
        · exact hn (Or.inr (Or.inl ⟨t, (List.mem_filter.1 ht).1, h9⟩))
        · exact hn (Or.inr (Or.inr ⟨t, (List.mem_filter.1 ht).1, h9⟩))
    · exact fun e he t ht => h.apart e he t (List.mem_filter.1 ht).1

theorem run_awake : ∀ (ops : List Op) {w w' : World}, Good w.s.orphans → QDone w.s.work → Awake w.s w.mem w.confirmed →
    LegalRun w ops → w.run ops = some w' → Awake w'.s w'.mem w'.confirmed
  | [], w, w', _, _, h, _, hr => by cases hr; exact h
  | op :: t, w, w', hg, hd, h, hl, hr => by
    rw [World.run] at hr
    obtain ⟨w1, h1, h2⟩ := Option.bind_eq_some_iff.1 hr
    obtain ⟨h3, h4⟩ := step_good hg hd h1
    exact run_awake t h3 h4 (step_awake hg hd h hl.1 h1) (hl.2 w1 h1) h2

theorem awake_new (c : List Dep) : Awake State.new [] c :=
  ⟨fun e he => (by cases he), fun e he => (by cases he), fun e he => (by cases he), fun e he => (by cases he)⟩

theorem has_hasWork {s : State} (hd : QDone s.work) {p x : Nat} (h : s.work.Has p x) : s.hasWork = true := by
  unfold State.hasWork Queue.isEmpty
  cases hs : s.work.sched with
  | nil =>
    obtain ⟨a, h1, _⟩ := h
    rw [hd hs p] at h1
    cases h1
  | cons a l => rfl

/-! ### An end to the work -/

/-- A unit of work leaves fewer orphans, or no more of them and a shorter queue, or nothing to do. -/
theorem work_less {s s' : State} (hg : Good s.orphans) (hd : QDone s.work) {d : Dice} {now : Nat} {answer : Entry → Outcome}
    (hw : s.workUnit d now answer = some s') :
    s'.orphans.txs.length < s.orphans.txs.length ∨
    (s'.orphans.txs.length ≤ s.orphans.txs.length ∧ s'.work.total < s.work.total) ∨
    s'.hasWork = false := by
  have hless : ∀ {q : Queue} {sv : Option Nat} {o : Option (Nat × Bool)} {h : Nat → Nat → Option (Nat × Bool)},
      Picked h s.work q sv o → o ≠ none → q.total < s.work.total := by
    intro q sv o h hp ho
    cases hsv : sv with
    | none => exact absurd (hp.none hsv).1 ho
    | some p =>
      obtain ⟨_, _, _, _, _, _, _, b6⟩ := hp.some p hsv
      exact b6
  rcases workUnit_cases hw with ht | ⟨s1, e, ht, hf⟩
  · obtain ⟨q, sv, htk, hdq⟩ := takeWork_taken hg hd ht
    obtain ⟨o, hp, h1, _⟩ := htk.picked
    cases hsv : sv with
    | none =>
      right; right
      unfold State.hasWork Queue.isEmpty
      rw [htk.work, (hp.none hsv).2.1]
      rfl
    | some p =>
      obtain ⟨_, _, _, _, _, _, _, b6⟩ := hp.some p hsv
      right; left
      rw [(h1 rfl).1, htk.work]
      exact ⟨le_refl _, b6⟩
  · obtain ⟨q, sv, htk, hdq⟩ := takeWork_taken hg hd ht
    obtain ⟨o, hp, _, h2⟩ := htk.picked
    obtain ⟨i, ho, hi, hwo⟩ := h2 e rfl
    have g1 := htk.good hg
    have hlen := hwo.length
    have ht2 := hless hp (by rw [ho]; nofun)
    simp only [List.length_singleton] at hlen
    have hfin := finalize_finalized g1 hf
    generalize answer e = oc at hfin
    cases hfin with
    | added l h3 h4 h5 => left; rw [h4]; omega
    | same _ _ h3 => left; rw [h3]; omega
    | orphan h3 h4 h5 =>
      right; left
      rw [h5, htk.work]
      refine ⟨?_, ht2⟩
      obtain ⟨p2, s2, p0, p1, old, ev, c1, _, c3, c4, _, _, c7, _⟩ := insertAndEnforce_spec g1.ok g1.small d.pool _ now
      rw [h4] at c1
      cases c1
      have l1 := c4.length
      have l2 := c7.length
      have l3 : p0.txs.length ≤ s1.orphans.txs.length + 1 := by
        rcases c3 with ⟨c3, _⟩ | ⟨c3, _⟩
        · rw [c3, List.length_append, List.length_singleton]
        · rw [c3]; omega
      omega

theorem drain {w : World} {gone : Nat → Prop} (f : Nat → Op) (hf : ∀ n, ∃ d now answer, f n = .work d now answer) :
    ∀ (m1 m2 n : Nat) (w1 : World), w.works f n = some w1 → Safe w1.s gone → w1.s.orphans.txs.length = m1 →
      w1.s.work.total = m2 → ∃ k w', n < k ∧ w.works f k = some w' ∧ w'.s.hasWork = false := by
  intro m1
  induction m1 using Nat.strong_induction_on with
  | _ m1 ih1 =>
    intro m2
    induction m2 using Nat.strong_induction_on with
    | _ m2 ih2 =>
      intro n w1 h1 h2 h3 h4
      obtain ⟨d, now, answer, hfn⟩ := hf n
      obtain ⟨s', h5, h6⟩ := safe_work h2 d now answer
      obtain ⟨w2, hw2, hs2⟩ : ∃ w2, w.works f (n + 1) = some w2 ∧ w2.s = s' := by
        refine ⟨⟨s', match w1.s.takeWork d with
          | some (_, some e) => grow w1.mem e.tx (answer e)
          | _ => w1.mem, w1.confirmed⟩, ?_, rfl⟩
        rw [World.works, h1, hfn]
        show w1.step (.work d now answer) = _
        rw [World.step, h5]
        rfl
      subst hs2
      rcases work_less h2.good h2.done h5 with h7 | ⟨h7, h8⟩ | h7
      · obtain ⟨k, w', h9, h10⟩ := ih1 w2.s.orphans.txs.length (by omega) w2.s.work.total (n + 1) w2 hw2 h6 rfl rfl
        exact ⟨k, w', by omega, h10⟩
      · rcases Nat.lt_or_ge w2.s.orphans.txs.length m1 with h9 | h9
        · obtain ⟨k, w', h9, h10⟩ := ih1 w2.s.orphans.txs.length h9 w2.s.work.total (n + 1) w2 hw2 h6 rfl rfl
          exact ⟨k, w', by omega, h10⟩
        · obtain ⟨k, w', h9, h10⟩ := ih2 w2.s.work.total (by omega) (n + 1) w2 hw2 h6 (by omega) rfl
          exact ⟨k, w', by omega, h10⟩
      · exact ⟨n + 1, w2, by omega, hw2, h7⟩

end Verif.TxOrphans
