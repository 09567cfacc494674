import Verif.TxPool.Sound
import Verif.Mempool.Props

/-! # Submissions -/

namespace Verif.TxPool

open Verif.Mempool
open Verif (BMap)

theorem DoesAll.use_spent {ts : List Tx} {L L' : Ledger} (h : DoesAll ts L L') (hk : OutKnown L) {t : Tx}
    (ht : t ∈ ts) {u n : Nat} (hx : Act.use (.out u n) ∈ acts t) : L' (.out u n) = 0 := by
  obtain ⟨pre, post, rfl⟩ := List.append_of_mem ht
  obtain ⟨M, h1, N, h2, h3⟩ := doesAll_append.1 h
  have hk' := h1.outKnown hk
  have h4 := h2.out_use hk' hx
  exact h3.out_stays (h2.outKnown hk') (h2.known_stays (hk' u n (by rw [h4.1]; decide))) h4.2.1

/-- what connects does not conflict with the pool -/
theorem no_conflict {p : Pool} (h : Sound p) {t : Tx} {v' : Ledger} (hd : Does t p.ver v') :
    ∀ d ∈ t.consumed, p.store.spender.get d = none := by
  intro d hdc
  cases hg : p.store.spender.get d with
  | none => rfl
  | some k =>
    exfalso
    obtain ⟨e, he, hde⟩ := (h.inv.spender d k).1 hg
    have hu : e.tx ∈ inOrder p.store := by
      rw [mem_inOrder h.inv, (h.inv.key k e he).1]; exact view_some.2 ⟨e, he, rfl⟩
    have h1 := required_act (mem_consumed.1 hdc).1
    have h2 := required_act (mem_consumed.1 hde).1
    have hc := (mem_consumed.1 hdc).2
    cases d <;> simp [Dep.isConsumed] at hc
    · have h3 := h.conn.use_spent h.known hu h2
      have h4 := (hd.out_use (h.conn.outKnown h.known) h1).1
      omega
    · have h3 := (h.conn.count_there hu h2 rfl).2
      have h4 := ((hd.count (c := (consumeAct _).cell) rfl).2.1 _ (mem_on.2 ⟨h1, rfl⟩)).1
      omega
    · have h3 := (h.conn.count_there hu h2 rfl).2
      have h4 := ((hd.count (c := (consumeAct _).cell) rfl).2.1 _ (mem_on.2 ⟨h1, rfl⟩)).1
      omega

/-- the pool with the transaction appended, before expiry and trimming -/
theorem add_step {p : Pool} (h : Sound p) {t : Tx} {v' : Ledger} (hok : p.tip.ok t = true) (hd : Does t p.ver v')
    (hfresh : p.store.view t.id = none) (hsize : 0 < t.size) (hfit : feesFit p t = true) :
    (add p.store t = .error .clusterTxCount ∨ add p.store t = .error .clusterTxSize) ∨
    ∃ s', add p.store t = .ok s' ∧ Sound { p with store := s', ver := v' } ∧
      SameFrame p { p with store := s', ver := v' } ∧ inOrder s' = inOrder p.store ++ [t] ∧
      (∀ k, s'.view k = if k = t.id then some t else p.store.view k) := by
  have ha := addable h hd hfresh hsize (no_conflict h hd) hfit
  rcases h.inv.add_spec ha with h1 | ⟨s', cl, h1, h2, h3, h4, h5, -⟩
  · exact .inl h1
  · right
    have ho := inOrder_add h.inv h1 hfresh h3
    refine ⟨s', h1, ⟨h2, h.known, ?_, ?_⟩, ⟨rfl, rfl, h4, h5⟩, ho, h3⟩
    · simp only [ho]
      exact doesAll_append.2 ⟨p.ver, h.conn, doesAll_single.2 hd⟩
    · intro x hx
      simp only [ho, List.mem_append, List.mem_singleton] at hx
      rcases hx with hx | rfl
      · exact h.ok x hx
      · exact hok

/-- what a submission can do -/
inductive Outcome (env : Env) (p : Pool) (t : Tx) : Answer → Pool → Prop
  /-- refused: nothing changes -/
  | refused {a : Answer} (h : a = .duplicate ∨ a = .policy ∨ a = .invalid ∨ a = .cluster) : Outcome env p t a p
  /-- taken, then expired transactions and those of lowest fee were thrown out, not this one -/
  | added {p' : Pool} (h : (connect p.tip p.ver t).isSome = true) (hnew : p.store.view t.id = none)
      (hs : List.Sublist (inOrder p'.store) (inOrder p.store ++ [t])) (hin : t ∈ inOrder p'.store)
      (hm : env.mem p'.store ≤ p.limit) : Outcome env p t .added p'
  /-- taken, then thrown out again -/
  | gone {a : Answer} {p' : Pool} (h : (connect p.tip p.ver t).isSome = true) (hnew : p.store.view t.id = none)
      (ha : a = .expired ∨ a = .full) (hs : List.Sublist (inOrder p'.store) (inOrder p.store)) : Outcome env p t a p'

theorem sublist_without {p' : Pool} (h' : Sound p') {l : List Tx} {t : Tx}
    (hs : List.Sublist (inOrder p'.store) (l ++ [t])) (hn : p'.store.view t.id = none) :
    List.Sublist (inOrder p'.store) l := by
  obtain ⟨l1, l2, e, h1, h2⟩ := List.sublist_append_iff.1 hs
  have : l2 = [] := by
    rcases List.sublist_singleton.1 h2 with rfl | rfl
    · rfl
    · exfalso
      have := (mem_inOrder h'.inv).1 (show t ∈ inOrder p'.store by rw [e]; simp)
      rw [hn] at this; cases this
  rw [e, this, List.append_nil]; exact h1

theorem submit_spec (env : Env) (now : Nat) (pays : Tx → Bool) {p : Pool} (h : Sound p) (t : Tx) :
    ∃ a p', submit env now pays p t = .ok (a, p') ∧ Sound p' ∧ SameFrame p p' ∧ Outcome env p t a p' := by
  unfold submit
  by_cases h1 : (p.store.byId.get t.id).isSome = true
  · rw [if_pos h1]; exact ⟨_, _, rfl, h, .refl p, .refused (by simp)⟩
  rw [if_neg h1]
  have hfresh : p.store.view t.id = none := by
    rw [view_none]; cases hg : p.store.byId.get t.id with
    | none => rfl
    | some e => rw [hg] at h1; simp at h1
  by_cases h2 : preliminary env t = true
  swap
  · rw [if_pos (by simp [h2])]; exact ⟨_, _, rfl, h, .refl p, .refused (by simp)⟩
  rw [if_neg (by simp [h2])]
  cases hcon : connect p.tip p.ver t with
  | none => exact ⟨_, _, rfl, h, .refl p, .refused (by simp)⟩
  | some v' =>
    simp only
    obtain ⟨hok, hd⟩ := connect_eq.1 hcon
    by_cases h3 : (pays t && feesFit p t) = true
    swap
    · rw [if_pos (by rw [Bool.eq_false_iff.2 h3]; rfl)]; exact ⟨_, _, rfl, h, .refl p, .refused (by simp)⟩
    rw [if_neg (by rw [h3]; decide)]
    rw [Bool.and_eq_true] at h3
    have hsize : 0 < t.size := by
      simp only [preliminary, Bool.and_eq_true, decide_eq_true_eq] at h2
      exact h2.1.1.2
    rw [if_neg (by
      rw [List.any_eq_true]
      rintro ⟨d, hd1, hd2⟩
      rw [no_conflict h hd d hd1] at hd2
      simp at hd2)]
    rcases add_step h hok hd hfresh hsize h3.2 with (h4 | h4) | ⟨s', h4, h5, h6, h7, h8⟩
    · rw [h4]; exact ⟨_, _, rfl, h, .refl p, .refused (by simp)⟩
    · rw [h4]; exact ⟨_, _, rfl, h, .refl p, .refused (by simp)⟩
    · rw [h4]
      obtain ⟨p2, g1, g2, g3, g4, -⟩ := removeExpired_spec env now h5
      simp only [g1, bind, Except.bind]
      have hw2 : List.Sublist (inOrder p2.store) (inOrder p.store ++ [t]) := by
        have := g4; unfold Within at this; simp only [h7] at this; exact this
      by_cases h9 : (p2.store.byId.get t.id).isNone = true
      · rw [if_pos h9]
        have hnone : p2.store.view t.id = none := view_none.2 (by simpa using h9)
        exact ⟨_, _, rfl, g2, h6.trans g3, .gone (by rw [hcon]; rfl) hfresh (.inl rfl) (sublist_without g2 hw2 hnone)⟩
      · rw [if_neg h9]
        obtain ⟨p3, k1, k2, k3, k4, k5, -⟩ := trim_spec env g2
        simp only [k1]
        have hw3 : List.Sublist (inOrder p3.store) (inOrder p.store ++ [t]) := k4.trans hw2
        by_cases h10 : (p3.store.byId.get t.id).isNone = true
        · rw [if_pos h10]
          have hnone : p3.store.view t.id = none := view_none.2 (by simpa using h10)
          exact ⟨_, _, rfl, k2, (h6.trans g3).trans k3,
            .gone (by rw [hcon]; rfl) hfresh (.inr rfl) (sublist_without k2 hw3 hnone)⟩
        · rw [if_neg h10]
          have hsome : ∃ x, p3.store.view t.id = some x := by
            cases hg : p3.store.view t.id with
            | none => exact absurd (by rw [view_none.1 hg]; rfl) h10
            | some x => exact ⟨x, rfl⟩
          obtain ⟨x, hx⟩ := hsome
          have hxt : x = t := by
            have e1 := within_view h5 g2 g4 (within_view g2 k2 k4 hx)
            simp only [h8, if_true] at e1
            exact (Option.some.inj e1).symm
          refine ⟨_, _, rfl, k2, (h6.trans g3).trans k3, .added (by rw [hcon]; rfl) hfresh hw3 ?_ ?_⟩
          · rw [mem_inOrder k2.inv, hx, hxt]
          · rcases k5 with k5 | k5
            · rw [k5] at hx; cases hx
            · rw [← (h6.trans g3).limit]; exact k5

theorem submitAll_spec (env : Env) (now : Nat) (pays : Tx → Bool) : ∀ (l : List Tx) {p : Pool}, Sound p →
    ∃ p', submitAll env now pays l p = .ok p' ∧ Sound p' ∧ SameFrame p p' ∧
      List.Sublist (inOrder p'.store) (inOrder p.store ++ l) := by
  intro l
  induction l with
  | nil => intro p h; exact ⟨p, rfl, h, .refl p, by simp⟩
  | cons t l ih =>
    intro p h
    obtain ⟨a, p1, h1, h2, h3, h4⟩ := submit_spec env now pays h t
    obtain ⟨p2, g1, g2, g3, g4⟩ := ih h2
    refine ⟨p2, ?_, g2, h3.trans g3, ?_⟩
    · simp only [submitAll, h1, bind, Except.bind]; exact g1
    · refine g4.trans ?_
      have : inOrder p.store ++ t :: l = (inOrder p.store ++ [t]) ++ l := by simp
      rw [this]
      refine List.Sublist.append ?_ (List.Sublist.refl _)
      cases h4 with
      | refused => exact List.sublist_append_left _ _
      | added _ _ hs => exact hs
      | gone _ _ _ hs => exact hs.trans (List.sublist_append_left _ _)

theorem sound_fresh {env : Env} {tip : Tip} {limit : Nat} (h : OutKnown tip.ledger) : Sound (fresh env tip limit) :=
  ⟨inv_new _ _, h, rfl, by intro t ht; simp [fresh, Store.new, inOrder, BMap.empty] at ht⟩

theorem inOrder_fresh (env : Env) (tip : Tip) (limit : Nat) : inOrder (fresh env tip limit).store = [] := rfl

theorem newTip_spec (env : Env) (now : Nat) (pays : Tx → Bool) {tip : Tip} (hk : OutKnown tip.ledger)
    (connected disconnected : List (List Tx)) {p : Pool} (_h : Sound p) :
    ∃ p', newTip env now pays tip connected disconnected p = .ok p' ∧ Sound p' ∧
      SameFrame (fresh env tip p.limit) p' ∧
      List.Sublist (inOrder p'.store) (disconnectedTxs now connected disconnected ++ inOrder p.store) := by
  obtain ⟨p1, h1, h2, h3, h4⟩ := submitAll_spec env now pays (disconnectedTxs now connected disconnected)
    (sound_fresh (env := env) (limit := p.limit) hk)
  obtain ⟨p2, g1, g2, g3, g4⟩ := submitAll_spec env now pays (inOrder p.store) h2
  refine ⟨p2, ?_, g2, h3.trans g3, ?_⟩
  · simp only [newTip, h1, bind, Except.bind]; exact g1
  · refine g4.trans (List.Sublist.append ?_ (List.Sublist.refl _))
    rw [inOrder_fresh, List.nil_append] at h4
    exact h4

theorem setLimit_spec (env : Env) {p : Pool} (h : Sound p) (limit : Nat) :
    ∃ p', setLimit env p limit = .ok p' ∧ Sound p' ∧ SameFrame { p with limit := limit } p' ∧
      List.Sublist (inOrder p'.store) (inOrder p.store) ∧
      ((∀ k, p'.store.view k = none) ∨ env.mem p'.store ≤ limit) := by
  have hs : Sound { p with limit := limit } := ⟨h.inv, h.known, h.conn, h.ok⟩
  obtain ⟨p', h1, h2, h3, h4, h5, -⟩ := trim_spec env hs
  exact ⟨p', h1, h2, h3, h4, h5⟩

end Verif.TxPool
