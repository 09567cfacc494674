import Verif.Accounting.Props
import Verif.Pos.Shares

/-!
# Staking accounting: C04 (undo), C05 (flush), C06 (bookkeeping), C07 (no overspending of a delegation)

Histories are lists of actions: perform an operation, or undo the newest operation not yet undone.
-/

namespace Verif.Pos
open Verif Verif.Accounting Verif.History

set_option maxRecDepth 100000

/-- pool data as created by a transaction (rewards start at 0, `From<StakePoolData>`) -/
def exPool : PoolData := ⟨1, 100, 0, 2, 50, 3⟩

/-- pool 7 with two delegations, a reward, a withdrawal, an undone operation, a decommissioned pool -/
def exActs : List (Act Op) :=
  [.perform (.createPool 7 exPool), .perform (.createDelegationId 7 20 5), .perform (.createDelegationId 7 21 5),
   .perform (.delegateStaking 20 30), .perform (.delegateStaking 21 12), .perform (.increaseStakerRewards 7 4),
   .perform (.spendShare 20 10), .perform (.delegateStaking 21 1000), .undoLast,
   .perform (.createPool 8 exPool), .perform (.decommissionPool 8)]

/-- the example history succeeds; pool 7 holds 100 + 4 + 20 + 12 -/
example : ∃ c st, runActs step undo (start emptyDB.view) exActs = .ok (c, st) ∧
    c.view.poolBalance 7 = .ok 136 ∧ c.view.delegationBalance 20 = .ok 20 ∧ c.view.share (key 7 21) = .ok 12 ∧
    c.view.poolData 8 = .ok none := by
  refine ⟨_, _, rfl, ?_, ?_, ?_, ?_⟩ <;> decide +kernel

/-! ### C04 -/

/-- **C04.**  Undoing a whole successful history newest-first succeeds and every query answers as before it. -/
theorem C04_undo_history (c0 : Cache) (hi : Inv c0) (ops : List Op) (c : Cache) (us : List Undo)
    (h : run step c0 ops = .ok (c, us)) : ∃ t, undoAll undo c us = .ok t ∧ t.view = c0.view := by
  obtain ⟨t, h1, h2⟩ := undoable.undoAll hi h (Ext.refl c)
  exact ⟨t, h1, h2.view⟩

/-- **C04 (any interleaving).**  With undos at arbitrary points, the state always answers as if only the operations
not undone had been performed, and an undo is never refused. -/
theorem C04_interleaved (p : View) (as : List (Act Op)) (c : Cache) (st : List Undo)
    (h : runActs step undo (start p) as = .ok (c, st)) :
    (∃ ops c1, run step (Cache.new p) ops = .ok (c1, st.reverse) ∧ c.view = c1.view) ∧
    (∀ u st', st = u :: st' → ∃ c', undo c u = .ok c') := by
  constructor
  · obtain ⟨ops, c1, h1, h2, -⟩ := undoable.acts (new_inv p) h
    exact ⟨ops, c1, h1, h2.view⟩
  · rintro u st' rfl
    exact undoable.undo_never_fails (new_inv p) h

/-- the invariant assumed in `C04_undo_history` holds in every state reachable from a fresh layer -/
theorem C04_invariant_reachable (p : View) (ops : List Op) (c : Cache) (us : List Undo)
    (h : run step (Cache.new p) ops = .ok (c, us)) : Inv c :=
  run_inv step_inv (new_inv p) h

/-- non-vacuity: seven operations, all undone -/
example : ∃ c us t, run step (Cache.new emptyDB.view)
      [.createPool 7 exPool, .createDelegationId 7 20 5, .delegateStaking 20 30, .increaseStakerRewards 7 4,
       .spendShare 20 30, .decommissionPool 7, .deleteDelegationId 20] = .ok (c, us) ∧
    undoAll undo c us = .ok t ∧ t.view.poolData 7 = .ok none ∧ t.view.poolBalance 7 = .ok 0 ∧
    t.view.delegationBalance 20 = .ok 0 ∧ t.view.share (key 7 20) = .ok 0 := by
  obtain ⟨⟨c, us⟩, h1, h⟩ := okAnd_spec (x := run step (Cache.new emptyDB.view)
      [.createPool 7 exPool, .createDelegationId 7 20 5, .delegateStaking 20 30, .increaseStakerRewards 7 4,
       .spendShare 20 30, .decommissionPool 7, .deleteDelegationId 20])
    (P := fun r => okAnd (undoAll undo r.1 r.2) fun t => t.view.poolData 7 = .ok none ∧ t.view.poolBalance 7 = .ok 0 ∧
      t.view.delegationBalance 20 = .ok 0 ∧ t.view.share (key 7 20) = .ok 0) (by decide +kernel)
  obtain ⟨t, h2, h3⟩ := okAnd_spec h
  exact ⟨c, us, t, h1, h2, of_decide_eq_true h3⟩

/-! ### C05 -/

/-- the answers of two views agree; the list of all shares of a pool is compared share by share (an absent entry
and an entry 0 are the same) -/
structure SameAnswers (v w : View) : Prop where
  poolBalance : v.poolBalance = w.poolBalance
  poolData : v.poolData = w.poolData
  delegationBalance : v.delegationBalance = w.delegationBalance
  delegationData : v.delegationData = w.delegationData
  share : v.share = w.share
  shares : ∀ p, ∃ o o', v.shares p = .ok o ∧ w.shares p = .ok o' ∧ ∀ d, shareOf o d = shareOf o' d

theorem shareOf_db (db : DB) (p : PoolId) (d : DelegationId) :
    shareOf (nonEmpty (db.shares.slice p)) d = bal db.shares (key p d) := by
  unfold shareOf bal
  rw [nonEmpty_get, get_slice]

theorem getShares_isOk {parent : PoolId → Except Err (Option (BMap Nat Nat))} {sh : AmountColl ShareKey}
    {p : PoolId} {po : Option (BMap Nat Nat)} (hp : parent p = .ok po)
    (h : ∀ d x, sh.get (key p d) = some x → ∃ r, combineAmountDelta (shareOf po d) (some x) = .ok r) :
    ∃ o, getShares parent sh p = .ok o := by
  unfold getShares cachedShares
  rw [hp]
  simp only [bind, Except.bind]
  cases hc : nonEmpty (sh.slice p) with
  | none => cases po <;> exact ⟨_, rfl⟩
  | some m =>
    have := nonEmpty_some hc
    subst this
    cases po with
    | none =>
      have : ∃ r, toUnsignedMap (sh.slice p) = .ok r := by
        unfold toUnsignedMap
        rw [BMap.mergeM_isOk_iff]
        intro d x hx
        rw [get_slice] at hx
        obtain ⟨r, hr⟩ := h d x hx
        have hr := combineAmountDelta_ok.1 hr
        have e0 : shareOf none d = 0 := rfl
        rw [e0] at hr
        refine ⟨some r, ?_⟩
        simp only [bind_eq_ok, okOr_eq_ok, pure_eq_ok, Option.some.injEq, exists_eq_right]
        exact intoUnsigned_some.2 ⟨by omega, by push_cast at hr; omega⟩
      obtain ⟨r, hr⟩ := this
      exact ⟨some r, by simp only [hr]; rfl⟩
    | some m1 =>
      have : ∃ r, sumMaps m1 (sh.slice p) = .ok r := by
        unfold sumMaps
        rw [BMap.mergeM_isOk_iff]
        intro d x hx
        rw [get_slice] at hx
        obtain ⟨r, hr⟩ := h d x hx
        refine ⟨some r, ?_⟩
        unfold combineAmountDelta at hr
        simp only [bind_eq_ok, okOr_eq_ok] at hr
        obtain ⟨b, e1, s, e2, e3⟩ := hr
        simp only [bind_eq_ok, okOr_eq_ok, pure_eq_ok, Option.some.injEq, exists_eq_right]
        exact ⟨b, e1, s, e2, e3⟩
      obtain ⟨r, hr⟩ := this
      exact ⟨some r, by simp only [hr]; rfl⟩

/-- **C05 (no other way).**  Whenever a flush succeeds, the store afterwards answers every query as the pending layer
did. -/
theorem C05_flush_faithful (db db' : DB) (d u : Delta) (h : db.mergeWithDelta d = .ok (db', u)) :
    SameAnswers db'.view (Cache.mk db.view d).view := by
  simp only [DB.mergeWithDelta, bind_eq_ok, lift_ok, pure_eq_ok] at h
  obtain ⟨⟨pd, pdu⟩, h1, ⟨dd, ddu⟩, h2, ⟨pb, pbu⟩, h3, ⟨dlb, dlbu⟩, h4, ⟨sh, shu⟩, h5, e⟩ := h
  cases e
  refine ⟨?_, ?_, ?_, ?_, ?_, ?_⟩
  · funext k; exact (getBal_flush h3 k).symm
  · funext k; exact (getVal_flush h1 k).symm
  · funext k; exact (getBal_flush h4 k).symm
  · funext k; exact (getVal_flush h2 k).symm
  · funext k; exact (getBal_flush h5 k).symm
  · intro p
    obtain ⟨o, ho⟩ := getShares_isOk (parent := db.view.shares) (sh := d.shares) (p := p) (po := _) rfl (by
      intro d' x hx
      have := (dbMergeBalances_get h5 (key p d')).2
      rw [hx] at this
      exact ⟨_, by rw [shareOf_db]; exact this.1⟩)
    refine ⟨_, o, rfl, ho, fun d' => ?_⟩
    obtain ⟨po, hpo, hk⟩ := getShares_ok ho
    have hk := (hk d').1
    simp only [DB.view, Except.ok.injEq] at hpo
    subst hpo
    rw [shareOf_db] at hk
    have e : shareOf (nonEmpty (BMap.slice sh p)) d' = bal sh (key p d') :=
      shareOf_db ⟨pd, pb, sh, dlb, dd⟩ p d'
    rw [e]
    have := (dbMergeBalances_get h5 (key p d')).2
    cases hd : d.shares.get (key p d') with
    | none => rw [hd] at this hk; simp only [dval_none] at hk this; unfold bal at *; rw [this]; omega
    | some x =>
      rw [hd] at this hk
      have := combineAmountDelta_ok.1 this.1
      simp only [dval_some] at hk
      omega

/-- **C05 (flush to the database).**  After a history over a database, if all balances can be read through the layer,
the flush succeeds and the database answers every query as the layer did. -/
theorem C05_flush_to_db (db : DB) (as : List (Act Op)) (c : Cache) (st : List Undo)
    (h : runActs step undo (start db.view) as = .ok (c, st))
    (hr : (∀ p, ∃ s, c.view.poolBalance p = .ok s) ∧ (∀ d, ∃ s, c.view.delegationBalance d = .ok s) ∧
      ∀ k, ∃ s, c.view.share k = .ok s) :
    ∃ db' u, db.mergeWithDelta c.delta = .ok (db', u) ∧ SameAnswers db'.view c.view := by
  obtain ⟨ops, c1, h1, h2, -⟩ := undoable.acts (new_inv _) h
  have hA1 := run_inv step_anchored (c := Cache.new db.view)
    (by constructor <;> · intro k e he; simp [Cache.new, Delta.empty] at he) h1
  have hA := h2.anchored hA1
  have hpar1 : c1.parent = db.view := run_inv (Inv := fun c => c.parent = db.view)
    (fun hc hs => (step_parent hs).trans hc) rfl h1
  have hpar : c.parent = db.view := h2.1.trans hpar1
  obtain ⟨pd, pdu, k1⟩ := dbMergeData_isOk (store := db.poolData) (d := c.delta.poolData) (by
    intro k e he
    have := hA.1 k e he
    rw [hpar] at this
    simpa [DB.view] using this)
  obtain ⟨dd, ddu, k2⟩ := dbMergeData_isOk (store := db.delegationData) (d := c.delta.delegationData) (by
    intro k e he
    have := hA.2 k e he
    rw [hpar] at this
    simpa [DB.view] using this)
  obtain ⟨r1, r2, r3⟩ := hr
  unfold Cache.view at r1 r2 r3
  rw [hpar] at r1 r2 r3
  obtain ⟨pb, pbu, k3⟩ := dbMergeBalances_isOk (wrap := Err.accounting) (store := db.poolBalances)
    (d := c.delta.poolBalances) r1
  obtain ⟨dlb, dlbu, k4⟩ := dbMergeBalances_isOk (wrap := Err.accounting) (store := db.delegationBalances)
    (d := c.delta.delegationBalances) r2
  obtain ⟨sh, shu, k5⟩ := dbMergeBalances_isOk (wrap := Err.accounting) (store := db.shares)
    (d := c.delta.shares) r3
  have hm : db.mergeWithDelta c.delta = .ok (⟨pd, pb, sh, dlb, dd⟩, ⟨pdu, pbu, shu, dlbu, ddu⟩) := by
    simp only [DB.mergeWithDelta, bind_eq_ok, lift_ok, pure_eq_ok]
    exact ⟨_, k1, _, k2, _, k3, _, k4, _, k5, rfl⟩
  refine ⟨_, _, hm, ?_⟩
  have := C05_flush_faithful _ _ _ _ hm
  have e : Cache.mk db.view c.delta = c := by rw [← hpar]
  rwa [e] at this

/-- **C05 (rollback).**  The rollback data returned by a flush can be applied and restores all queries; a store
without zero balances (the flush never stores any) is restored exactly. -/
theorem C05_rollback (db db' : DB) (d u : Delta) (h : db.mergeWithDelta d = .ok (db', u)) :
    ∃ db'', db'.undoMergeWithDelta u = .ok db'' ∧ SameAnswers db''.view db.view ∧
      ((∀ k, db.poolBalances.get k ≠ some 0) → (∀ k, db.delegationBalances.get k ≠ some 0) →
        (∀ k, db.shares.get k ≠ some 0) → db'' = db) := by
  simp only [DB.mergeWithDelta, bind_eq_ok, lift_ok, pure_eq_ok] at h
  obtain ⟨⟨pd, pdu⟩, h1, ⟨dd, ddu⟩, h2, ⟨pb, pbu⟩, h3, ⟨dlb, dlbu⟩, h4, ⟨sh, shu⟩, h5, e⟩ := h
  cases e
  obtain ⟨_, g1⟩ := dbMergeData_undo h1
  obtain ⟨_, g2⟩ := dbMergeData_undo h2
  obtain ⟨s3, _, g3, b3, z3⟩ := dbMergeBalances_undo h3
  obtain ⟨s4, _, g4, b4, z4⟩ := dbMergeBalances_undo h4
  obtain ⟨s5, _, g5, b5, z5⟩ := dbMergeBalances_undo h5
  refine ⟨⟨db.poolData, s3, s5, s4, db.delegationData⟩, ?_, ⟨?_, rfl, ?_, rfl, ?_, ?_⟩, ?_⟩
  · simp only [DB.undoMergeWithDelta, bind_eq_ok, lift_ok, pure_eq_ok]
    exact ⟨_, g1, _, g2, _, g3, _, g4, _, g5, rfl⟩
  · funext k; exact congrArg _ (b3 k)
  · funext k; exact congrArg _ (b4 k)
  · funext k; exact congrArg _ (b5 k)
  · intro p
    refine ⟨_, _, rfl, rfl, fun d' => ?_⟩
    have e := shareOf_db ⟨db.poolData, s3, s5, s4, db.delegationData⟩ p d'
    rw [e, shareOf_db, b5]
  · intro a b c
    rw [z3 a, z4 b, z5 c]

/-- **C05 (flush of a layer into the layer below).**  Merging an upper layer into a lower one changes no data answer
and no balance answer that could be read; the shares of a pool keep their values. -/
theorem C05_flush_to_layer (p : View) (d1 d2 m u : Delta) (h : d1.mergeWithDelta d2 = .ok (m, u)) :
    let lower := (Cache.mk p m).view
    let upper := (Cache.mk (Cache.mk p d1).view d2).view
    lower.poolData = upper.poolData ∧ lower.delegationData = upper.delegationData ∧
    (∀ q s, upper.poolBalance q = .ok s → lower.poolBalance q = .ok s) ∧
    (∀ q s, upper.delegationBalance q = .ok s → lower.delegationBalance q = .ok s) ∧
    (∀ k s, upper.share k = .ok s → lower.share k = .ok s) ∧
    (WFA d1.shares → WFA d2.shares → ∀ q o, upper.shares q = .ok o →
      ∃ o', lower.shares q = .ok o' ∧ ∀ d, shareOf o' d = shareOf o d) := by
  simp only [Delta.mergeWithDelta, bind_eq_ok, lift_ok, pure_eq_ok] at h
  obtain ⟨pb, h1, sh, h2, db, h3, ⟨pd, pdu⟩, h4, ⟨dd, ddu⟩, h5, e⟩ := h
  cases e
  refine ⟨?_, ?_, fun q s hs => getBal_merge h1 hs, fun q s hs => getBal_merge h3 hs,
    fun k s hs => getBal_merge h2 hs, ?_⟩
  · funext q; exact (getVal_merge h4 q).symm
  · funext q; exact (getVal_merge h5 q).symm
  · intro w1 w2 q o ho
    obtain ⟨o1, ho1, k2⟩ := getShares_ok ho
    obtain ⟨po, hpo, k1⟩ := getShares_ok ho1
    simp only at k1 k2
    have hraw : ∀ d, dval (sh.get (key q d)) = dval (d1.shares.get (key q d)) + dval (d2.shares.get (key q d)) := by
      intro d
      have := mergeAmounts_ok h2 (key q d)
      cases hd : d2.shares.get (key q d) with
      | none => rw [hd] at this; simp [this]
      | some y => rw [hd] at this; simp only [dval_some] at this ⊢; rw [this, dval_norm]
    obtain ⟨o', ho'⟩ := getShares_isOk (parent := p.shares) (sh := sh) (p := q) hpo (by
      intro d x hx
      obtain ⟨a1, a2⟩ := k1 d
      obtain ⟨b1, b2⟩ := k2 d
      have hr := hraw d
      rw [hx, dval_some] at hr
      refine ⟨shareOf o d, combineAmountDelta_ok.2 ?_⟩
      have hrange : ∀ (c : AmountColl ShareKey), WFA c → (c.get (key q d)).isSome →
          SAmt.InRange (dval (c.get (key q d))) := by
        intro c w hs
        obtain ⟨y, hy⟩ := Option.isSome_iff_exists.1 hs
        rw [hy]; exact (w _ _ hy).2
      cases e1 : d1.shares.get (key q d) with
      | none =>
        cases e2 : d2.shares.get (key q d) with
        | none =>
          have := mergeAmounts_ok h2 (key q d)
          rw [e2, hx, e1] at this
          simp at this
        | some y =>
          have b := b2 (by rw [e2]; rfl)
          have b' := b.2 (hrange _ w2 (by rw [e2]; rfl))
          rw [e1] at a1 hr; simp only [dval_none] at a1 hr
          omega
      | some y1 =>
        have a := a2 (by rw [e1]; rfl)
        have a' := a.2 (hrange _ w1 (by rw [e1]; rfl))
        cases e2 : d2.shares.get (key q d) with
        | none => rw [e2] at b1 hr; simp only [dval_none] at b1 hr; omega
        | some y =>
          have b := b2 (by rw [e2]; rfl)
          have b' := b.2 (hrange _ w2 (by rw [e2]; rfl))
          omega)
    refine ⟨o', ho', fun d => ?_⟩
    obtain ⟨po', hpo', k3⟩ := getShares_ok ho'
    obtain rfl : po' = po := ok_some_inj hpo' hpo
    have a1 := (k1 d).1
    have b1 := (k2 d).1
    have c1 := (k3 d).1
    have := hraw d
    omega

/-- data reads are restored when a merged layer is taken out again -/
theorem getVal_layerUndo {K T : Type} [LinearOrder K] [DecidableEq T] {parent : K → Except Err (Option T)}
    {c d m u : DataColl K T} (hm : mergeDeltaData c d = .ok (m, u))
    (hA : ∀ k e, m.get k = some e → parent k = .ok e.old) :
    ∃ c', undoMergeDeltaData m u = .ok c' ∧ ∀ k, getVal parent c' k = getVal parent c k := by
  obtain ⟨c', h1, -⟩ := C02_undo_merge c d m u hm
  refine ⟨c', h1, fun k => ?_⟩
  rw [undoMergeDeltaData_eq] at h1
  have h2 := (BMap.mergeM_ok_iff _ _ _ _).1 h1 k
  have h := mergeDeltaData_ok hm k
  cases hd : d.get k with
  | none =>
    rw [hd] at h
    rw [h.1] at h2
    simp only [Option.map_none] at h2
    have e : c'.get k = c.get k := by cases hc : c.get k <;> simp_all
    unfold getVal getData; rw [e]
  | some y =>
    rw [hd] at h
    rw [h.1] at h2
    simp only [Option.map_some, mergeStep_ok] at h2
    cases hc : c.get k with
    | none =>
      rw [hc] at h
      simp only at h
      simp only [h.2, reduceCtorEq, false_and, Option.some.injEq, exists_eq_left', false_or] at h2
      rw [getVal_none hc, getVal_some h2.2, hA k y h.2]
      rfl
    | some x =>
      rw [hc] at h
      simp only at h
      simp only [h.2.2, reduceCtorEq, false_and, Option.some.injEq, exists_eq_left', false_or] at h2
      rw [getVal_some hc, getVal_some h2.2]
      simp [DataDelta.invert, h.2.1]

/-- **C05 (taking a layer out again).**  The undo data returned when an upper layer is merged into a lower one can be
applied to the merged layer, and then every query answers as before the merge.  The change sets hold no zero and no
out-of-range balance change, none of the upper layer is −2^127 (cf. `C03_undo_min_fails`), and the data changes start from
what the parent holds. -/
theorem C05_layer_undo (p : View) (d1 d2 m u : Delta) (h : d1.mergeWithDelta d2 = .ok (m, u))
    (w1 : WFA d1.poolBalances ∧ WFA d1.shares ∧ WFA d1.delegationBalances)
    (w2 : WFA d2.poolBalances ∧ WFA d2.shares ∧ WFA d2.delegationBalances)
    (hmin : (∀ k, d2.poolBalances.get k ≠ some (-(2:Int)^127)) ∧ (∀ k, d2.shares.get k ≠ some (-(2:Int)^127)) ∧
      ∀ k, d2.delegationBalances.get k ≠ some (-(2:Int)^127))
    (hp : ∀ k e, m.poolData.get k = some e → p.poolData k = .ok e.old)
    (hd : ∀ k e, m.delegationData.get k = some e → p.delegationData k = .ok e.old) :
    ∃ d', m.undoDeltaMerge u = .ok d' ∧ (⟨p, d'⟩ : Cache).view = (⟨p, d1⟩ : Cache).view := by
  simp only [Delta.mergeWithDelta, bind_eq_ok, lift_ok, pure_eq_ok, Prod.mk.injEq] at h
  obtain ⟨pb, h1, sh, h2, db, h3, ⟨pd, pdu⟩, h4, ⟨dd, ddu⟩, h5, rfl, rfl⟩ := h
  have am : ∀ {K : Type} [LinearOrder K] {c d r : AmountColl K}, WFA c → WFA d →
      (∀ k, d.get k ≠ some (-(2:Int)^127)) → mergeAmounts c d = .ok r → undoMergeAmounts r d = .ok c := by
    intro K _ c d r wc wd hm hh
    refine C03_undo_merge c d r (fun k x hx => ?_) (fun k hk => (wc k 0 hk).1 rfl) (fun k x hx => ?_) hm hh
    · have := (wc k x hx).2; unfold SAmt.InRange at this; rw [I128_eq] at this; exact this
    · have := (wd k x hx).2; unfold SAmt.InRange at this; rw [I128_eq] at this; exact this
  have a1 := am w1.1 w2.1 hmin.1 h1
  have a2 := am w1.2.1 w2.2.1 hmin.2.1 h2
  have a3 := am w1.2.2 w2.2.2 hmin.2.2 h3
  obtain ⟨pd', a4, g4⟩ := getVal_layerUndo h4 hp
  obtain ⟨dd', a5, g5⟩ := getVal_layerUndo h5 hd
  refine ⟨⟨pd', d1.poolBalances, d1.shares, d1.delegationBalances, dd'⟩, ?_, ?_⟩
  · simp only [Delta.undoDeltaMerge, a1, a2, a3, a4, a5]
    rfl
  · simp only [Cache.view]
    rw [funext g4, funext g5]

/-- non-vacuity: pool 1 created in the lower layer; the upper layer delegates 5 and removes nothing -/
example : ∃ m u d', (⟨.ofList [(1, ⟨none, some ⟨0, 10, 0, 0, 0, 0⟩⟩)], .ofList [(1, 10)], .empty, .empty, .empty⟩ : Delta).mergeWithDelta
    ⟨.empty, .ofList [(1, 5)], .ofList [(key 1 2, 5)], .ofList [(2, 5)], .ofList [(2, ⟨none, some ⟨3, 1⟩⟩)]⟩ = .ok (m, u) ∧
    m.undoDeltaMerge u = .ok d' ∧ d'.shares = .empty ∧ d'.poolBalances = .ofList [(1, 10)] := by
  refine ⟨_, _, _, rfl, rfl, ?_, ?_⟩ <;> decide +kernel

/-- **C05 (finding).**  The list of a pool's shares is *not* literally the same before and after a flush: a share
spent to zero is reported as an entry 0 by the layer and not at all after the flush. -/
theorem C05_shares_zero_entry : ∃ (db : DB) (d : Delta) (db' : DB) (u : Delta),
    db.mergeWithDelta d = .ok (db', u) ∧ db'.view.shares 7 = .ok none ∧
    (Cache.mk db.view d).view.shares 7 = .ok (some (BMap.ofList [(20, 0)])) := by
  obtain ⟨⟨db', u⟩, h1, h2⟩ := okAnd_spec
    (x := DB.mergeWithDelta ⟨BMap.empty, BMap.empty, BMap.ofList [(key 7 20, 30)], BMap.empty, BMap.empty⟩
      ⟨BMap.empty, BMap.empty, BMap.ofList [(key 7 20, -30)], BMap.empty, BMap.empty⟩)
    (P := fun r => r.1.view.shares 7 = .ok none) (by decide +kernel)
  exact ⟨_, _, db', u, h1, of_decide_eq_true h2, by decide +kernel⟩

/-- non-vacuity: the example history flushed into the empty database and rolled back -/
example : ∃ c st db' u, runActs step undo (start emptyDB.view) exActs = .ok (c, st) ∧
    emptyDB.mergeWithDelta c.delta = .ok (db', u) ∧ db'.poolBalances.get 7 = some 136 ∧
    db'.shares.get (key 7 20) = some 20 ∧ db'.undoMergeWithDelta u = .ok emptyDB := by
  refine ⟨_, _, _, _, rfl, rfl, ?_, ?_, ?_⟩ <;> decide +kernel

/-! ### C06 -/

/-- **C06 (pools).**  Over any parent whose live pools are balanced, after any history with interleaved undo, every
live pool's balance is pledge + rewards + the sum of its delegations' shares.  Pool ids of creations that were not
undone are new: pairwise different and not used by the parent; created pools have no rewards yet. -/
theorem C06_pool_balance (p : View) (hp : PoolsBalanced p) (as : List (Act Op)) (c : Cache) (st : List Undo)
    (h : runActs step undo (start p) as = .ok (c, st))
    (hrw : ∀ q d, Act.perform (Op.createPool q d) ∈ as → d.rewards = 0)
    (hnd : (createdPools st).Nodup) (hun : ∀ q ∈ createdPools st, Unused p q) :
    PoolsBalanced c.view := by
  obtain ⟨ops, c1, h1, h2, h3⟩ := undoable.acts (new_inv p) h
  rw [h2.view]
  have hrev : createdPools st.reverse = (createdPools st).reverse := by
    unfold createdPools; rw [List.filterMap_reverse]
  refine (run_rawPool (P := p) (seen := []) rfl (new_rawPool hp) (fun q _ hu => new_rawUnused hu) ?_ h1 ?_ ?_).balanced
  · intro q d hq; exact hrw q d (h3 _ hq)
  · rw [hrev]; exact List.nodup_reverse.2 hnd
  · intro q hq
    rw [hrev, List.mem_reverse] at hq
    exact ⟨List.not_mem_nil, hun q hq⟩

/-- **C06 (delegations).**  Over any parent where it holds, after any history a delegation's balance is its share in
its pool – also when the pool was decommissioned – and there are no other shares. -/
theorem C06_delegation_balance (p : View) (hp : DelegationsMatch p) (as : List (Act Op)) (c : Cache) (st : List Undo)
    (h : runActs step undo (start p) as = .ok (c, st)) : DelegationsMatch c.view := by
  obtain ⟨ops, c1, h1, h2, -⟩ := undoable.acts (new_inv p) h
  rw [h2.view]
  exact (run_inv (Inv := RawDel) (fun hi hs => step_rawDel hs hi) (new_rawDel hp) h1).match

/-- the query for one share agrees with the query for all shares, after any history over a database -/
theorem C06_share_queries_agree (p : View) (hp : Coherent p) (as : List (Act Op)) (c : Cache) (st : List Undo)
    (h : runActs step undo (start p) as = .ok (c, st)) : Coherent c.view := by
  obtain ⟨ops, c1, h1, h2, -⟩ := undoable.acts (new_inv p) h
  rw [h2.view]
  refine Coherent.layer ?_ (run_inv step_inv (new_inv p) h1).2.1
  have hpar1 : c1.parent = p := run_inv (Inv := fun c => c.parent = p)
    (fun hc hs => (step_parent hs).trans hc) rfl h1
  rw [hpar1]; exact hp

theorem emptyDB_unused (q : PoolId) : Unused emptyDB.view q := by
  refine ⟨by intro x; simp [DB.view, emptyDB], ?_, by intro d data; simp [DB.view, emptyDB]⟩
  intro o ho
  have : (emptyDB.view).shares q = .ok none := rfl
  rw [this] at ho
  injection ho with ho
  subst ho; rfl

/-- **C06.**  Starting from empty accounting, after any history with interleaved undo in which surviving pool
creations use distinct ids, for every live pool: its balance is pledge + rewards + the sum of its listed shares, and
every listed non-zero share is the balance of an existing delegation of that pool. -/
theorem C06_consistent (as : List (Act Op)) (c : Cache) (st : List Undo)
    (h : runActs step undo (start emptyDB.view) as = .ok (c, st))
    (hrw : ∀ q d, Act.perform (Op.createPool q d) ∈ as → d.rewards = 0) (hnd : (createdPools st).Nodup)
    (p : PoolId) (data : PoolData) (b : Nat) (o : Option (BMap Nat Nat))
    (h1 : c.view.poolData p = .ok (some data)) (h2 : c.view.poolBalance p = .ok b) (h3 : c.view.shares p = .ok o) :
    b = data.pledge + data.rewards + sharesTotal o ∧
    ∀ d od bd, c.view.delegationData d = .ok od → c.view.delegationBalance d = .ok bd →
      (shareOf o d ≠ 0 → shareOf o d = bd ∧ ∃ k, od = some ⟨k, p⟩) ∧
      (∀ k, od = some ⟨k, p⟩ → bd = shareOf o d) := by
  refine ⟨C06_pool_balance emptyDB.view (by intro p d b o hd; simp [DB.view, emptyDB] at hd) as c st h hrw hnd
    (fun q _ => emptyDB_unused q) p data b o h1 h2 h3, ?_⟩
  intro d od bd hd hb
  have hm := C06_delegation_balance emptyDB.view (by
    intro d o b hd hb
    simp only [DB.view, emptyDB, bal, BMap.get_empty, Except.ok.injEq, Option.getD_none] at hd hb
    subst hd; subst hb
    refine ⟨fun _ => rfl, fun q s hs => ?_⟩
    have hs' : (0 : Nat) = s := by injection hs
    rw [← hs']; simp) as c st h
  have hc := C06_share_queries_agree emptyDB.view (DB.coherent _) as c st h p o h3 d
  have hs := (hm d od bd hd hb).2 p _ hc
  constructor
  · intro hne
    split at hs
    · rename_i e
      refine ⟨hs, ?_⟩
      cases od with
      | none => simp at e
      | some x =>
        simp only [Option.map_some, Option.some.injEq] at e
        exact ⟨x.spendDest, by rw [← e]⟩
    · exact absurd hs hne
  · rintro k rfl
    rw [hs]; simp

/-- non-vacuity of `C06_consistent` -/
example : ∃ c st, runActs step undo (start emptyDB.view) exActs = .ok (c, st) ∧
    (createdPools st).Nodup ∧ c.view.poolData 7 = .ok (some { exPool with rewards := 4 }) ∧
    c.view.poolBalance 7 = .ok 136 ∧ c.view.shares 7 = .ok (some (BMap.ofList [(20, 20), (21, 12)])) := by
  refine ⟨_, _, rfl, ?_, ?_, ?_, ?_⟩ <;> decide +kernel

/-- **C06 (the distinct-ids hypothesis is needed).**  The operations themselves accept creating a pool under the id of
a decommissioned pool whose delegations still have shares; the new pool's balance is then below pledge + shares.
(In the node a pool id is derived from a spent output and cannot repeat.) -/
theorem C06_reused_id_unbalanced : ∃ ops c us b o,
    run step (Cache.new emptyDB.view) ops = .ok (c, us) ∧ c.view.poolData 7 = .ok (some exPool) ∧
    c.view.poolBalance 7 = .ok b ∧ c.view.shares 7 = .ok o ∧ b ≠ exPool.pledge + exPool.rewards + sharesTotal o := by
  refine ⟨[.createPool 7 exPool, .createDelegationId 7 20 5, .delegateStaking 20 30, .decommissionPool 7,
    .createPool 7 exPool], _, _, 100, some (BMap.ofList [(20, 30)]), rfl, ?_, ?_, ?_, ?_⟩ <;> decide +kernel

/-- **C06 (finding).**  Delegating to a delegation whose pool was decommissioned is accepted and gives the
non-existing pool a balance. -/
theorem C06_delegate_to_dead_pool : ∃ ops c us,
    run step (Cache.new emptyDB.view) ops = .ok (c, us) ∧ c.view.poolData 7 = .ok none ∧
    c.view.poolBalance 7 = .ok 30 := by
  refine ⟨[.createPool 7 exPool, .createDelegationId 7 20 5, .decommissionPool 7, .delegateStaking 20 30], _, _, rfl,
    ?_, ?_⟩ <;> decide +kernel

/-! ### C07 -/

theorem spendInput_ok {c c' : Cache} {d : DelegationId} {a : Nat} (h : spendInput c d a = .ok c') :
    ∃ u b, spendShare c d a = .ok (c', u) ∧ c'.view.delegationBalance d = .ok b := by
  simp only [spendInput, bind_eq_ok, pure_eq_ok] at h
  obtain ⟨⟨c1, u⟩, h1, b, h2, rfl⟩ := h
  exact ⟨u, b, h1, h2⟩

theorem withdrawn_cons (d d' : DelegationId) (a : Nat) (l : List (DelegationId × Nat)) :
    withdrawn d ((d', a) :: l) = (if d = d' then a else 0) + withdrawn d l := by
  unfold withdrawn
  by_cases e : d = d'
  · subst e; simp
  · have : ¬ d' = d := fun h => e h.symm
    simp [e, this]

theorem spendInputs_raw {l : List (DelegationId × Nat)} {c c' : Cache} (h : spendInputs c l = .ok c')
    (hnn : ∀ d b, c.parent.delegationBalance d = .ok b → 0 ≤ (b : Int) + dval (c.delta.delegationBalances.get d)) :
    ∀ d b, c.parent.delegationBalance d = .ok b →
      (withdrawn d l : Int) ≤ (b : Int) + dval (c.delta.delegationBalances.get d) := by
  induction l generalizing c with
  | nil => intro d b hb; have := hnn d b hb; simpa [withdrawn] using this
  | cons x l ih =>
    obtain ⟨d', a⟩ := x
    simp only [spendInputs, bind_eq_ok] at h
    obtain ⟨c1, h1, h2⟩ := h
    obtain ⟨u, bal', h3, h4⟩ := spendInput_ok h1
    have hpar : c1.parent = c.parent := step_parent (op := .spendShare d' a) h3
    obtain ⟨data, o, db, pb, sh, -, -, -, -, h5, e, -⟩ := spendShare_ok.1 h3
    have hdb : c1.delta.delegationBalances = db := by rw [e]
    have hval : ∀ d, dval (c1.delta.delegationBalances.get d) =
        dval (c.delta.delegationBalances.get d) - if d = d' then (a : Int) else 0 := by
      intro d; rw [hdb, dval_sub h5]
    have hnn1 : ∀ d b, c1.parent.delegationBalance d = .ok b →
        0 ≤ (b : Int) + dval (c1.delta.delegationBalances.get d) := by
      intro d b hb
      by_cases e : d = d'
      · subst e
        obtain ⟨pb, hpb, e1, -⟩ := getBal_ok.1 h4
        obtain rfl : pb = b := ok_some_inj hpb hb
        omega
      · rw [hval, if_neg e]
        have := hnn d b (hpar ▸ hb)
        omega
    intro d b hb
    have := ih h2 hnn1 d b (hpar ▸ hb)
    rw [hval] at this
    rw [withdrawn_cons]
    by_cases e : d = d'
    · rw [if_pos e] at this ⊢; push_cast; omega
    · rw [if_neg e] at this ⊢; push_cast; omega

/-- **C07.**  When all delegation-spending inputs of a transaction are accepted, then for every delegation the sum
withdrawn – however split over inputs and interleaved with others – is at most the balance before the transaction. -/
theorem C07_no_overspend (p : View) (l : List (DelegationId × Nat)) (c : Cache)
    (h : spendInputs (Cache.new p) l = .ok c) (d : DelegationId) :
    (∀ b, p.delegationBalance d = .ok b → withdrawn d l ≤ b) ∧
    (d ∈ l.map (·.1) → ∃ b, p.delegationBalance d = .ok b) := by
  constructor
  · intro b hb
    have := spendInputs_raw h (by intro d b _; simp [Cache.new, Delta.empty]) d b hb
    simpa [Cache.new, Delta.empty] using this
  · have key : ∀ (l : List (DelegationId × Nat)) (c c' : Cache), spendInputs c l = .ok c' → d ∈ l.map (·.1) →
        ∃ b, c.parent.delegationBalance d = .ok b := by
      intro l
      induction l with
      | nil => intro c c' _ hm; simp at hm
      | cons x l ih =>
        obtain ⟨d', a⟩ := x
        intro c c' h hm
        simp only [spendInputs, bind_eq_ok] at h
        obtain ⟨c1, h1, h2⟩ := h
        obtain ⟨u, bal', h3, h4⟩ := spendInput_ok h1
        have hpar : c1.parent = c.parent := step_parent (op := .spendShare d' a) h3
        simp only [List.map_cons, List.mem_cons] at hm
        rcases hm with rfl | hm
        · obtain ⟨pb, hpb, -⟩ := getBal_ok.1 h4
          rw [hpar] at hpb
          exact ⟨pb, hpb⟩
        · rw [← hpar]; exact ih c1 c' h2 hm
    exact key l _ _ h

/-- non-vacuity: three withdrawals of 10 + 5 + 15 from balances 15 and 30 are accepted, one unit more is refused -/
def exDB : DB := ⟨BMap.ofList [(7, exPool)], BMap.ofList [(7, 145)], BMap.ofList [(key 7 20, 30), (key 7 21, 15)],
  BMap.ofList [(20, 30), (21, 15)], BMap.ofList [(20, ⟨5, 7⟩), (21, ⟨5, 7⟩)]⟩

example : ∃ c, spendInputs (Cache.new exDB.view) [(20, 10), (21, 15), (20, 20)] = .ok c ∧
    c.view.poolBalance 7 = .ok 100 := by
  refine ⟨_, rfl, ?_⟩
  decide +kernel

example : (spendInputs (Cache.new exDB.view) [(20, 10), (21, 15), (20, 21)]).isOk = false := by decide +kernel

end Verif.Pos
