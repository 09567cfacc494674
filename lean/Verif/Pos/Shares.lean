import Verif.Pos.Lemmas
import Verif.Pos.Spec
import Verif.Base.BMapSum

/-!
# Lemmas on the share maps and on bookkeeping consistency
-/

namespace Verif
theorem BMap.get_slice {V : Type} (m : BMap (Nat ×ₗ Nat) V) (a b : Nat) :
    (m.slice a).get b = m.get (toLex (a, b)) := by
  apply Option.ext
  intro v
  rw [← BMap.mem_entries, ← BMap.mem_entries]
  unfold BMap.slice
  simp only [List.mem_filterMap]
  constructor
  · rintro ⟨⟨k, w⟩, h1, h2⟩
    simp only at h2
    split at h2
    · rename_i e
      cases h2
      rw [← e]; exact h1
    · cases h2
  · intro h
    refine ⟨_, h, ?_⟩
    simp
end Verif

namespace Verif.Pos
open Verif Verif.Accounting Verif.History

theorem get_slice {V : Type} (m : BMap ShareKey V) (p d : Nat) : (m.slice p).get d = m.get (key p d) :=
  BMap.get_slice m p d

theorem nonEmpty_get {V : Type} (m : BMap Nat V) (d : Nat) : (nonEmpty m).bind (fun m => m.get d) = m.get d := by
  unfold nonEmpty
  split
  · rename_i h
    have : m.entries = [] := by simpa using h
    show none = m.get d
    unfold BMap.get
    rw [this]; rfl
  · rfl

theorem nonEmpty_none {V : Type} {m : BMap Nat V} (h : nonEmpty m = none) (d : Nat) : m.get d = none := by
  rw [← nonEmpty_get, h]; rfl

theorem nonEmpty_some {V : Type} {m m' : BMap Nat V} (h : nonEmpty m = some m') : m' = m := by
  unfold nonEmpty at h; split at h <;> simp_all

theorem key_inj {p d p' d' : Nat} : key p d = key p' d' ↔ p = p' ∧ d = d' := by
  unfold key
  rw [toLex_inj, Prod.mk.injEq]

theorem intoUnsigned_some {x : Int} {v : Nat} : SAmt.intoUnsigned x = some v ↔ 0 ≤ x ∧ (v : Int) = x := by
  unfold SAmt.intoUnsigned
  split
  · simp only [Option.some.injEq]; omega
  · simp only [reduceCtorEq, false_iff]; omega

/-- what a successful "shares" query through a layer returns -/
theorem getShares_ok {parent : PoolId → Except Err (Option (BMap Nat Nat))} {sh : AmountColl ShareKey} {p : PoolId}
    {o : Option (BMap Nat Nat)} (h : getShares parent sh p = .ok o) :
    ∃ po, parent p = .ok po ∧ ∀ d, (shareOf o d : Int) = shareOf po d + dval (sh.get (key p d)) ∧
      ((sh.get (key p d)).isSome → (shareOf po d : Int) < I128 ∧
        (SAmt.InRange (dval (sh.get (key p d))) → (shareOf o d : Int) < I128)) := by
  unfold getShares at h
  rw [bind_eq_ok] at h
  obtain ⟨po, h1, h⟩ := h
  refine ⟨po, h1, ?_⟩
  unfold cachedShares at h
  intro d
  cases hc : nonEmpty (sh.slice p) with
  | none =>
    have hd := nonEmpty_none hc d
    rw [get_slice] at hd
    rw [hd]
    cases po <;> · rw [hc] at h; cases h; simp
  | some m =>
    have := nonEmpty_some hc
    subst this
    rw [hc] at h
    cases po with
    | none =>
      simp only [bind_eq_ok, pure_eq_ok] at h
      obtain ⟨r, h2, rfl⟩ := h
      have hk := (BMap.mergeM_ok_iff _ _ _ _).1 h2 d
      rw [get_slice] at hk
      cases hs : sh.get (key p d) with
      | none => rw [hs] at hk; simp [shareOf, hk]
      | some x =>
        rw [hs] at hk
        simp only [bind_eq_ok, okOr_eq_ok, pure_eq_ok] at hk
        obtain ⟨v, h3, h4⟩ := hk
        obtain ⟨h5, h6⟩ := intoUnsigned_some.1 h3
        simp only [shareOf, Option.bind_some, Option.bind_none, Option.getD_none, ← h4, Option.getD_some, dval_some]
        refine ⟨by push_cast; omega, fun _ => ⟨by rw [I128_eq]; norm_num, fun hr => ?_⟩⟩
        have := hr.2
        omega
    | some m1 =>
      simp only [bind_eq_ok, pure_eq_ok] at h
      obtain ⟨r, h2, rfl⟩ := h
      have hk := (BMap.mergeM_ok_iff _ _ _ _).1 h2 d
      rw [get_slice] at hk
      cases hs : sh.get (key p d) with
      | none => rw [hs] at hk; simp only at hk; simp [shareOf, hk]
      | some x =>
        rw [hs] at hk
        have hk' : combineAmountDelta ((m1.get d).getD 0) (some x) = .ok (shareOf (some r) d) := by
          simp only [bind_eq_ok, okOr_eq_ok, pure_eq_ok] at hk
          obtain ⟨b, e1, s, e2, v, e3, e4⟩ := hk
          unfold combineAmountDelta
          have ev : shareOf (some r) d = v := by simp [shareOf, ← e4]
          rw [e1]
          simp only [okOr, bind, Except.bind]
          rw [e2]
          simp only
          rw [e3, ev]
        rw [combineAmountDelta_ok] at hk'
        have e : shareOf (some m1) d = (m1.get d).getD 0 := rfl
        rw [e]
        simp only [dval_some, Option.isSome_some, forall_const]
        refine ⟨by omega, by omega, fun _ => by omega⟩

/-- net change recorded by a layer for all shares of a pool -/
def dsum (sh : AmountColl ShareKey) (p : PoolId) : Int := (sh.slice p).sumV (fun _ x => x)

theorem getShares_total {parent : PoolId → Except Err (Option (BMap Nat Nat))} {sh : AmountColl ShareKey}
    {p : PoolId} {o : Option (BMap Nat Nat)} (h : getShares parent sh p = .ok o) :
    ∃ po, parent p = .ok po ∧ (sharesTotal o : Int) = sharesTotal po + dsum sh p := by
  obtain ⟨po, h1, h2⟩ := getShares_ok h
  refine ⟨po, h1, ?_⟩
  have key1 : ∀ x : Option (BMap Nat Nat),
      (sharesTotal x : Int) = ((x.getD BMap.empty).sumV (fun _ v => (v : Int)) : Int) := by
    intro x
    cases x with
    | none => rfl
    | some m =>
      simp only [sharesTotal, Option.getD_some, BMap.sumV]
      induction m.entries with
      | nil => rfl
      | cons a t ih => simp only [List.map_cons, List.sum_cons, Nat.cast_add, ih]
  have key2 : ∀ (x : Option (BMap Nat Nat)) d, (((x.getD BMap.empty).get d).map (fun v : Nat => (v : Int))).getD 0
      = (shareOf x d : Int) := by
    intro x d
    cases x with
    | none => rfl
    | some m => simp only [Option.getD_some, shareOf, Option.bind_some]; cases m.get d <;> rfl
  rw [key1, key1]
  unfold dsum
  apply BMap.sumV_add (fun v : Nat => (v : Int)) (fun v : Nat => (v : Int)) (fun x : Int => x)
  intro d
  rw [key2, key2, (h2 d).1, get_slice]
  simp [dval]

theorem dsum_point {sh sh' : AmountColl ShareKey} {p d : Nat} {a : Int}
    (h : ∀ k, dval (sh'.get k) = dval (sh.get k) + if k = key p d then a else 0) (q : PoolId) :
    dsum sh' q = dsum sh q + if q = p then a else 0 := by
  unfold dsum
  by_cases e : q = p
  · subst e
    rw [if_pos rfl]
    apply BMap.sumV_point (fun x : Int => x) (fun x : Int => x) _ _ d
    intro d'
    rw [get_slice, get_slice]
    have := h (key q d')
    simp only [key_inj, true_and, dval] at this
    simpa using this
  · rw [if_neg e, add_zero]
    apply BMap.sumV_same (fun x : Int => x) (fun x : Int => x)
    intro d'
    rw [get_slice, get_slice]
    have := h (key q d')
    simp only [key_inj, e, false_and, dval, if_false, add_zero] at this
    simpa using this

theorem dsum_none {sh : AmountColl ShareKey} {p : Nat} (h : ∀ d, sh.get (key p d) = none) : dsum sh p = 0 := by
  unfold dsum
  have := BMap.sumV_same (fun x : Int => x) (fun x : Int => x) (sh.slice p) (BMap.empty : BMap Nat Int)
    (by intro d; rw [get_slice, h d]; rfl)
  simpa using this

/-! ### Bookkeeping invariants, on raw numbers -/

def RawPool (c : Cache) : Prop := ∀ p d b o,
  c.view.poolData p = .ok (some d) → c.parent.poolBalance p = .ok b → c.parent.shares p = .ok o →
    (b : Int) + dval (c.delta.poolBalances.get p) = d.pledge + d.rewards + sharesTotal o + dsum c.delta.shares p

def RawUnused (c : Cache) (p : PoolId) : Prop :=
  (∀ x, c.view.poolData p ≠ .ok (some x)) ∧ (∀ d, c.delta.shares.get (key p d) = none) ∧
  ∀ d data, c.view.delegationData d = .ok (some data) → data.sourcePool ≠ p

def RawDel (c : Cache) : Prop := ∀ d o b,
  c.view.delegationData d = .ok o → c.parent.delegationBalance d = .ok b →
    (o = none → (b : Int) + dval (c.delta.delegationBalances.get d) = 0) ∧
    ∀ q s, c.parent.share (key q d) = .ok s →
      (s : Int) + dval (c.delta.shares.get (key q d)) =
        if o.map (·.sourcePool) = some q then (b : Int) + dval (c.delta.delegationBalances.get d) else 0

theorem dval_sub' {K : Type} [LinearOrder K] {c r : AmountColl K} {k : K} {a : Nat} (hm : subUnsigned c k a = .ok r) (k' : K) :
    dval (r.get k') = dval (c.get k') + if k' = k then -(a : Int) else 0 := by
  rw [dval_sub hm]; split <;> omega

theorem get_add_ne {K : Type} [LinearOrder K] {c r : AmountColl K} {k k' : K} {a : Nat} (h : addUnsigned c k a = .ok r)
    (hne : k' ≠ k) : r.get k' = c.get k' := by
  rw [get_merged (addUnsigned_ok.1 h).2, if_neg hne]

theorem get_sub_ne {K : Type} [LinearOrder K] {c r : AmountColl K} {k k' : K} {a : Nat} (h : subUnsigned c k a = .ok r)
    (hne : k' ≠ k) : r.get k' = c.get k' := by
  rw [get_merged (subUnsigned_ok.1 h).2, if_neg hne]

theorem ok_some_inj {A E : Type} {x : Except E A} {a b : A} (h1 : x = .ok a) (h2 : x = .ok b) : a = b := by
  rw [h1] at h2; injection h2

theorem step_rawUnused {c c' : Cache} {op : Op} {u : Undo} {q : PoolId} (h : step c op = .ok (c', u))
    (hq : q ∉ createdPools [u]) (hu : RawUnused c q) : RawUnused c' q := by
  obtain ⟨u1, u2, u3⟩ := hu
  cases op with
  | createPool p d =>
    obtain ⟨bs, pd, du, h1, h2, h3, h4, rfl, rfl⟩ := createPool_ok.1 h
    have hne : q ≠ p := by simpa [createdPools] using hq
    refine ⟨fun x => ?_, u2, u3⟩
    have := getVal_merged (parent := c.parent.poolData) h4 q
    rw [if_neg hne] at this
    intro hx; exact u1 x (this.symm.trans hx)
  | decommissionPool p =>
    obtain ⟨d, b, bs, pd, du, h1, h2, h3, h4, rfl, rfl⟩ := decommissionPool_ok.1 h
    refine ⟨fun x hx => ?_, u2, u3⟩
    have := getVal_merged (parent := c.parent.poolData) h4 q
    by_cases e : q = p
    · rw [if_pos e] at this; have := this.symm.trans hx; simp at this
    · rw [if_neg e] at this; exact u1 x (this.symm.trans hx)
  | increaseStakerRewards p a =>
    obtain ⟨d, bs, pd, du, h1, h2, h3, h4, rfl, rfl⟩ := increaseStakerRewards_ok.1 h
    refine ⟨fun x hx => ?_, u2, u3⟩
    have := getVal_merged (parent := c.parent.poolData) h4 q
    by_cases e : q = p
    · subst e; exact u1 _ h1
    · rw [if_neg e] at this; exact u1 x (this.symm.trans hx)
  | createDelegationId t d k =>
    obtain ⟨x, dd, du, h1, h2, h3, rfl, rfl⟩ := createDelegationId_ok.1 h
    refine ⟨u1, u2, fun d' data hx => ?_⟩
    have := getVal_merged (parent := c.parent.delegationData) h3 d'
    by_cases e : d' = d
    · rw [if_pos e] at this
      have := this.symm.trans hx
      simp only [Except.ok.injEq, Option.some.injEq] at this
      subst this
      rintro rfl
      exact u1 _ h1
    · rw [if_neg e] at this; exact u3 d' data (this.symm.trans hx)
  | deleteDelegationId d =>
    obtain ⟨data, dd, du, h1, h2, h3, h4, h5, rfl, rfl⟩ := deleteDelegationId_ok.1 h
    refine ⟨u1, u2, fun d' data' hx => ?_⟩
    have := getVal_merged (parent := c.parent.delegationData) h5 d'
    by_cases e : d' = d
    · rw [if_pos e] at this; have := this.symm.trans hx; simp at this
    · rw [if_neg e] at this; exact u3 d' data' (this.symm.trans hx)
  | delegateStaking d a =>
    obtain ⟨data, db, pb, sh, h1, h2, h3, h4, rfl, rfl⟩ := delegateStaking_ok.1 h
    refine ⟨u1, fun d' => ?_, u3⟩
    have hne := u3 _ _ h1
    rw [get_add_ne h4 (by rw [Ne, key_inj]; rintro ⟨rfl, -⟩; exact hne rfl)]
    exact u2 d'
  | spendShare d a =>
    obtain ⟨data, o, db, pb, sh, h1, h2, h3, h4, h5, rfl, rfl⟩ := spendShare_ok.1 h
    refine ⟨u1, fun d' => ?_, u3⟩
    have hne := u3 _ _ h1
    rw [get_sub_ne h2 (by rw [Ne, key_inj]; rintro ⟨rfl, -⟩; exact hne rfl)]
    exact u2 d'

theorem step_rawPool {c c' : Cache} {op : Op} {u : Undo} (h : step c op = .ok (c', u)) (hr : RawPool c)
    (hfresh : ∀ p d, op = .createPool p d → d.rewards = 0 ∧ RawUnused c p ∧ Unused c.parent p) : RawPool c' := by
  cases op with
  | createPool p d =>
    obtain ⟨bs, pd, du, h1, h2, h3, h4, rfl, rfl⟩ := createPool_ok.1 h
    obtain ⟨hr0, hu, hup⟩ := hfresh p d rfl
    intro q e b o hq hb ho
    have := (getVal_merged (parent := c.parent.poolData) h4 q).symm.trans hq
    simp only at hb ho ⊢
    rw [dval_add h3]
    by_cases eq : q = p
    · subst eq
      rw [if_pos rfl] at this ⊢
      simp only [Except.ok.injEq, Option.some.injEq] at this
      subst this
      obtain ⟨pb, hpb, e1, -⟩ := getBal_ok.1 h2
      obtain rfl : pb = b := ok_some_inj hpb hb
      rw [hup.2.1 o ho, dsum_none hu.2.1, hr0]
      push_cast at e1 ⊢
      omega
    · rw [if_neg eq] at this
      rw [if_neg eq, add_zero]
      exact hr q e b o this hb ho
  | decommissionPool p =>
    obtain ⟨d, b', bs, pd, du, h1, h2, h3, h4, rfl, rfl⟩ := decommissionPool_ok.1 h
    intro q e b o hq hb ho
    have := (getVal_merged (parent := c.parent.poolData) h4 q).symm.trans hq
    simp only at hb ho ⊢
    rw [dval_sub h3]
    by_cases eq : q = p
    · rw [if_pos eq] at this; simp at this
    · rw [if_neg eq] at this
      rw [if_neg eq, sub_zero]
      exact hr q e b o this hb ho
  | increaseStakerRewards p a =>
    obtain ⟨d, bs, pd, du, h1, h2, h3, h4, rfl, rfl⟩ := increaseStakerRewards_ok.1 h
    intro q e b o hq hb ho
    have := (getVal_merged (parent := c.parent.poolData) h4 q).symm.trans hq
    simp only at hb ho ⊢
    rw [dval_add h2]
    by_cases eq : q = p
    · subst eq
      rw [if_pos rfl] at this ⊢
      simp only [Except.ok.injEq, Option.some.injEq] at this
      subst this
      have := hr q d b o h1 hb ho
      simp only
      push_cast
      omega
    · rw [if_neg eq] at this
      rw [if_neg eq, add_zero]
      exact hr q e b o this hb ho
  | createDelegationId t d k =>
    obtain ⟨x, dd, du, h1, h2, h3, rfl, rfl⟩ := createDelegationId_ok.1 h
    exact hr
  | deleteDelegationId d =>
    obtain ⟨data, dd, du, h1, h2, h3, h4, h5, rfl, rfl⟩ := deleteDelegationId_ok.1 h
    exact hr
  | delegateStaking d a =>
    obtain ⟨data, db, pb, sh, h1, h2, h3, h4, rfl, rfl⟩ := delegateStaking_ok.1 h
    intro q e b o hq hb ho
    have := hr q e b o hq hb ho
    simp only at hb ho ⊢
    rw [dval_add h3, dsum_point (fun k => dval_add h4 k) q]
    omega
  | spendShare d a =>
    obtain ⟨data, x, db, pb, sh, h1, h2, h3, h4, h5, rfl, rfl⟩ := spendShare_ok.1 h
    intro q e b o hq hb ho
    have := hr q e b o hq hb ho
    simp only at hb ho ⊢
    rw [dsum_point (fun k => dval_sub' h2 k) q]
    rcases h4 with ⟨ex, h4⟩ | ⟨rfl, rfl⟩
    · rw [dval_sub' h4]; omega
    · have hne : q ≠ data.sourcePool := by
        rintro rfl
        have := ok_some_inj h3 hq
        simp at this
      rw [if_neg hne]; omega

theorem step_rawDel {c c' : Cache} {op : Op} {u : Undo} (h : step c op = .ok (c', u)) (hr : RawDel c) : RawDel c' := by
  cases op with
  | createPool p d =>
    obtain ⟨bs, pd, du, h1, h2, h3, h4, rfl, rfl⟩ := createPool_ok.1 h
    exact hr
  | decommissionPool p =>
    obtain ⟨d, b', bs, pd, du, h1, h2, h3, h4, rfl, rfl⟩ := decommissionPool_ok.1 h
    exact hr
  | increaseStakerRewards p a =>
    obtain ⟨d, bs, pd, du, h1, h2, h3, h4, rfl, rfl⟩ := increaseStakerRewards_ok.1 h
    exact hr
  | createDelegationId t d k =>
    obtain ⟨x, dd, du, h1, h2, h3, rfl, rfl⟩ := createDelegationId_ok.1 h
    intro d' o b hd hb
    have := (getVal_merged (parent := c.parent.delegationData) h3 d').symm.trans hd
    simp only at hb ⊢
    by_cases e : d' = d
    · subst e
      rw [if_pos rfl] at this
      simp only [Except.ok.injEq] at this
      subst this
      obtain ⟨g1, g2⟩ := hr d' none b h2 hb
      have g1 := g1 rfl
      refine ⟨by simp, fun q s hs => ?_⟩
      have := g2 q s hs
      rw [g1]; simpa using this
    · rw [if_neg e] at this
      exact hr d' o b this hb
  | deleteDelegationId d =>
    obtain ⟨data, dd, du, h1, h2, h3, h4, h5, rfl, rfl⟩ := deleteDelegationId_ok.1 h
    intro d' o b hd hb
    have := (getVal_merged (parent := c.parent.delegationData) h5 d').symm.trans hd
    simp only at hb ⊢
    by_cases e : d' = d
    · subst e
      rw [if_pos rfl] at this
      simp only [Except.ok.injEq] at this
      subst this
      obtain ⟨pb, hpb, e1, -⟩ := getBal_ok.1 h2
      obtain rfl : pb = b := ok_some_inj hpb hb
      obtain ⟨g1, g2⟩ := hr d' (some data) pb h1 hb
      push_cast at e1
      refine ⟨fun _ => e1.symm, fun q s hs => ?_⟩
      have := g2 q s hs
      rw [this, ← e1]; simp
    · rw [if_neg e] at this
      exact hr d' o b this hb
  | delegateStaking d a =>
    obtain ⟨data, db, pb, sh, h1, h2, h3, h4, rfl, rfl⟩ := delegateStaking_ok.1 h
    intro d' o b hd hb
    obtain ⟨g1, g2⟩ := hr d' o b hd hb
    simp only at hb ⊢
    by_cases e : d' = d
    · subst e
      obtain rfl : some data = o := ok_some_inj h1 hd
      refine ⟨by simp, fun q s hs => ?_⟩
      have := g2 q s hs
      rw [dval_add h4, dval_add h2, if_pos rfl]
      simp only [key_inj, and_true, Option.map_some, Option.some.injEq] at this ⊢
      by_cases e2 : data.sourcePool = q
      · subst e2
        simp only [if_true] at this ⊢
        omega
      · rw [if_neg e2] at this ⊢
        rw [if_neg (fun h => e2 h.symm)]
        omega
    · refine ⟨fun ho => ?_, fun q s hs => ?_⟩
      · rw [dval_add h2, if_neg e]; have := g1 ho; omega
      · have := g2 q s hs
        rw [dval_add h4, dval_add h2, if_neg e, if_neg (by rw [key_inj]; exact fun h => e h.2)]
        simpa using this
  | spendShare d a =>
    obtain ⟨data, x, db, pb, sh, h1, h2, h3, h4, h5, rfl, rfl⟩ := spendShare_ok.1 h
    intro d' o b hd hb
    obtain ⟨g1, g2⟩ := hr d' o b hd hb
    simp only at hb ⊢
    by_cases e : d' = d
    · subst e
      obtain rfl : some data = o := ok_some_inj h1 hd
      refine ⟨by simp, fun q s hs => ?_⟩
      have := g2 q s hs
      rw [dval_sub h2, dval_sub h5, if_pos rfl]
      simp only [key_inj, and_true, Option.map_some, Option.some.injEq] at this ⊢
      by_cases e2 : data.sourcePool = q
      · subst e2
        simp only [if_true] at this ⊢
        omega
      · rw [if_neg e2] at this ⊢
        rw [if_neg (fun h => e2 h.symm)]
        omega
    · refine ⟨fun ho => ?_, fun q s hs => ?_⟩
      · rw [dval_sub h5, if_neg e]; have := g1 ho; omega
      · have := g2 q s hs
        rw [dval_sub h2, dval_sub h5, if_neg e, if_neg (by rw [key_inj]; exact fun h => e h.2)]
        simpa using this

theorem RawDel.match {c : Cache} (h : RawDel c) : DelegationsMatch c.view := by
  intro d o b hd hb
  obtain ⟨pb, hpb, e1, -⟩ := getBal_ok.1 hb
  obtain ⟨g1, g2⟩ := h d o pb hd hpb
  refine ⟨fun ho => by have := g1 ho; omega, fun q s hs => ?_⟩
  obtain ⟨ps, hps, e2, -⟩ := getBal_ok.1 hs
  have := g2 q ps hps
  split at this
  · rename_i e; rw [if_pos e]; omega
  · rename_i e; rw [if_neg e]; omega

theorem RawPool.balanced {c : Cache} (h : RawPool c) : PoolsBalanced c.view := by
  intro p d b o hd hb ho
  obtain ⟨pb, hpb, e1, -⟩ := getBal_ok.1 hb
  obtain ⟨po, hpo, e2⟩ := getShares_total ho
  have := h p d pb po hd hpb hpo
  omega

theorem new_view (p : View) : (Cache.new p).view = p := by
  have h1 : ∀ (f : Nat → Except Err Nat), getBal Err.accounting f (BMap.empty : AmountColl Nat) = f := by
    intro f; funext k
    simp only [getBal, BMap.get_empty, combineAmountDelta]
    cases f k <;> rfl
  have h2 : getBal Err.accounting p.share (BMap.empty : AmountColl ShareKey) = p.share := by
    funext k
    simp only [getBal, BMap.get_empty, combineAmountDelta]
    cases p.share k <;> rfl
  have h3 : getShares p.shares BMap.empty = p.shares := by
    funext k
    unfold getShares
    have : cachedShares BMap.empty k = none := rfl
    rw [this]
    cases p.shares k with
    | error e => rfl
    | ok o => cases o <;> rfl
  unfold Cache.view Cache.new Delta.empty
  simp only [h1, h2, h3]
  congr 1

theorem new_rawPool {p : View} (h : PoolsBalanced p) : RawPool (Cache.new p) := by
  intro q d b o hd hb ho
  rw [new_view] at hd
  have := h q d b o hd hb ho
  simp only [Cache.new, Delta.empty, BMap.get_empty, dval_none]
  rw [dsum_none (by intro d; rfl)]
  omega

theorem new_rawDel {p : View} (h : DelegationsMatch p) : RawDel (Cache.new p) := by
  intro d o b hd hb
  rw [new_view] at hd
  obtain ⟨g1, g2⟩ := h d o b hd hb
  simp only [Cache.new, Delta.empty, BMap.get_empty, dval_none]
  refine ⟨fun ho => by have := g1 ho; omega, fun q s hs => ?_⟩
  have := g2 q s hs
  subst this
  split <;> simp

theorem new_rawUnused {p : View} {q : PoolId} (h : Unused p q) : RawUnused (Cache.new p) q := by
  refine ⟨?_, fun d => rfl, ?_⟩
  · rw [new_view]; exact h.1
  · rw [new_view]; exact h.2.2

theorem createdPools_cons (u : Undo) (us : List Undo) :
    createdPools (u :: us) = createdPools [u] ++ createdPools us := by
  unfold createdPools
  rw [← List.filterMap_append]; rfl

theorem step_created {c c' : Cache} {p : PoolId} {d : PoolData} {u : Undo}
    (h : step c (.createPool p d) = .ok (c', u)) : createdPools [u] = [p] := by
  obtain ⟨bs, pd, du, -, -, -, -, -, rfl⟩ := createPool_ok.1 h
  rfl

theorem run_rawPool {P : View} {ops : List Op} {c c' : Cache} {us : List Undo} {seen : List PoolId}
    (hpar : c.parent = P) (hr : RawPool c) (hun : ∀ p, p ∉ seen → Unused P p → RawUnused c p)
    (hrw : ∀ p d, Op.createPool p d ∈ ops → d.rewards = 0)
    (h : run step c ops = .ok (c', us))
    (hnd : (createdPools us).Nodup) (hdis : ∀ p ∈ createdPools us, p ∉ seen ∧ Unused P p) : RawPool c' := by
  induction ops generalizing c us seen with
  | nil => cases h; exact hr
  | cons op ops ih =>
    obtain ⟨c1, u, us', h1, h2, rfl⟩ := run_cons_ok h
    rw [createdPools_cons] at hnd hdis
    refine ih (seen := createdPools [u] ++ seen) ((step_parent h1).trans hpar) ?_ ?_
      (fun p d hm => hrw p d (List.mem_cons_of_mem _ hm)) h2 (List.nodup_append.1 hnd).2.1 ?_
    · refine step_rawPool h1 hr ?_
      rintro p d rfl
      have hc := step_created h1
      have := hdis p (by rw [hc]; simp)
      exact ⟨hrw p d (by simp), hun p this.1 this.2, hpar ▸ this.2⟩
    · intro p hp hu
      rw [List.mem_append, not_or] at hp
      exact step_rawUnused h1 hp.1 (hun p hp.2 hu)
    · intro p hp
      have := hdis p (List.mem_append_right _ hp)
      refine ⟨?_, this.2⟩
      rw [List.mem_append, not_or]
      refine ⟨fun hp' => ?_, this.1⟩
      exact (List.nodup_append.1 hnd).2.2 p hp' p hp rfl

theorem Coherent.layer {c : Cache} (hP : Coherent c.parent) (hi : WFA c.delta.shares) : Coherent c.view := by
  intro p o ho d
  obtain ⟨po, hpo, h⟩ := getShares_ok ho
  obtain ⟨h1, h2⟩ := h d
  refine getBal_ok.2 ⟨shareOf po d, hP p po hpo d, h1, fun hs => ⟨(h2 hs).1, (h2 hs).2 ?_⟩⟩
  obtain ⟨x, hx⟩ := Option.isSome_iff_exists.1 hs
  rw [hx]
  exact (hi _ _ hx).2

theorem DB.coherent (db : DB) : Coherent db.view := by
  intro p o ho d
  simp only [DB.view, Except.ok.injEq] at ho ⊢
  subst ho
  unfold shareOf bal
  rw [nonEmpty_get, get_slice]

end Verif.Pos
