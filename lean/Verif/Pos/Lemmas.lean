import Verif.Pos.Model

namespace Verif.Pos
open Verif Verif.Accounting Verif.History

@[simp] theorem lift_ok {A : Type} {x : Except Accounting.Err A} {a : A} : lift x = .ok a ↔ x = .ok a :=
  mapError_ok

theorem mapErr_ok {E E' A : Type} {x : Except E A} {f : E → E'} {a : A} : x.mapError f = .ok a ↔ x = .ok a := by
  cases x <;> simp [Except.mapError]

theorem poolExists_ok {v : View} {p : PoolId} {b : Bool} :
    v.poolExists p = .ok b ↔ ∃ d, v.poolData p = .ok d ∧ d.isSome = b := by
  simp only [View.poolExists, bind_eq_ok, pure_eq_ok]

/-! ### Inversion of every operation -/

theorem createPool_ok {c c' : Cache} {p : PoolId} {d : PoolData} {u : Undo} :
    createPool c p d = .ok (c', u) ↔ ∃ bs pd du, c.view.poolData p = .ok none ∧ c.view.poolBalance p = .ok 0 ∧
      addUnsigned c.delta.poolBalances p d.pledge = .ok bs ∧
      mergeDeltaDataElement c.delta.poolData p ⟨none, some d⟩ = .ok (pd, du) ∧
      c' = { c with delta := { c.delta with poolBalances := bs, poolData := pd } } ∧ u = .createPool p d.pledge du := by
  simp only [createPool, bind_eq_ok, ensure_eq_ok, lift_ok, mapErr_ok, pure_eq_ok, Prod.mk.injEq]
  constructor
  · rintro ⟨od, h1, _, h2, b, h3, _, h4, bs, h5, ⟨pd, du⟩, h6, rfl, rfl⟩
    have : od = none := by simpa using h2
    subst this
    have : b = 0 := by omega
    subst this
    exact ⟨bs, pd, du, h1, h3, h5, h6, rfl, rfl⟩
  · rintro ⟨bs, pd, du, h1, h3, h5, h6, rfl, rfl⟩
    exact ⟨none, h1, (), rfl, 0, h3, (), by omega, bs, h5, ⟨pd, du⟩, h6, rfl, rfl⟩

theorem decommissionPool_ok {c c' : Cache} {p : PoolId} {u : Undo} :
    decommissionPool c p = .ok (c', u) ↔ ∃ d b bs pd du, c.view.poolData p = .ok (some d) ∧
      c.view.poolBalance p = .ok b ∧ subUnsigned c.delta.poolBalances p b = .ok bs ∧
      mergeDeltaDataElement c.delta.poolData p ⟨some d, none⟩ = .ok (pd, du) ∧
      c' = { c with delta := { c.delta with poolBalances := bs, poolData := pd } } ∧
      u = .decommissionPool p b du := by
  simp only [decommissionPool, bind_eq_ok, okOr_eq_ok, lift_ok, pure_eq_ok, Prod.mk.injEq]
  constructor
  · rintro ⟨od, h1, d, rfl, b, h3, bs, h5, ⟨pd, du⟩, h6, rfl, rfl⟩
    exact ⟨d, b, bs, pd, du, h1, h3, h5, h6, rfl, rfl⟩
  · rintro ⟨d, b, bs, pd, du, h1, h3, h5, h6, rfl, rfl⟩
    exact ⟨some d, h1, d, rfl, b, h3, bs, h5, ⟨pd, du⟩, h6, rfl, rfl⟩

theorem increase_ok {d new : PoolData} {a : Nat} :
    d.increase a = .ok new ↔ d.rewards + a < U128 ∧ new = { d with rewards := d.rewards + a } := by
  simp only [PoolData.increase, bind_eq_ok, okOr_eq_ok, pure_eq_ok, Amt_add_some]
  constructor
  · rintro ⟨r, ⟨h1, rfl⟩, rfl⟩; exact ⟨h1, rfl⟩
  · rintro ⟨h1, rfl⟩; exact ⟨_, ⟨h1, rfl⟩, rfl⟩

theorem increaseStakerRewards_ok {c c' : Cache} {p : PoolId} {a : Nat} {u : Undo} :
    increaseStakerRewards c p a = .ok (c', u) ↔ ∃ d bs pd du, c.view.poolData p = .ok (some d) ∧
      addUnsigned c.delta.poolBalances p a = .ok bs ∧ d.rewards + a < U128 ∧
      mergeDeltaDataElement c.delta.poolData p ⟨some d, some { d with rewards := d.rewards + a }⟩ = .ok (pd, du) ∧
      c' = { c with delta := { c.delta with poolBalances := bs, poolData := pd } } ∧
      u = .increaseStakerRewards p a du := by
  simp only [increaseStakerRewards, bind_eq_ok, okOr_eq_ok, lift_ok, pure_eq_ok, Prod.mk.injEq, increase_ok]
  constructor
  · rintro ⟨od, h1, d, rfl, bs, h3, new, ⟨h4, rfl⟩, ⟨pd, du⟩, h6, rfl, rfl⟩
    exact ⟨d, bs, pd, du, h1, h3, h4, h6, rfl, rfl⟩
  · rintro ⟨d, bs, pd, du, h1, h3, h4, h6, rfl, rfl⟩
    exact ⟨some d, h1, d, rfl, bs, h3, _, ⟨h4, rfl⟩, ⟨pd, du⟩, h6, rfl, rfl⟩

theorem createDelegationId_ok {c c' : Cache} {t : PoolId} {d : DelegationId} {k : Nat} {u : Undo} :
    createDelegationId c t d k = .ok (c', u) ↔ ∃ x dd du, c.view.poolData t = .ok (some x) ∧
      c.view.delegationData d = .ok none ∧
      mergeDeltaDataElement c.delta.delegationData d ⟨none, some ⟨k, t⟩⟩ = .ok (dd, du) ∧
      c' = { c with delta := { c.delta with delegationData := dd } } ∧ u = .createDelegationId d du := by
  simp only [createDelegationId, bind_eq_ok, ensure_eq_ok, lift_ok, pure_eq_ok, Prod.mk.injEq, poolExists_ok]
  constructor
  · rintro ⟨ex, ⟨o, h1, h1'⟩, _, h2, od, h3, _, h4, ⟨dd, du⟩, h5, rfl, rfl⟩
    have : od = none := by simpa using h4
    subst this
    subst h2
    obtain ⟨x, rfl⟩ := Option.isSome_iff_exists.1 h1'
    exact ⟨x, dd, du, h1, h3, h5, rfl, rfl⟩
  · rintro ⟨x, dd, du, h1, h3, h5, rfl, rfl⟩
    exact ⟨true, ⟨some x, h1, rfl⟩, (), rfl, none, h3, (), rfl, ⟨dd, du⟩, h5, rfl, rfl⟩

theorem deleteDelegationId_ok {c c' : Cache} {d : DelegationId} {u : Undo} :
    deleteDelegationId c d = .ok (c', u) ↔ ∃ data dd du, c.view.delegationData d = .ok (some data) ∧
      c.view.delegationBalance d = .ok 0 ∧ c.view.share (key data.sourcePool d) = .ok 0 ∧
      c.view.poolData data.sourcePool = .ok none ∧
      mergeDeltaDataElement c.delta.delegationData d ⟨some data, none⟩ = .ok (dd, du) ∧
      c' = { c with delta := { c.delta with delegationData := dd } } ∧ u = .deleteDelegationId d du := by
  simp only [deleteDelegationId, bind_eq_ok, ensure_eq_ok, okOr_eq_ok, lift_ok, pure_eq_ok, Prod.mk.injEq,
    poolExists_ok]
  constructor
  · rintro ⟨od, h1, data, rfl, b, h2, _, h3, s, h4, _, h5, ex, ⟨o, h6, h7⟩, _, h8, ⟨dd, du⟩, h9, rfl, rfl⟩
    have : b = 0 := by omega
    subst this
    have : s = 0 := by omega
    subst this
    subst h8
    have : o = none := by simpa using h7
    subst this
    exact ⟨data, dd, du, h1, h2, h4, h6, h9, rfl, rfl⟩
  · rintro ⟨data, dd, du, h1, h2, h4, h6, h9, rfl, rfl⟩
    exact ⟨some data, h1, data, rfl, 0, h2, (), by omega, 0, h4, (), by omega, false, ⟨none, h6, rfl⟩, (), rfl,
      ⟨dd, du⟩, h9, rfl, rfl⟩

theorem delegateStaking_ok {c c' : Cache} {d : DelegationId} {a : Nat} {u : Undo} :
    delegateStaking c d a = .ok (c', u) ↔ ∃ data db pb sh, c.view.delegationData d = .ok (some data) ∧
      addUnsigned c.delta.delegationBalances d a = .ok db ∧
      addUnsigned c.delta.poolBalances data.sourcePool a = .ok pb ∧
      addUnsigned c.delta.shares (key data.sourcePool d) a = .ok sh ∧
      c' = { c with delta := { c.delta with delegationBalances := db, poolBalances := pb, shares := sh } } ∧
      u = .delegateStaking d a := by
  simp only [delegateStaking, bind_eq_ok, okOr_eq_ok, lift_ok, pure_eq_ok, Prod.mk.injEq]
  constructor
  · rintro ⟨od, h1, data, rfl, db, h2, pb, h3, sh, h4, rfl, rfl⟩
    exact ⟨data, db, pb, sh, h1, h2, h3, h4, rfl, rfl⟩
  · rintro ⟨data, db, pb, sh, h1, h2, h3, h4, rfl, rfl⟩
    exact ⟨_, h1, data, rfl, db, h2, pb, h3, sh, h4, rfl, rfl⟩

theorem spendShare_ok {c c' : Cache} {d : DelegationId} {a : Nat} {u : Undo} :
    spendShare c d a = .ok (c', u) ↔ ∃ data o db pb sh, c.view.delegationData d = .ok (some data) ∧
      subUnsigned c.delta.shares (key data.sourcePool d) a = .ok sh ∧
      c.view.poolData data.sourcePool = .ok o ∧
      ((o.isSome = true ∧ subUnsigned c.delta.poolBalances data.sourcePool a = .ok pb) ∨
        (o = none ∧ pb = c.delta.poolBalances)) ∧
      subUnsigned c.delta.delegationBalances d a = .ok db ∧
      c' = { c with delta := { c.delta with delegationBalances := db, poolBalances := pb, shares := sh } } ∧
      u = .spendFromShare d a := by
  simp only [spendShare, bind_eq_ok, okOr_eq_ok, lift_ok, poolExists_ok]
  constructor
  · rintro ⟨od, h1, data, rfl, sh, h2, ex, ⟨o, h3, rfl⟩, h4⟩
    cases o with
    | none =>
      simp only [Option.isSome_none, Bool.false_eq_true, if_false, bind_eq_ok, pure_eq_ok, lift_ok,
        Prod.mk.injEq] at h4
      obtain ⟨pb, rfl, db, h5, rfl, rfl⟩ := h4
      exact ⟨data, none, db, _, sh, h1, h2, h3, .inr ⟨rfl, rfl⟩, h5, rfl, rfl⟩
    | some x =>
      simp only [Option.isSome_some, if_true, bind_eq_ok, pure_eq_ok, lift_ok, Prod.mk.injEq] at h4
      obtain ⟨pb, h4, db, h5, rfl, rfl⟩ := h4
      exact ⟨data, some x, db, pb, sh, h1, h2, h3, .inl ⟨rfl, h4⟩, h5, rfl, rfl⟩
  · rintro ⟨data, o, db, pb, sh, h1, h2, h3, h4, h5, rfl, rfl⟩
    refine ⟨_, h1, data, rfl, sh, h2, _, ⟨o, h3, rfl⟩, ?_⟩
    rcases h4 with ⟨e, h4⟩ | ⟨rfl, rfl⟩
    · rw [if_pos e]
      simp only [bind_eq_ok, pure_eq_ok, lift_ok]
      exact ⟨pb, h4, db, h5, rfl⟩
    · simp only [Option.isSome_none, Bool.false_eq_true, if_false, bind_eq_ok, pure_eq_ok, lift_ok]
      exact ⟨_, rfl, db, h5, rfl⟩

/-! ### Undo -/

/-- invariant needed for undo: recorded amounts are non-zero 128-bit signed numbers -/
def Inv (c : Cache) : Prop :=
  WFA c.delta.poolBalances ∧ WFA c.delta.shares ∧ WFA c.delta.delegationBalances

theorem new_inv (p : View) : Inv (Cache.new p) := ⟨WFA.empty, WFA.empty, WFA.empty⟩

/-- `t` equals `c` up to "no change" data entries -/
def Ext (c t : Cache) : Prop :=
  t.parent = c.parent ∧ t.delta.poolBalances = c.delta.poolBalances ∧ t.delta.shares = c.delta.shares ∧
  t.delta.delegationBalances = c.delta.delegationBalances ∧
  ExtD c.parent.poolData c.delta.poolData t.delta.poolData ∧
  ExtD c.parent.delegationData c.delta.delegationData t.delta.delegationData

theorem Ext.refl (c : Cache) : Ext c c := ⟨rfl, rfl, rfl, rfl, ExtD.refl _ _, ExtD.refl _ _⟩

theorem Ext.view {c t : Cache} (h : Ext c t) : t.view = c.view := by
  obtain ⟨h1, h2, h3, h4, h5, h6⟩ := h
  unfold Cache.view
  rw [h1, h2, h3, h4]
  congr 1
  · funext id; exact h5.getVal id
  · funext id; exact h6.getVal id

theorem step_inv {c c' : Cache} {op : Op} {u : Undo} (hi : Inv c) (h : step c op = .ok (c', u)) : Inv c' := by
  obtain ⟨w1, w2, w3⟩ := hi
  cases op with
  | createPool p d =>
    obtain ⟨bs, pd, du, -, -, h5, -, rfl, -⟩ := createPool_ok.1 h
    exact ⟨w1.add h5, w2, w3⟩
  | decommissionPool p =>
    obtain ⟨d, b, bs, pd, du, -, -, h5, -, rfl, -⟩ := decommissionPool_ok.1 h
    exact ⟨w1.sub h5, w2, w3⟩
  | increaseStakerRewards p a =>
    obtain ⟨d, bs, pd, du, -, h5, -, -, rfl, -⟩ := increaseStakerRewards_ok.1 h
    exact ⟨w1.add h5, w2, w3⟩
  | createDelegationId t d k =>
    obtain ⟨x, dd, du, -, -, -, rfl, -⟩ := createDelegationId_ok.1 h
    exact ⟨w1, w2, w3⟩
  | deleteDelegationId d =>
    obtain ⟨data, dd, du, -, -, -, -, -, rfl, -⟩ := deleteDelegationId_ok.1 h
    exact ⟨w1, w2, w3⟩
  | delegateStaking d a =>
    obtain ⟨data, db, pb, sh, -, h1, h2, h3, rfl, -⟩ := delegateStaking_ok.1 h
    exact ⟨w1.add h2, w2.add h3, w3.add h1⟩
  | spendShare d a =>
    obtain ⟨data, o, db, pb, sh, -, h1, -, h2, h3, rfl, -⟩ := spendShare_ok.1 h
    refine ⟨?_, w2.sub h1, w3.sub h3⟩
    rcases h2 with ⟨-, h2⟩ | ⟨-, rfl⟩
    · exact w1.sub h2
    · exact w1

/-- balance read back after adding to a zero balance -/
theorem getBal_add_zero {parent : Nat → Except Err Nat} {c r : AmountColl Nat} {k a : Nat}
    (h0 : getBal Err.accounting parent c k = .ok 0) (h : addUnsigned c k a = .ok r) :
    getBal Err.accounting parent r k = .ok a := by
  obtain ⟨p, hp, e1, e2⟩ := getBal_ok.1 h0
  obtain ⟨ha, -⟩ := addUnsigned_ok.1 h
  refine getBal_ok.2 ⟨p, hp, ?_, ?_⟩
  · rw [dval_add h]; simp only [if_true]; push_cast at e1; omega
  · intro _
    refine ⟨?_, ha⟩
    cases hc : c.get k with
    | none =>
      rw [hc] at e1; simp at e1
      have : p = 0 := by omega
      rw [I128_eq, this]; norm_num
    | some x => rw [hc] at e2; exact (e2 rfl).1

/-- balance read back after subtracting all of it -/
theorem getBal_sub_all {parent : Nat → Except Err Nat} {c r : AmountColl Nat} {k b : Nat}
    (h0 : getBal Err.accounting parent c k = .ok b) (h : subUnsigned c k b = .ok r) :
    getBal Err.accounting parent r k = .ok 0 := by
  obtain ⟨p, hp, e1, e2⟩ := getBal_ok.1 h0
  obtain ⟨hb, -⟩ := subUnsigned_ok.1 h
  refine getBal_ok.2 ⟨p, hp, ?_, ?_⟩
  · rw [dval_sub h]; simp only [if_true]; push_cast; omega
  · intro _
    refine ⟨?_, by rw [I128_eq]; norm_num⟩
    cases hc : c.get k with
    | none => rw [hc] at e1; simp at e1; omega
    | some x => rw [hc] at e2; exact (e2 rfl).1

theorem undo_step {c c' t' : Cache} {op : Op} {u : Undo} (hi : Inv c)
    (h : step c op = .ok (c', u)) (hx : Ext c' t') : ∃ t, undo t' u = .ok t ∧ Ext c t := by
  have hview := hx.view
  obtain ⟨w1, w2, w3⟩ := hi
  obtain ⟨x1, x2, x3, x4, x5, x6⟩ := hx
  cases op with
  | createPool p d =>
    obtain ⟨bs, pd, du, h1, h2, h3, h4, rfl, rfl⟩ := createPool_ok.1 h
    simp only at x1 x2 x3 x4 x5 x6
    obtain ⟨td, e1, e2⟩ := undoElem h1 h4 x5
    refine ⟨{ t' with delta := { t'.delta with poolBalances := c.delta.poolBalances, poolData := td } }, ?_,
      x1, rfl, x3, x4, e2, x6⟩
    simp only [undo, bind_eq_ok, okOr_eq_ok, ensure_eq_ok, lift_ok, pure_eq_ok, hview]
    refine ⟨d.pledge, getBal_add_zero h2 h3, (), rfl, _, ?_, some d, (getVal_merged h4 p).trans (if_pos rfl), d, rfl,
      td, e1, rfl⟩
    rw [x2]; exact add_sub_cancel' w1 h3
  | decommissionPool p =>
    obtain ⟨d, b, bs, pd, du, h1, h2, h3, h4, rfl, rfl⟩ := decommissionPool_ok.1 h
    simp only at x1 x2 x3 x4 x5 x6
    obtain ⟨td, e1, e2⟩ := undoElem h1 h4 x5
    refine ⟨{ t' with delta := { t'.delta with poolBalances := c.delta.poolBalances, poolData := td } }, ?_,
      x1, rfl, x3, x4, e2, x6⟩
    simp only [undo, bind_eq_ok, ensure_eq_ok, lift_ok, pure_eq_ok, hview]
    refine ⟨none, (getVal_merged h4 p).trans (if_pos rfl), (), rfl, 0, getBal_sub_all h2 h3, (), by omega, _, ?_,
      td, e1, rfl⟩
    rw [x2]; exact sub_add_cancel' w1 h3
  | increaseStakerRewards p a =>
    obtain ⟨d, bs, pd, du, h1, h2, h3, h4, rfl, rfl⟩ := increaseStakerRewards_ok.1 h
    simp only at x1 x2 x3 x4 x5 x6
    obtain ⟨td, e1, e2⟩ := undoElem h1 h4 x5
    refine ⟨{ t' with delta := { t'.delta with poolBalances := c.delta.poolBalances, poolData := td } }, ?_,
      x1, rfl, x3, x4, e2, x6⟩
    simp only [undo, bind_eq_ok, lift_ok, pure_eq_ok]
    refine ⟨td, e1, _, ?_, rfl⟩
    rw [x2]; exact add_sub_cancel' w1 h2
  | createDelegationId t d k =>
    obtain ⟨x, dd, du, h1, h2, h3, rfl, rfl⟩ := createDelegationId_ok.1 h
    simp only at x1 x2 x3 x4 x5 x6
    obtain ⟨td, e1, e2⟩ := undoElem h2 h3 x6
    refine ⟨{ t' with delta := { t'.delta with delegationData := td } }, ?_, x1, x2, x3, x4, x5, e2⟩
    simp only [undo, bind_eq_ok, okOr_eq_ok, lift_ok, pure_eq_ok, hview]
    exact ⟨_, (getVal_merged h3 d).trans (if_pos rfl), _, rfl, td, e1, rfl⟩
  | deleteDelegationId d =>
    obtain ⟨data, dd, du, h1, h2, h3, h4, h5, rfl, rfl⟩ := deleteDelegationId_ok.1 h
    simp only at x1 x2 x3 x4 x5 x6
    obtain ⟨td, e1, e2⟩ := undoElem h1 h5 x6
    refine ⟨{ t' with delta := { t'.delta with delegationData := td } }, ?_, x1, x2, x3, x4, x5, e2⟩
    simp only [undo, bind_eq_ok, ensure_eq_ok, lift_ok, pure_eq_ok, hview]
    exact ⟨0, h2, (), by omega, td, e1, rfl⟩
  | delegateStaking d a =>
    obtain ⟨data, db, pb, sh, h1, h2, h3, h4, rfl, rfl⟩ := delegateStaking_ok.1 h
    simp only at x1 x2 x3 x4 x5 x6
    refine ⟨{ t' with delta := { t'.delta with
        delegationBalances := c.delta.delegationBalances, poolBalances := c.delta.poolBalances,
        shares := c.delta.shares } }, ?_, x1, rfl, rfl, rfl, x5, x6⟩
    simp only [undo, bind_eq_ok, okOr_eq_ok, lift_ok, pure_eq_ok, hview]
    refine ⟨some data, h1, data, rfl, _, ?_, _, ?_, _, ?_, rfl⟩
    · rw [x3]; exact add_sub_cancel' w2 h4
    · rw [x2]; exact add_sub_cancel' w1 h3
    · rw [x4]; exact add_sub_cancel' w3 h2
  | spendShare d a =>
    obtain ⟨data, o, db, pb, sh, h1, h2, h3, h4, h5, rfl, rfl⟩ := spendShare_ok.1 h
    simp only at x1 x2 x3 x4 x5 x6
    refine ⟨{ t' with delta := { t'.delta with
        delegationBalances := c.delta.delegationBalances, poolBalances := c.delta.poolBalances,
        shares := c.delta.shares } }, ?_, x1, rfl, rfl, rfl, x5, x6⟩
    simp only [undo, bind_eq_ok, okOr_eq_ok, lift_ok, hview, poolExists_ok]
    refine ⟨some data, h1, data, rfl, c.delta.delegationBalances, ?_, _, ⟨o, h3, rfl⟩, ?_⟩
    · rw [x4]; exact sub_add_cancel' w3 h5
    · rcases h4 with ⟨e, h4⟩ | ⟨rfl, rfl⟩
      · rw [if_pos e]
        simp only [bind_eq_ok, pure_eq_ok, lift_ok]
        refine ⟨_, by rw [x2]; exact sub_add_cancel' w1 h4, _, by rw [x3]; exact sub_add_cancel' w2 h2, rfl⟩
      · simp only [Option.isSome_none, Bool.false_eq_true, if_false, bind_eq_ok, pure_eq_ok, lift_ok]
        exact ⟨_, x2, _, by rw [x3]; exact sub_add_cancel' w2 h2, rfl⟩

/-- an operation accepted on an extension is accepted, with the same report, on the original -/
theorem ext_step {c t t' : Cache} {op : Op} {u : Undo} (hx : Ext c t) (h : step t op = .ok (t', u)) :
    ∃ c', step c op = .ok (c', u) ∧ Ext c' t' := by
  have hview := hx.view
  obtain ⟨x1, x2, x3, x4, x5, x6⟩ := hx
  cases op with
  | createPool p d =>
    obtain ⟨bs, pd, du, h1, h2, h3, h4, rfl, rfl⟩ := createPool_ok.1 h
    rw [hview] at h1 h2; rw [x2] at h3
    obtain ⟨data', g1, g2⟩ := x5.mergeElem h4 h1
    exact ⟨_, createPool_ok.2 ⟨bs, data', du, h1, h2, h3, g1, rfl, rfl⟩, x1, rfl, x3, x4, g2, x6⟩
  | decommissionPool p =>
    obtain ⟨d, b, bs, pd, du, h1, h2, h3, h4, rfl, rfl⟩ := decommissionPool_ok.1 h
    rw [hview] at h1 h2; rw [x2] at h3
    obtain ⟨data', g1, g2⟩ := x5.mergeElem h4 h1
    exact ⟨_, decommissionPool_ok.2 ⟨d, b, bs, data', du, h1, h2, h3, g1, rfl, rfl⟩, x1, rfl, x3, x4, g2, x6⟩
  | increaseStakerRewards p a =>
    obtain ⟨d, bs, pd, du, h1, h2, h3, h4, rfl, rfl⟩ := increaseStakerRewards_ok.1 h
    rw [hview] at h1; rw [x2] at h2
    obtain ⟨data', g1, g2⟩ := x5.mergeElem h4 h1
    exact ⟨_, increaseStakerRewards_ok.2 ⟨d, bs, data', du, h1, h2, h3, g1, rfl, rfl⟩, x1, rfl, x3, x4, g2, x6⟩
  | createDelegationId tg d k =>
    obtain ⟨x, dd, du, h1, h2, h3, rfl, rfl⟩ := createDelegationId_ok.1 h
    rw [hview] at h1 h2
    obtain ⟨data', g1, g2⟩ := x6.mergeElem h3 h2
    exact ⟨_, createDelegationId_ok.2 ⟨x, data', du, h1, h2, g1, rfl, rfl⟩, x1, x2, x3, x4, x5, g2⟩
  | deleteDelegationId d =>
    obtain ⟨data, dd, du, h1, h2, h3, h4, h5, rfl, rfl⟩ := deleteDelegationId_ok.1 h
    rw [hview] at h1 h2 h3 h4
    obtain ⟨data', g1, g2⟩ := x6.mergeElem h5 h1
    exact ⟨_, deleteDelegationId_ok.2 ⟨data, data', du, h1, h2, h3, h4, g1, rfl, rfl⟩, x1, x2, x3, x4, x5, g2⟩
  | delegateStaking d a =>
    obtain ⟨data, db, pb, sh, h1, h2, h3, h4, rfl, rfl⟩ := delegateStaking_ok.1 h
    rw [hview] at h1; rw [x4] at h2; rw [x2] at h3; rw [x3] at h4
    exact ⟨_, delegateStaking_ok.2 ⟨data, db, pb, sh, h1, h2, h3, h4, rfl, rfl⟩, x1, rfl, rfl, rfl, x5, x6⟩
  | spendShare d a =>
    obtain ⟨data, o, db, pb, sh, h1, h2, h3, h4, h5, rfl, rfl⟩ := spendShare_ok.1 h
    rw [hview] at h1 h3; rw [x4] at h5; rw [x2] at h4; rw [x3] at h2
    exact ⟨_, spendShare_ok.2 ⟨data, o, db, pb, sh, h1, h2, h3, h4, h5, rfl, rfl⟩, x1, rfl, rfl, rfl, x5, x6⟩

theorem undoable : Undoable step undo Inv Ext where
  refl := Ext.refl
  inv := step_inv
  undo_step := undo_step
  ext_step := fun _ hx h => ext_step hx h

theorem step_parent {c c' : Cache} {op : Op} {u : Undo} (h : step c op = .ok (c', u)) : c'.parent = c.parent := by
  cases op with
  | createPool p d => obtain ⟨bs, pd, du, -, -, h5, -, rfl, -⟩ := createPool_ok.1 h; rfl
  | decommissionPool p => obtain ⟨d, b, bs, pd, du, -, -, h5, -, rfl, -⟩ := decommissionPool_ok.1 h; rfl
  | increaseStakerRewards p a => obtain ⟨d, bs, pd, du, -, h5, -, -, rfl, -⟩ := increaseStakerRewards_ok.1 h; rfl
  | createDelegationId t d k => obtain ⟨x, dd, du, -, -, -, rfl, -⟩ := createDelegationId_ok.1 h; rfl
  | deleteDelegationId d => obtain ⟨data, dd, du, -, -, -, -, -, rfl, -⟩ := deleteDelegationId_ok.1 h; rfl
  | delegateStaking d a => obtain ⟨data, db, pb, sh, -, h1, h2, h3, rfl, -⟩ := delegateStaking_ok.1 h; rfl
  | spendShare d a => obtain ⟨data, o, db, pb, sh, -, h1, -, h2, h3, rfl, -⟩ := spendShare_ok.1 h; rfl

/-- every recorded data change starts from the parent's value -/
def Anchored (c : Cache) : Prop :=
  (∀ k e, c.delta.poolData.get k = some e → c.parent.poolData k = .ok e.old) ∧
  (∀ k e, c.delta.delegationData.get k = some e → c.parent.delegationData k = .ok e.old)

theorem step_anchored {c c' : Cache} {op : Op} {u : Undo} (hA : Anchored c) (h : step c op = .ok (c', u)) :
    Anchored c' := by
  obtain ⟨a1, a2⟩ := hA
  cases op with
  | createPool p d =>
    obtain ⟨bs, pd, du, h1, h2, h3, h4, rfl, rfl⟩ := createPool_ok.1 h
    exact ⟨anchored_merge a1 h1 h4, a2⟩
  | decommissionPool p =>
    obtain ⟨d, b, bs, pd, du, h1, h2, h3, h4, rfl, rfl⟩ := decommissionPool_ok.1 h
    exact ⟨anchored_merge a1 h1 h4, a2⟩
  | increaseStakerRewards p a =>
    obtain ⟨d, bs, pd, du, h1, h2, h3, h4, rfl, rfl⟩ := increaseStakerRewards_ok.1 h
    exact ⟨anchored_merge a1 h1 h4, a2⟩
  | createDelegationId t d k =>
    obtain ⟨x, dd, du, h1, h2, h3, rfl, rfl⟩ := createDelegationId_ok.1 h
    exact ⟨a1, anchored_merge a2 h2 h3⟩
  | deleteDelegationId d =>
    obtain ⟨data, dd, du, h1, h2, h3, h4, h5, rfl, rfl⟩ := deleteDelegationId_ok.1 h
    exact ⟨a1, anchored_merge a2 h1 h5⟩
  | delegateStaking d a =>
    obtain ⟨data, db, pb, sh, h1, h2, h3, h4, rfl, rfl⟩ := delegateStaking_ok.1 h
    exact ⟨a1, a2⟩
  | spendShare d a =>
    obtain ⟨data, o, db, pb, sh, h1, h2, h3, h4, h5, rfl, rfl⟩ := spendShare_ok.1 h
    exact ⟨a1, a2⟩

theorem Ext.anchored {c t : Cache} (hx : Ext c t) (h : Anchored c) : Anchored t := by
  obtain ⟨x1, _, _, _, x5, x6⟩ := hx
  constructor
  · intro k e he
    rw [x1]
    rcases x5 k with g | ⟨g, v, g1, g2⟩
    · exact h.1 k e (g ▸ he)
    · rw [g1] at he; cases he; exact g2
  · intro k e he
    rw [x1]
    rcases x6 k with g | ⟨g, v, g1, g2⟩
    · exact h.2 k e (g ▸ he)
    · rw [g1] at he; cases he; exact g2

end Verif.Pos
