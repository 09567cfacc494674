import Verif.Accounting.Rep
import Verif.Pos.Lemmas

/-!
# Staking operations and their undos act on what is shown, whatever the layering
-/

namespace Verif.Pos
open Verif Verif.Accounting

/-- the staking state as plain functions (absent balance = 0) -/
structure Sv where
  poolData : Nat → Option PoolData
  poolBal : Nat → Nat
  share : ShareKey → Nat
  delBal : Nat → Nat
  delData : Nat → Option DelegationData

/-- the cache shows `s` -/
structure Rep (c : Cache) (s : Sv) : Prop where
  poolData : RepD c.parent.poolData c.delta.poolData s.poolData
  poolBal : RepB c.parent.poolBalance c.delta.poolBalances s.poolBal
  share : RepB c.parent.share c.delta.shares s.share
  delBal : RepB c.parent.delegationBalance c.delta.delegationBalances s.delBal
  delData : RepD c.parent.delegationData c.delta.delegationData s.delData

/-- every balance can be read -/
structure Readable (c : Cache) : Prop where
  poolBal : ∀ k, ∃ v, c.view.poolBalance k = .ok v
  share : ∀ k, ∃ v, c.view.share k = .ok v
  delBal : ∀ k, ∃ v, c.view.delegationBalance k = .ok v

theorem Rep.inj {c : Cache} {s s' : Sv} (h : Rep c s) (h' : Rep c s') : s = s' := by
  obtain ⟨a1, a2, a3, a4, a5⟩ := s
  obtain ⟨b1, b2, b3, b4, b5⟩ := s'
  congr
  · exact h.poolData.inj h'.poolData
  · exact h.poolBal.inj h'.poolBal
  · exact h.share.inj h'.share
  · exact h.delBal.inj h'.delBal
  · exact h.delData.inj h'.delData

theorem Rep.readable {c : Cache} {s : Sv} (h : Rep c s) : Readable c :=
  ⟨fun k => ⟨_, h.poolBal.read k⟩, fun k => ⟨_, h.share.read k⟩, fun k => ⟨_, h.delBal.read k⟩⟩

theorem Rep.vPoolData {c : Cache} {s : Sv} (h : Rep c s) (k : Nat) : c.view.poolData k = .ok (s.poolData k) :=
  h.poolData.val k
theorem Rep.vPoolBal {c : Cache} {s : Sv} (h : Rep c s) (k : Nat) : c.view.poolBalance k = .ok (s.poolBal k) :=
  h.poolBal.read k
theorem Rep.vShare {c : Cache} {s : Sv} (h : Rep c s) (k : ShareKey) : c.view.share k = .ok (s.share k) :=
  h.share.read k
theorem Rep.vDelBal {c : Cache} {s : Sv} (h : Rep c s) (k : Nat) : c.view.delegationBalance k = .ok (s.delBal k) :=
  h.delBal.read k
theorem Rep.vDelData {c : Cache} {s : Sv} (h : Rep c s) (k : Nat) : c.view.delegationData k = .ok (s.delData k) :=
  h.delData.val k

/-- the operation takes any cache showing `s` to one showing `s'`, with undo `u`; the undo takes any cache showing
`s'` to one showing `s` -/
structure Move (s : Sv) (op : Op) (u : Undo) (s' : Sv) : Prop where
  fwd : ∀ t, Rep t s → ∃ t', step t op = .ok (t', u) ∧ Rep t' s'
  bwd : ∀ t, Rep t s' → ∃ t', undo t u = .ok t' ∧ Rep t' s

theorem move_createPool {s : Sv} {p : PoolId} {d : PoolData} (h1 : s.poolData p = none) (h2 : s.poolBal p = 0)
    (h3 : (d.pledge : Int) < I128) :
    Move s (.createPool p d) (.createPool p d.pledge ⟨some d, none⟩)
      { s with poolData := Function.update s.poolData p (some d), poolBal := Function.update s.poolBal p d.pledge } := by
  constructor
  · intro t ht
    obtain ⟨bs, e1, r1⟩ := ht.poolBal.add (k := p) (a := d.pledge) (by rw [h2]; simpa using h3)
    obtain ⟨pd, e2, r2⟩ := ht.poolData.merge h1 (some d)
    rw [h2, Nat.zero_add] at r1
    refine ⟨_, createPool_ok.2 ⟨bs, pd, _, ?_, ?_, e1, e2, rfl, rfl⟩, ⟨r2, r1, ht.share, ht.delBal, ht.delData⟩⟩
    · rw [ht.vPoolData, h1]
    · rw [ht.vPoolBal, h2]
  · intro t ht
    obtain ⟨bs, e1, r1⟩ := ht.poolBal.sub (k := p) (a := d.pledge) (by simp)
    obtain ⟨pd, e2, r2⟩ := ht.poolData.undo (k := p) (u := ⟨some d, none⟩) (by simp)
    refine ⟨{ t with delta := { t.delta with poolBalances := bs, poolData := pd } }, ?_, ?_⟩
    · simp only [undo, ht.vPoolBal, ht.vPoolData, Function.update_self, bind_eq_ok, ensure_eq_ok, okOr_eq_ok,
        pure_eq_ok, lift_ok]
      exact ⟨_, rfl, (), rfl, bs, e1, _, rfl, d, rfl, pd, e2, rfl⟩
    · refine ⟨?_, ?_, ht.share, ht.delBal, ht.delData⟩
      · simpa [← h1] using r2
      · simpa [← h2] using r1

theorem move_decommissionPool {s : Sv} {p : PoolId} {d : PoolData} (h1 : s.poolData p = some d)
    (h3 : (s.poolBal p : Int) < I128) :
    Move s (.decommissionPool p) (.decommissionPool p (s.poolBal p) ⟨none, some d⟩)
      { s with poolData := Function.update s.poolData p none, poolBal := Function.update s.poolBal p 0 } := by
  constructor
  · intro t ht
    obtain ⟨bs, e1, r1⟩ := ht.poolBal.sub (k := p) (a := s.poolBal p) le_rfl
    obtain ⟨pd, e2, r2⟩ := ht.poolData.merge h1 none
    rw [Nat.sub_self] at r1
    refine ⟨_, decommissionPool_ok.2 ⟨d, s.poolBal p, bs, pd, _, ?_, ?_, e1, e2, rfl, rfl⟩,
      ⟨r2, r1, ht.share, ht.delBal, ht.delData⟩⟩
    · rw [ht.vPoolData, h1]
    · rw [ht.vPoolBal]
  · intro t ht
    obtain ⟨bs, e1, r1⟩ := ht.poolBal.add (k := p) (a := s.poolBal p) (by simpa using h3)
    obtain ⟨pd, e2, r2⟩ := ht.poolData.undo (k := p) (u := ⟨none, some d⟩) (by simp)
    refine ⟨{ t with delta := { t.delta with poolBalances := bs, poolData := pd } }, ?_, ?_⟩
    · simp only [undo, ht.vPoolBal, ht.vPoolData, Function.update_self, bind_eq_ok, ensure_eq_ok,
        pure_eq_ok, lift_ok]
      exact ⟨_, rfl, (), rfl, _, rfl, (), by omega, bs, e1, pd, e2, rfl⟩
    · refine ⟨?_, ?_, ht.share, ht.delBal, ht.delData⟩
      · simpa [← h1] using r2
      · simpa using r1

theorem move_increaseStakerRewards {s : Sv} {p : PoolId} {a : Nat} {d : PoolData} (h1 : s.poolData p = some d)
    (h2 : d.rewards + a < U128) (h3 : (s.poolBal p : Int) + a < I128) :
    Move s (.increaseStakerRewards p a)
      (.increaseStakerRewards p a ⟨some { d with rewards := d.rewards + a }, some d⟩)
      { s with
        poolData := Function.update s.poolData p (some { d with rewards := d.rewards + a })
        poolBal := Function.update s.poolBal p (s.poolBal p + a) } := by
  constructor
  · intro t ht
    obtain ⟨bs, e1, r1⟩ := ht.poolBal.add (k := p) (a := a) h3
    obtain ⟨pd, e2, r2⟩ := ht.poolData.merge h1 (some { d with rewards := d.rewards + a })
    refine ⟨_, increaseStakerRewards_ok.2 ⟨d, bs, pd, _, ?_, e1, h2, e2, rfl, rfl⟩,
      ⟨r2, r1, ht.share, ht.delBal, ht.delData⟩⟩
    rw [ht.vPoolData, h1]
  · intro t ht
    obtain ⟨bs, e1, r1⟩ := ht.poolBal.sub (k := p) (a := a) (by simp)
    obtain ⟨pd, e2, r2⟩ := ht.poolData.undo (k := p) (u := ⟨some { d with rewards := d.rewards + a }, some d⟩)
      (by simp)
    refine ⟨{ t with delta := { t.delta with poolBalances := bs, poolData := pd } }, ?_, ?_⟩
    · simp only [undo, bind_eq_ok, pure_eq_ok, lift_ok]
      exact ⟨pd, e2, bs, e1, rfl⟩
    · refine ⟨?_, ?_, ht.share, ht.delBal, ht.delData⟩
      · simpa [← h1] using r2
      · simpa using r1

theorem move_createDelegationId {s : Sv} {t0 : PoolId} {d : DelegationId} {k : Nat} {x : PoolData}
    (h1 : s.poolData t0 = some x) (h2 : s.delData d = none) :
    Move s (.createDelegationId t0 d k) (.createDelegationId d ⟨some ⟨k, t0⟩, none⟩)
      { s with delData := Function.update s.delData d (some ⟨k, t0⟩) } := by
  constructor
  · intro t ht
    obtain ⟨dd, e2, r2⟩ := ht.delData.merge h2 (some ⟨k, t0⟩)
    refine ⟨_, createDelegationId_ok.2 ⟨x, dd, _, ?_, ?_, e2, rfl, rfl⟩,
      ⟨ht.poolData, ht.poolBal, ht.share, ht.delBal, r2⟩⟩
    · rw [ht.vPoolData, h1]
    · rw [ht.vDelData, h2]
  · intro t ht
    obtain ⟨dd, e2, r2⟩ := ht.delData.undo (k := d) (u := ⟨some ⟨k, t0⟩, none⟩) (by simp)
    refine ⟨{ t with delta := { t.delta with delegationData := dd } }, ?_, ?_⟩
    · simp only [undo, ht.vDelData, Function.update_self, bind_eq_ok, okOr_eq_ok, pure_eq_ok, lift_ok]
      exact ⟨_, rfl, _, rfl, dd, e2, rfl⟩
    · refine ⟨ht.poolData, ht.poolBal, ht.share, ht.delBal, ?_⟩
      simpa [← h2] using r2

theorem move_deleteDelegationId {s : Sv} {d : DelegationId} {data : DelegationData}
    (h1 : s.delData d = some data) (h2 : s.delBal d = 0) (h3 : s.share (key data.sourcePool d) = 0)
    (h4 : s.poolData data.sourcePool = none) :
    Move s (.deleteDelegationId d) (.deleteDelegationId d ⟨none, some data⟩)
      { s with delData := Function.update s.delData d none } := by
  constructor
  · intro t ht
    obtain ⟨dd, e2, r2⟩ := ht.delData.merge h1 none
    refine ⟨_, deleteDelegationId_ok.2 ⟨data, dd, _, ?_, ?_, ?_, ?_, e2, rfl, rfl⟩,
      ⟨ht.poolData, ht.poolBal, ht.share, ht.delBal, r2⟩⟩
    · rw [ht.vDelData, h1]
    · rw [ht.vDelBal, h2]
    · rw [ht.vShare, h3]
    · rw [ht.vPoolData, h4]
  · intro t ht
    obtain ⟨dd, e2, r2⟩ := ht.delData.undo (k := d) (u := ⟨none, some data⟩) (by simp)
    refine ⟨{ t with delta := { t.delta with delegationData := dd } }, ?_, ?_⟩
    · simp only [undo, ht.vDelBal, bind_eq_ok, ensure_eq_ok, pure_eq_ok, lift_ok]
      exact ⟨_, rfl, (), by show ¬ s.delBal d > 0; omega, dd, e2, rfl⟩
    · refine ⟨ht.poolData, ht.poolBal, ht.share, ht.delBal, ?_⟩
      simpa [← h1] using r2

theorem move_delegateStaking {s : Sv} {d : DelegationId} {a : Nat} {data : DelegationData}
    (h1 : s.delData d = some data) (h2 : (s.delBal d : Int) + a < I128)
    (h3 : (s.poolBal data.sourcePool : Int) + a < I128)
    (h4 : (s.share (key data.sourcePool d) : Int) + a < I128) :
    Move s (.delegateStaking d a) (.delegateStaking d a)
      { s with
        delBal := Function.update s.delBal d (s.delBal d + a)
        poolBal := Function.update s.poolBal data.sourcePool (s.poolBal data.sourcePool + a)
        share := Function.update s.share (key data.sourcePool d) (s.share (key data.sourcePool d) + a) } := by
  constructor
  · intro t ht
    obtain ⟨db, e1, r1⟩ := ht.delBal.add h2
    obtain ⟨pb, e2, r2⟩ := ht.poolBal.add h3
    obtain ⟨sh, e3, r3⟩ := ht.share.add h4
    refine ⟨_, delegateStaking_ok.2 ⟨data, db, pb, sh, ?_, e1, e2, e3, rfl, rfl⟩, ⟨ht.poolData, r2, r3, r1, ht.delData⟩⟩
    rw [ht.vDelData, h1]
  · intro t ht
    obtain ⟨db, e1, r1⟩ := ht.delBal.sub (k := d) (a := a) (by simp)
    obtain ⟨pb, e2, r2⟩ := ht.poolBal.sub (k := data.sourcePool) (a := a) (by simp)
    obtain ⟨sh, e3, r3⟩ := ht.share.sub (k := key data.sourcePool d) (a := a) (by simp)
    refine ⟨{ t with delta := { t.delta with delegationBalances := db, poolBalances := pb, shares := sh } }, ?_, ?_⟩
    · simp only [undo, ht.vDelData, bind_eq_ok, okOr_eq_ok, pure_eq_ok, lift_ok]
      exact ⟨_, rfl, data, h1, sh, e3, pb, e2, db, e1, rfl⟩
    · refine ⟨ht.poolData, ?_, ?_, ?_, ht.delData⟩
      · simpa using r2
      · simpa using r3
      · simpa using r1

/-- pool balances after a withdrawal: the pool pays only while it exists -/
def afterSpend (s : Sv) (p : PoolId) (a : Nat) : Nat → Nat :=
  if (s.poolData p).isSome then Function.update s.poolBal p (s.poolBal p - a) else s.poolBal

theorem move_spendShare {s : Sv} {d : DelegationId} {a : Nat} {data : DelegationData}
    (h1 : s.delData d = some data) (h2 : a ≤ s.delBal d) (h2' : (s.delBal d : Int) < I128)
    (h3 : (s.poolData data.sourcePool).isSome → a ≤ s.poolBal data.sourcePool)
    (h3' : (s.poolBal data.sourcePool : Int) < I128)
    (h4 : a ≤ s.share (key data.sourcePool d)) (h4' : (s.share (key data.sourcePool d) : Int) < I128) :
    Move s (.spendShare d a) (.spendFromShare d a)
      { s with
        delBal := Function.update s.delBal d (s.delBal d - a)
        poolBal := afterSpend s data.sourcePool a
        share := Function.update s.share (key data.sourcePool d) (s.share (key data.sourcePool d) - a) } := by
  constructor
  · intro t ht
    obtain ⟨db, e1, r1⟩ := ht.delBal.sub h2
    obtain ⟨sh, e3, r3⟩ := ht.share.sub h4
    by_cases hp : (s.poolData data.sourcePool).isSome
    · obtain ⟨pb, e2, r2⟩ := ht.poolBal.sub (h3 hp)
      refine ⟨_, spendShare_ok.2 ⟨data, _, db, pb, sh, ?_, e3, ht.vPoolData _, .inl ⟨hp, e2⟩, e1, rfl, rfl⟩,
        ⟨ht.poolData, ?_, r3, r1, ht.delData⟩⟩
      · rw [ht.vDelData, h1]
      · simp only [afterSpend, if_pos hp]; exact r2
    · refine ⟨_, spendShare_ok.2 ⟨data, _, db, _, sh, ?_, e3, ht.vPoolData _, .inr ⟨by simpa using hp, rfl⟩, e1, rfl, rfl⟩,
        ⟨ht.poolData, ?_, r3, r1, ht.delData⟩⟩
      · rw [ht.vDelData, h1]
      · simp only [afterSpend, if_neg hp]; exact ht.poolBal
  · intro t ht
    obtain ⟨db, e1, r1⟩ := ht.delBal.add (k := d) (a := a) (by simp; omega)
    obtain ⟨sh, e3, r3⟩ := ht.share.add (k := key data.sourcePool d) (a := a) (by simp; omega)
    have hex : t.view.poolExists data.sourcePool = .ok (s.poolData data.sourcePool).isSome :=
      poolExists_ok.2 ⟨_, ht.vPoolData _, rfl⟩
    by_cases hp : (s.poolData data.sourcePool).isSome
    · have h3 := h3 hp
      have ht2 := ht.poolBal
      simp only [afterSpend, if_pos hp] at ht2
      obtain ⟨pb, e2, r2⟩ := ht2.add (k := data.sourcePool) (a := a) (by simp; omega)
      refine ⟨{ t with delta := { t.delta with delegationBalances := db, poolBalances := pb, shares := sh } }, ?_, ?_⟩
      · simp only [undo, ht.vDelData, bind_eq_ok, okOr_eq_ok, lift_ok]
        refine ⟨_, rfl, data, h1, db, e1, _, hex, ?_⟩
        rw [if_pos hp]
        simp only [bind_eq_ok, pure_eq_ok, lift_ok]
        exact ⟨pb, e2, sh, e3, rfl⟩
      · refine ⟨ht.poolData, ?_, ?_, ?_, ht.delData⟩
        · simpa [Nat.sub_add_cancel h3] using r2
        · simpa [Nat.sub_add_cancel h4] using r3
        · simpa [Nat.sub_add_cancel h2] using r1
    · have ht2 := ht.poolBal
      simp only [afterSpend, if_neg hp] at ht2
      refine ⟨{ t with delta := { t.delta with delegationBalances := db, shares := sh } }, ?_, ?_⟩
      · simp only [undo, ht.vDelData, bind_eq_ok, okOr_eq_ok, lift_ok]
        refine ⟨_, rfl, data, h1, db, e1, _, hex, ?_⟩
        rw [if_neg hp]
        simp only [bind_eq_ok, pure_eq_ok, lift_ok]
        exact ⟨_, rfl, sh, e3, rfl⟩
      · refine ⟨ht.poolData, ht2, ?_, ?_, ht.delData⟩
        · simpa [Nat.sub_add_cancel h4] using r3
        · simpa [Nat.sub_add_cancel h2] using r1

/-- an operation that went through and left every balance readable is a move -/
theorem step_move {c c' : Cache} {op : Op} {u : Undo} {s : Sv} (h : Rep c s) (hs : step c op = .ok (c', u))
    (hr : Readable c') : ∃ s', Rep c' s' ∧ Move s op u s' := by
  suffices H : ∃ s', Move s op u s' by
    obtain ⟨s', hm⟩ := H
    obtain ⟨t', h1, h2⟩ := hm.fwd c h
    rw [hs] at h1; cases h1
    exact ⟨s', h2, hm⟩
  cases op with
  | createPool p d =>
    obtain ⟨bs, pd, du, h1, h2, h3, h4, rfl, rfl⟩ := createPool_ok.1 hs
    rw [h.vPoolData] at h1
    rw [h.vPoolBal] at h2
    have h1 := Except.ok.inj h1
    have h2 := Except.ok.inj h2
    obtain ⟨v, hv⟩ := hr.poolBal p
    obtain ⟨e1, _⟩ := h.poolBal.of_add h3 hv
    obtain ⟨rfl, _⟩ := h.poolData.of_merge h1 h4
    exact ⟨_, move_createPool h1 h2 (by rw [h2] at e1; simpa using e1)⟩
  | decommissionPool p =>
    obtain ⟨d, b, bs, pd, du, h1, h2, h3, h4, rfl, rfl⟩ := decommissionPool_ok.1 hs
    rw [h.vPoolData] at h1
    rw [h.vPoolBal] at h2
    have h1 := Except.ok.inj h1
    cases Except.ok.inj h2
    obtain ⟨rfl, _⟩ := h.poolData.of_merge h1 h4
    exact ⟨_, move_decommissionPool h1 (h.poolBal.lt p)⟩
  | increaseStakerRewards p a =>
    obtain ⟨d, bs, pd, du, h1, h2, h3, h4, rfl, rfl⟩ := increaseStakerRewards_ok.1 hs
    rw [h.vPoolData] at h1
    have h1 := Except.ok.inj h1
    obtain ⟨v, hv⟩ := hr.poolBal p
    obtain ⟨e1, _⟩ := h.poolBal.of_add h2 hv
    obtain ⟨rfl, _⟩ := h.poolData.of_merge h1 h4
    exact ⟨_, move_increaseStakerRewards h1 h3 e1⟩
  | createDelegationId t d k =>
    obtain ⟨x, dd, du, h1, h2, h3, rfl, rfl⟩ := createDelegationId_ok.1 hs
    rw [h.vPoolData] at h1
    rw [h.vDelData] at h2
    have h1 := Except.ok.inj h1
    have h2 := Except.ok.inj h2
    obtain ⟨rfl, _⟩ := h.delData.of_merge h2 h3
    exact ⟨_, move_createDelegationId h1 h2⟩
  | deleteDelegationId d =>
    obtain ⟨data, dd, du, h1, h2, h3, h4, h5, rfl, rfl⟩ := deleteDelegationId_ok.1 hs
    rw [h.vDelData] at h1
    rw [h.vDelBal] at h2
    rw [h.vShare] at h3
    rw [h.vPoolData] at h4
    have h1 := Except.ok.inj h1
    obtain ⟨rfl, _⟩ := h.delData.of_merge h1 h5
    exact ⟨_, move_deleteDelegationId h1 (Except.ok.inj h2) (Except.ok.inj h3) (Except.ok.inj h4)⟩
  | delegateStaking d a =>
    obtain ⟨data, db, pb, sh, h1, h2, h3, h4, rfl, rfl⟩ := delegateStaking_ok.1 hs
    rw [h.vDelData] at h1
    obtain ⟨v, hv⟩ := hr.delBal d
    obtain ⟨w, hw⟩ := hr.poolBal data.sourcePool
    obtain ⟨x, hx⟩ := hr.share (key data.sourcePool d)
    exact ⟨_, move_delegateStaking (Except.ok.inj h1) (h.delBal.of_add h2 hv).1 (h.poolBal.of_add h3 hw).1
      (h.share.of_add h4 hx).1⟩
  | spendShare d a =>
    obtain ⟨data, o, db, pb, sh, h1, h2, h3, h4, h5, rfl, rfl⟩ := spendShare_ok.1 hs
    rw [h.vDelData] at h1
    rw [h.vPoolData] at h3
    have h3 := Except.ok.inj h3
    obtain ⟨v, hv⟩ := hr.delBal d
    obtain ⟨w, hw⟩ := hr.poolBal data.sourcePool
    obtain ⟨x, hx⟩ := hr.share (key data.sourcePool d)
    refine ⟨_, move_spendShare (Except.ok.inj h1) (h.delBal.of_sub h5 hv).1 (h.delBal.lt d) ?_ (h.poolBal.lt _)
      (h.share.of_sub h2 hx).1 (h.share.lt _)⟩
    intro hp
    rcases h4 with ⟨_, h4⟩ | ⟨rfl, _⟩
    · exact (h.poolBal.of_sub h4 hw).1
    · rw [h3] at hp; simp at hp

/-! ### Layer over layer -/

/-- a fresh cache over a cache shows the same -/
theorem Rep.child {c : Cache} {s : Sv} (h : Rep c s) : Rep (Cache.new c.view) s where
  poolData := RepD.empty h.vPoolData
  poolBal := RepB.empty fun k => ⟨h.vPoolBal k, h.poolBal.lt k⟩
  share := RepB.empty fun k => ⟨h.vShare k, h.share.lt k⟩
  delBal := RepB.empty fun k => ⟨h.vDelBal k, h.delBal.lt k⟩
  delData := RepD.empty h.vDelData

/-- merging a child's changes makes the parent show what the child showed -/
theorem Rep.layer {c d : Cache} {s s' : Sv} (h : Rep c s) (hp : d.parent = c.view) (h' : Rep d s') :
    ∃ r u, c.delta.mergeWithDelta d.delta = .ok (r, u) ∧ Rep { c with delta := r } s' := by
  obtain ⟨h1, h2, h3, h4, h5⟩ := h'
  rw [hp] at h1 h2 h3 h4 h5
  obtain ⟨a1, u1, e1, r1⟩ := h.poolData.layer h1
  obtain ⟨a2, e2, r2⟩ := h.poolBal.layer h2
  obtain ⟨a3, e3, r3⟩ := h.share.layer h3
  obtain ⟨a4, e4, r4⟩ := h.delBal.layer h4
  obtain ⟨a5, u5, e5, r5⟩ := h.delData.layer h5
  refine ⟨⟨a1, a2, a3, a4, a5⟩, ⟨u1, d.delta.poolBalances, d.delta.shares, d.delta.delegationBalances, u5⟩, ?_, ⟨r1, r2, r3, r4, r5⟩⟩
  simp only [Delta.mergeWithDelta, bind_eq_ok, lift_ok, pure_eq_ok]
  exact ⟨_, e2, _, e3, _, e4, _, e1, _, e5, rfl⟩

/-! ### Over a database -/

/-- what a database shows; stored balances are positive and below 2^127 -/
structure DBRep (db : DB) (s : Sv) : Prop where
  poolData : ∀ k, db.poolData.get k = s.poolData k
  poolBal : ∀ k, bal db.poolBalances k = s.poolBal k
  share : ∀ k, bal db.shares k = s.share k
  delBal : ∀ k, bal db.delegationBalances k = s.delBal k
  delData : ∀ k, db.delegationData.get k = s.delData k
  poolBalPos : ∀ k, db.poolBalances.get k ≠ some 0
  sharePos : ∀ k, db.shares.get k ≠ some 0
  delBalPos : ∀ k, db.delegationBalances.get k ≠ some 0
  poolBalLt : ∀ k, (s.poolBal k : Int) < I128
  shareLt : ∀ k, (s.share k : Int) < I128
  delBalLt : ∀ k, (s.delBal k : Int) < I128

theorem DBRep.ext {db db' : DB} {s : Sv} (h : DBRep db s) (h' : DBRep db' s) : db = db' := by
  obtain ⟨a1, a2, a3, a4, a5⟩ := db
  obtain ⟨b1, b2, b3, b4, b5⟩ := db'
  congr
  · exact BMap.ext_get fun k => (h.poolData k).trans (h'.poolData k).symm
  · exact store_ext h.poolBalPos h'.poolBalPos fun k => (h.poolBal k).trans (h'.poolBal k).symm
  · exact store_ext h.sharePos h'.sharePos fun k => (h.share k).trans (h'.share k).symm
  · exact store_ext h.delBalPos h'.delBalPos fun k => (h.delBal k).trans (h'.delBal k).symm
  · exact BMap.ext_get fun k => (h.delData k).trans (h'.delData k).symm

/-- an empty cache over a database shows what the database shows -/
theorem DBRep.new {db : DB} {s : Sv} (h : DBRep db s) : Rep (Cache.new db.view) s where
  poolData := RepD.empty fun k => by rw [← h.poolData k]; rfl
  poolBal := RepB.empty fun k => ⟨by rw [← h.poolBal k]; rfl, h.poolBalLt k⟩
  share := RepB.empty fun k => ⟨by rw [← h.share k]; rfl, h.shareLt k⟩
  delBal := RepB.empty fun k => ⟨by rw [← h.delBal k]; rfl, h.delBalLt k⟩
  delData := RepD.empty fun k => by rw [← h.delData k]; rfl

/-- flushing a cache over a database -/
theorem Rep.flush {db : DB} {c : Cache} {s0 s : Sv} (h0 : DBRep db s0) (hp : c.parent = db.view) (h : Rep c s) :
    ∃ db' u, db.mergeWithDelta c.delta = .ok (db', u) ∧ DBRep db' s := by
  have h1 := h.poolData; have h2 := h.poolBal; have h3 := h.share; have h4 := h.delBal; have h5 := h.delData
  rw [hp] at h1 h2 h3 h4 h5
  obtain ⟨pd, pdu, e1, r1⟩ := RepD.flush h1
  obtain ⟨dd, ddu, e5, r5⟩ := RepD.flush h5
  obtain ⟨pb, pbu, e2, r2, z2⟩ := RepB.flush h2 .accounting h0.poolBalPos
  obtain ⟨sh, shu, e3, r3, z3⟩ := RepB.flush h3 .accounting h0.sharePos
  obtain ⟨dl, dlu, e4, r4, z4⟩ := RepB.flush h4 .accounting h0.delBalPos
  refine ⟨⟨pd, pb, sh, dl, dd⟩, ⟨pdu, pbu, shu, dlu, ddu⟩, ?_,
    ⟨r1, r2, r3, r4, r5, z2, z3, z4, h.poolBal.lt, h.share.lt, h.delBal.lt⟩⟩
  simp only [DB.mergeWithDelta, bind_eq_ok, lift_ok, pure_eq_ok]
  exact ⟨_, e1, _, e5, _, e2, _, e4, _, e3, rfl⟩

end Verif.Pos
