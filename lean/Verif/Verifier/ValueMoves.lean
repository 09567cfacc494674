import Verif.Verifier.Stage

/-!
# What a successful accounting operation changes

`Move` says that an operation leads from one state to another; here the new balances are spelled out.
-/

namespace Verif.Pos
open Verif Verif.Accounting

/-- what an operation does to the pools and to the balances of delegations -/
def Did (s s' : Sv) : Op → Prop
  | .createPool p d => s.poolData p = none ∧ s'.poolData = Function.update s.poolData p (some d) ∧ s'.delBal = s.delBal
  | .decommissionPool p => (∃ d, s.poolData p = some d) ∧ s'.poolData = Function.update s.poolData p none ∧
      s'.delBal = s.delBal
  | .increaseStakerRewards p a => ∃ d, s.poolData p = some d ∧
      s'.poolData = Function.update s.poolData p (some { d with rewards := d.rewards + a }) ∧ s'.delBal = s.delBal
  | .createDelegationId _ _ _ => s'.poolData = s.poolData ∧ s'.delBal = s.delBal
  | .deleteDelegationId _ => s'.poolData = s.poolData
  | .delegateStaking d a => s'.poolData = s.poolData ∧ s'.delBal = Function.update s.delBal d (s.delBal d + a)
  | .spendShare d a => a ≤ s.delBal d ∧ s'.poolData = s.poolData ∧
      s'.delBal = Function.update s.delBal d (s.delBal d - a)

theorem step_did {c c' : Cache} {op : Op} {u : Undo} {s s' : Sv} (h : Rep c s) (hs : step c op = .ok (c', u))
    (h' : Rep c' s') : Did s s' op := by
  have hr := h'.readable
  cases op with
  | createPool p d =>
    obtain ⟨bs, pd, du, h1, h2, h3, h4, rfl, rfl⟩ := createPool_ok.1 hs
    have h1 := Except.ok.inj ((h.vPoolData p).symm.trans h1)
    exact ⟨h1, h'.poolData.inj (h.poolData.of_merge h1 h4).2, h'.delBal.inj h.delBal⟩
  | decommissionPool p =>
    obtain ⟨d, b, bs, pd, du, h1, h2, h3, h4, rfl, rfl⟩ := decommissionPool_ok.1 hs
    have h1 := Except.ok.inj ((h.vPoolData p).symm.trans h1)
    exact ⟨⟨d, h1⟩, h'.poolData.inj (h.poolData.of_merge h1 h4).2, h'.delBal.inj h.delBal⟩
  | increaseStakerRewards p a =>
    obtain ⟨d, bs, pd, du, h1, h2, h3, h4, rfl, rfl⟩ := increaseStakerRewards_ok.1 hs
    have h1 := Except.ok.inj ((h.vPoolData p).symm.trans h1)
    exact ⟨d, h1, h'.poolData.inj (h.poolData.of_merge h1 h4).2, h'.delBal.inj h.delBal⟩
  | createDelegationId t d k =>
    obtain ⟨x, dd, du, h1, h2, h3, rfl, rfl⟩ := createDelegationId_ok.1 hs
    exact ⟨h'.poolData.inj h.poolData, h'.delBal.inj h.delBal⟩
  | deleteDelegationId d =>
    obtain ⟨t', h1, h2⟩ : ∃ t', t' = c' ∧ c'.delta.poolData = c.delta.poolData ∧ c'.parent = c.parent := by
      refine ⟨c', rfl, ?_⟩
      simp only [step, deleteDelegationId, bind_eq_ok, ensure_eq_ok, okOr_eq_ok, pure_eq_ok, lift_ok, Prod.mk.injEq] at hs
      obtain ⟨_, -, _, -, hs⟩ := hs
      simp only [Prod.exists, bind_eq_ok, ensure_eq_ok, okOr_eq_ok, pure_eq_ok, lift_ok, Prod.mk.injEq] at hs
      obtain ⟨_, -, _, -, _, -, _, -, _, -, _, -, _, _, -, rfl, -⟩ := hs
      exact ⟨rfl, rfl⟩
    have := h'.poolData
    rw [h2.1, h2.2] at this
    exact this.inj h.poolData
  | delegateStaking d a =>
    obtain ⟨data, db, pb, sh, h1, h2, h3, h4, rfl, rfl⟩ := delegateStaking_ok.1 hs
    obtain ⟨v, hv⟩ := hr.delBal d
    exact ⟨h'.poolData.inj h.poolData, h'.delBal.inj (h.delBal.of_add h2 hv).2⟩
  | spendShare d a =>
    obtain ⟨data, o, db, pb, sh, h1, h2, h3, h4, h5, rfl, rfl⟩ := spendShare_ok.1 hs
    obtain ⟨v, hv⟩ := hr.delBal d
    obtain ⟨e1, e2⟩ := h.delBal.of_sub h5 hv
    exact ⟨e1, h'.poolData.inj h.poolData, h'.delBal.inj e2⟩

theorem Move.did {t : Cache} {s s' : Sv} {op : Op} {u : Undo} (h : Rep t s) (hm : Move s op u s') : Did s s' op := by
  obtain ⟨t', h1, h2⟩ := hm.fwd t h
  exact step_did h h1 h2

end Verif.Pos

namespace Verif.Tokens
open Verif Verif.Accounting

/-- what an operation does to the supplies -/
def Did (s s' : Sv) : Op → Prop
  | .mint id a => s'.supply = Function.update s.supply id (s.supply id + a)
  | .unmint id a => a ≤ s.supply id ∧ s'.supply = Function.update s.supply id (s.supply id - a)
  | .issue _ _ => s'.supply = s.supply
  | .lock _ => s'.supply = s.supply
  | .freeze _ _ => s'.supply = s.supply
  | .unfreeze _ => s'.supply = s.supply
  | .changeAuthority _ _ => s'.supply = s.supply
  | .changeMetadataUri _ _ => s'.supply = s.supply

theorem step_did {c c' : Cache} {op : Op} {u : Undo} {s s' : Sv} (h : Rep c s) (hs : step c op = .ok (c', u))
    (h' : Rep c' s') : Did s s' op := by
  rcases step_cases hs with ⟨id, cur, new, data, du, ht, h1, h2, rfl, h3, h3', h4⟩ |
    ⟨id, a, d, supply, rfl, rfl, h1, h2, h3, h4, rfl⟩ | ⟨id, a, d, x, supply, rfl, rfl, h1, h2, h3, h4, h5, h6, rfl⟩
  · have : s'.supply = s.supply := h'.supply.inj h.supply
    cases ht <;> exact this
  · obtain ⟨v, hv⟩ := h'.readable id
    exact h'.supply.inj (h.supply.of_add h4 hv).2
  · obtain ⟨v, hv⟩ := h'.readable id
    obtain ⟨e1, e2⟩ := h.supply.of_sub h6 hv
    exact ⟨e1, h'.supply.inj e2⟩

theorem Move.did {t : Cache} {s s' : Sv} {op : Op} {u : Undo} (h : Rep t s) (hm : Move s op u s') : Did s s' op := by
  obtain ⟨t', h1, h2⟩ := hm.fwd t h
  exact step_did h h1 h2

end Verif.Tokens

namespace Verif.Orders
open Verif Verif.Accounting

/-- what an operation does to the orders -/
def Did (s s' : Sv) : Op → Prop
  | .create id d => ∃ oa og, s.data id = none ∧ amountOf d.ask = some oa ∧ amountOf d.give = some og ∧
      s'.data = Function.update s.data id (some d) ∧ s'.ask = Function.update s.ask id oa ∧
      s'.give = Function.update s.give id og
  | .conclude id => ∀ i, i ≠ id → s'.data i = s.data i ∧ s'.ask i = s.ask i ∧ s'.give i = s.give i
  | .fill id _ _ => ∀ i, i ≠ id → s'.data i = s.data i ∧ s'.ask i = s.ask i ∧ s'.give i = s.give i
  | .freeze id => ∃ d, s.data id = some d ∧ s'.data = Function.update s.data id (some { d with isFrozen := true }) ∧
      s'.ask = s.ask ∧ s'.give = s.give

theorem step_did {c c' : Cache} {op : Op} {u : Undo} {s s' : Sv} (h : Rep c s) (hso : s.Sound)
    (hs : step c op = .ok (c', u)) (h' : Rep c' s') : Did s s' op := by
  have hr := h'.readable
  cases op with
  | create id d =>
    obtain ⟨oa, og, data, du, ask, give, h1, h2, h3, h4, h5, h6, h7, h8, h9, rfl, rfl⟩ := createOrder_ok hs
    have hd : s.data id = none := Except.ok.inj ((h.vData id).symm.trans h1)
    have ha : s.ask id = 0 := Except.ok.inj ((h.vAsk id).symm.trans h2)
    have hg : s.give id = 0 := by have := hso id; rw [hd] at this; exact this.2
    obtain ⟨v, hv⟩ := hr.ask id
    obtain ⟨w, hw⟩ := hr.give id
    have e1 := h'.ask.inj (h.ask.of_add h8 hv).2
    have e2 := h'.give.inj (h.give.of_add h9 hw).2
    rw [ha, Nat.zero_add] at e1
    rw [hg, Nat.zero_add] at e2
    exact ⟨oa, og, hd, outputValueAmount_ok.1 h3, outputValueAmount_ok.1 h4, h'.data.inj (h.data.of_merge hd h7).2, e1, e2⟩
  | conclude id =>
    obtain ⟨d, ab, gb, data, du, ask, give, h1, h2, h3, h4, h5, h6, rfl, rfl⟩ := concludeOrder_ok hs
    have hd := Except.ok.inj ((h.vData id).symm.trans h1)
    obtain ⟨v, hv⟩ := hr.ask id
    obtain ⟨w, hw⟩ := hr.give id
    have e0 := h'.data.inj (h.data.of_merge hd h4).2
    have e1 := h'.ask.inj (h.ask.of_sub h5 hv).2
    have e2 := h'.give.inj (h.give.of_sub h6 hw).2
    intro i hi
    rw [e0, e1, e2]
    simp [Function.update_of_ne hi]
  | fill id n ver =>
    obtain ⟨d, filled, ask, give, h1, h2, h3, h4, h5, rfl, rfl⟩ := fillOrder_ok hs
    obtain ⟨v, hv⟩ := hr.ask id
    obtain ⟨w, hw⟩ := hr.give id
    have e0 := h'.data.inj h.data
    have e1 := h'.ask.inj (h.ask.of_sub h5 hv).2
    have e2 := h'.give.inj (h.give.of_sub h4 hw).2
    intro i hi
    rw [e0, e1, e2]
    simp [Function.update_of_ne hi]
  | freeze id =>
    obtain ⟨d, data, du, h1, h2, h3, rfl, rfl⟩ := freezeOrder_ok hs
    have hd := Except.ok.inj ((h.vData id).symm.trans h1)
    exact ⟨d, hd, h'.data.inj (h.data.of_merge hd h3).2, h'.ask.inj h.ask, h'.give.inj h.give⟩

theorem Move.did {t : Cache} {s s' : Sv} {op : Op} {u : Undo} (h : Rep t s) (hso : s.Sound) (hm : Move s op u s') :
    Did s s' op := by
  obtain ⟨t', h1, h2⟩ := hm.fwd t h
  exact step_did h hso h1 h2

end Verif.Orders
