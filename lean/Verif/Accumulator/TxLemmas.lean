import Verif.Accumulator.Lemmas
import Verif.Orders.Props

/-!
# Lemmas about accumulating a transaction's inputs and outputs
-/

namespace Verif.Accumulator
open Verif Verif.Accounting

theorem total_def (a : Acc) (c : Cur) : a.total c = amt a.unc c + if c = 0 then a.locked.sumV (fun _ v => v) else 0 := rfl

theorem unc_increase {a : Acc} {u : BMap Nat Nat} {k n : Nat} (h : insertOrIncrease a.unc k n = .ok u) (c : Cur) :
    Acc.total { a with unc := u } c = a.total c + if c = k then n else 0 := by
  rw [total_def, total_def, amt_increase h]
  simp only
  omega

theorem addValue_ok {a a' : Acc} {v : Orders.OutputValue} (h : addValue a v = .ok a') :
    a'.locked = a.locked ∧ ∀ c, a'.total c = a.total c + val c v := by
  cases v with
  | coin n =>
    simp only [addValue, bind_eq_ok, pure_eq_ok] at h
    obtain ⟨u, h1, rfl⟩ := h
    exact ⟨rfl, fun c => unc_increase h1 c⟩
  | tokenV0 => cases h; exact ⟨rfl, fun c => rfl⟩
  | tokenV1 id n =>
    simp only [addValue, bind_eq_ok, pure_eq_ok] at h
    obtain ⟨u, h1, rfl⟩ := h
    exact ⟨rfl, fun c => unc_increase h1 c⟩

theorem locked_increase {a : Acc} {l : BMap Nat Nat} {k n : Nat} (h : insertOrIncrease a.locked k n = .ok l) :
    (∀ c, Acc.total { a with locked := l } c = a.total c + if c = 0 then n else 0) ∧
    ∀ d, Acc.lockedFrom { a with locked := l } d = a.lockedFrom d + if d ≤ k then n else 0 := by
  constructor
  · intro c
    rw [total_def, total_def]
    simp only [sumV_increase' h]
    split <;> omega
  · intro d
    exact sumV_increase h (fun k => d ≤ k)

theorem mapError_eq_ok {E E' A : Type} {x : Except E A} {w : E → E'} {a : A} : x.mapError w = .ok a ↔ x = .ok a := by
  cases x <;> simp [Except.mapError]

theorem addStaked_ok {a a' : Acc} {m n : Nat} (h : addStaked a m n = .ok a') :
    (∀ c, a'.total c = a.total c + if c = 0 then n else 0) ∧
    ∀ d, a'.lockedFrom d = a.lockedFrom d + if m ≠ 0 ∧ d ≤ m then n else 0 := by
  unfold addStaked at h
  split at h
  · rename_i hm
    simp only [bind_eq_ok, pure_eq_ok, mapError_eq_ok] at h
    obtain ⟨l, h1, rfl⟩ := h
    have := locked_increase h1
    refine ⟨this.1, fun d => ?_⟩
    rw [this.2]
    simp [hm]
  · rename_i hm
    simp only [bind_eq_ok, pure_eq_ok] at h
    obtain ⟨u, h1, rfl⟩ := h
    refine ⟨fun c => unc_increase h1 c, fun d => ?_⟩
    simp only [ne_eq, not_not] at hm
    simp [Acc.lockedFrom, hm]

theorem stakerBalance_ok {d : Pos.PoolData} {b : Nat} (h : d.stakerBalance = .ok b) : b = d.pledge + d.rewards := by
  unfold Pos.PoolData.stakerBalance at h
  rw [okOr_eq_ok, Amt_add_some] at h
  exact h.2

/-- what an input does to the accumulator, short of order commands -/
def Brings (pv : Pos.View) (m : Nat) (a a' : Acc) (x : TxInput × Option TxOutput) : Prop :=
  (∀ c, a'.total c = a.total c + brought pv c x) ∧
  ∀ d, a'.lockedFrom d = a.lockedFrom d + if m ≠ 0 ∧ d ≤ m then unstaked pv x else 0

theorem inputUtxo_ok {cfg : Config} {pv : Pos.View} {a a' : Acc} {o : TxOutput}
    (h : inputUtxo cfg pv a o = .ok a') : Brings pv cfg.maturity a a' (.utxo, some o) := by
  have stake : ∀ p, inputUtxo.stake cfg pv a p = .ok a' →
      (∀ c, a'.total c = a.total c + if c = 0 then ownerShare pv p else 0) ∧
      ∀ d, a'.lockedFrom d = a.lockedFrom d + if cfg.maturity ≠ 0 ∧ d ≤ cfg.maturity then ownerShare pv p else 0 := by
    intro p hp
    simp only [inputUtxo.stake, bind_eq_ok, okOr_eq_ok, mapError_eq_ok] at hp
    obtain ⟨od, h1, d, rfl, b, h2, h3⟩ := hp
    have e : ownerShare pv p = b := by
      unfold ownerShare; rw [h1]; exact (stakerBalance_ok h2).symm
    rw [e]
    exact addStaked_ok h3
  have value : ∀ v, addValue a v = .ok a' → (∀ c, a'.total c = a.total c + val c v) ∧
      ∀ d, a'.lockedFrom d = a.lockedFrom d := by
    intro v hv
    have := addValue_ok hv
    refine ⟨this.2, fun d => ?_⟩
    unfold Acc.lockedFrom; rw [this.1]
  cases o <;> simp only [inputUtxo, reduceCtorEq] at h
  case transfer v => have := value _ h; exact ⟨by simpa [brought, unstaked] using this.1, by simpa [unstaked] using this.2⟩
  case lockThenTransfer v l =>
    have := value _ h; exact ⟨by simpa [brought, unstaked] using this.1, by simpa [unstaked] using this.2⟩
  case htlc v => have := value _ h; exact ⟨by simpa [brought, unstaked] using this.1, by simpa [unstaked] using this.2⟩
  case issueNft id =>
    have := value _ h
    exact ⟨by simpa [brought, unstaked, val] using this.1, by simpa [unstaked] using this.2⟩
  case delegateStaking n =>
    have := value _ h
    exact ⟨by simpa [brought, unstaked, val] using this.1, by simpa [unstaked] using this.2⟩
  case createStakePool p n =>
    have := stake p h
    exact ⟨by simpa [brought, unstaked] using this.1, by simpa [unstaked] using this.2⟩
  case produceBlockFromStake p =>
    have := stake p h
    exact ⟨by simpa [brought, unstaked] using this.1, by simpa [unstaked] using this.2⟩

/-- value held by a set of orders -/
def heldBy (v : Orders.View) (c : Cur) (S : Finset Nat) : Int := ∑ id ∈ S, held v c id

theorem heldBy_change {v v' : Orders.View} {c : Cur} {S : Finset Nat} {id : Nat} (hid : id ∈ S) (x : Int)
    (h : ∀ i, i ≠ id → held v' c i = held v c i) (hx : held v' c id = held v c id + x) :
    heldBy v' c S = heldBy v c S + x := by
  unfold heldBy
  rw [← Finset.add_sum_erase _ _ hid, ← Finset.add_sum_erase _ _ hid, hx,
    Finset.sum_congr rfl (fun i hi => h i (Finset.ne_of_mem_erase hi))]
  ring

theorem held_congr {v v' : Orders.View} {c : Cur} {i : Nat} (h1 : v'.data i = v.data i) (h2 : v'.ask i = v.ask i)
    (h3 : v'.give i = v.give i) : held v' c i = held v c i := by
  unfold held; rw [h1, h2, h3]

theorem valueAmount_ok {v : Orders.OutputValue} {n : Nat} (h : valueAmount v = .ok n) : Orders.amountOf v = some n := by
  cases v <;> simp_all [valueAmount, Orders.amountOf]

theorem val_of {v : Orders.OutputValue} {c' n : Nat} (h1 : curOf v = some c') (h2 : Orders.amountOf v = some n)
    (c : Cur) : val c v = if c = c' then n else 0 := by
  cases v <;> simp_all [curOf, Orders.amountOf, val, coin, token]

/-- state of the loop -/
structure Good (pv : Pos.View) (s : St) : Prop where
  parent : Orders.SoundView s.orders.parent
  view : Orders.SoundView s.orders.view
  pools : ∀ p, s.pos.view.poolData p = pv.poolData p

/-- balance of the loop state: accumulated minus to be deducted plus held by orders -/
def worth (s : St) (c : Cur) (S : Finset Nat) : Int :=
  (s.acc.total c : Int) - amt s.deduct c + heldBy s.orders.view c S

theorem inputConclude_ok {pv : Pos.View} {s s' : St} {id : Nat} (hg : Good pv s) (h : inputConclude s id = .ok s') :
    Good pv s' ∧ s'.deduct = s.deduct ∧ s'.acc.locked = s.acc.locked ∧
    (∃ u, Orders.step s.orders (.conclude id) = .ok (s'.orders, u)) ∧
    ∀ c S, id ∈ S → worth s' c S = worth s c S := by
  simp only [inputConclude, bind_eq_ok, okOr_eq_ok, mapError_eq_ok, pure_eq_ok] at h
  obtain ⟨od, h1, d, rfl, ask, h2, give, h3, ⟨o, u⟩, h4, _, h5, _, h6, asked, h7, filled, h8, ac, h9, u1, h10, gc, h11, u2,
    h12, rfl⟩ := h
  have hstep : Orders.step s.orders (.conclude id) = .ok (o, u) := h4
  rcases Orders.step_obs hg.parent hg.view hstep with ⟨_, _, _, _, _, e, _⟩ | ⟨id', d', a', g', du, e, _, e1, e2, e3, v1, v2, v3⟩ |
    ⟨_, _, _, _, _, _, _, e, _⟩ | ⟨_, _, _, e, _⟩
  · cases e
  · cases e
    rw [h1] at e1; cases e1
    rw [h2] at e2; cases e2
    rw [h3] at e3; cases e3
    obtain ⟨hle, rfl⟩ := sub_some.1 h8
    have hask := valueAmount_ok h7
    refine ⟨⟨?_, Orders.step_sound hg.parent hg.view hstep, hg.pools⟩, rfl, rfl, ⟨u, hstep⟩, ?_⟩
    · simp only; rw [Orders.step_parent hstep]; exact hg.parent
    · intro c S hS
      have hh : heldBy o.view c S = heldBy s.orders.view c S +
          -((if ac = c then (asked : Int) - ask else 0) + if gc = c then (give : Int) else 0) := by
        apply heldBy_change hS
        · intro i hi
          exact held_congr (by rw [v1, if_neg hi]) (by rw [v2, if_neg hi]) (by rw [v3, if_neg hi])
        · have a1 : held o.view c id = 0 := by unfold held; rw [v1, if_pos rfl]
          have a2 : held s.orders.view c id =
              (if ac = c then (asked : Int) - ask else 0) + if gc = c then (give : Int) else 0 := by
            unfold held
            rw [h1, h2, h3]
            simp only [h9, h11, hask, Option.some.injEq, Option.getD_some]
          rw [a1, a2]; ring
      have ht : Acc.total { s.acc with unc := u2 } c = s.acc.total c + (if c = ac then asked - ask else 0) +
          if c = gc then give else 0 := by
        have t1 := unc_increase h10 c
        have t2 := unc_increase (a := { s.acc with unc := u1 }) h12 c
        rw [← t1, ← t2]
      simp only [worth, ht, hh]
      simp only [eq_comm (a := c)]
      split_ifs <;> push_cast <;> omega
  · cases e
  · cases e

theorem inputFill_ok {cfg : Config} {pv : Pos.View} {s s' : St} {id n : Nat} {ac : Cur} (hg : Good pv s)
    (h : inputFill cfg s id n = .ok (s', ac)) :
    Good pv s' ∧ s'.deduct = s.deduct ∧ s'.acc.locked = s.acc.locked ∧
    (∃ u, Orders.step s.orders (.fill id n cfg.ordersVersion) = .ok (s'.orders, u)) ∧
    ∀ c S, id ∈ S → worth s' c S = worth s c S + if c = ac then (n : Int) else 0 := by
  simp only [inputFill, bind_eq_ok, okOr_eq_ok, mapError_eq_ok, pure_eq_ok, Prod.mk.injEq] at h
  obtain ⟨od, h1, d, rfl, filled, h2, ⟨o, u⟩, h4, _, h5, _, h6, gc, h7, u1, h8, ac', h9, rfl, rfl⟩ := h
  have hstep : Orders.step s.orders (.fill id n cfg.ordersVersion) = .ok (o, u) := h4
  rcases Orders.step_obs hg.parent hg.view hstep with ⟨_, _, _, _, _, e, _⟩ | ⟨_, _, _, _, _, e, _⟩ |
    ⟨id', fill, ver, d', a, g, r, e, _, e1, _, e2, e3, e4, l1, l2, _, v1, v2, v3⟩ | ⟨_, _, _, e, _⟩
  · cases e
  · cases e
  · cases e
    rw [h1] at e1; cases e1
    rw [h2] at e4; cases e4
    refine ⟨⟨?_, Orders.step_sound hg.parent hg.view hstep, hg.pools⟩, rfl, rfl, ⟨u, hstep⟩, ?_⟩
    · simp only; rw [Orders.step_parent hstep]; exact hg.parent
    · intro c S hS
      have hh : heldBy o.view c S = heldBy s.orders.view c S +
          ((if ac' = c then (n : Int) else 0) - if gc = c then (filled : Int) else 0) := by
        apply heldBy_change hS
        · intro i hi
          exact held_congr (v1 i) (by rw [v2, if_neg hi]) (by rw [v3, if_neg hi])
        · unfold held
          rw [v1, v2, v3, if_pos rfl, if_pos rfl, h1, e2, e3]
          simp only [h9, h7, Option.some.injEq]
          split_ifs <;> push_cast [l1, l2] <;> ring
      have ht := unc_increase h8 c
      simp only [worth, ht, hh]
      simp only [eq_comm (a := c)]
      split_ifs <;> push_cast <;> omega
  · cases e

theorem addDeduct_ok {s s' : St} {c' : Cur} {n : Nat} (h : addDeduct s c' n = .ok s') :
    s'.acc = s.acc ∧ s'.pos = s.pos ∧ s'.orders = s.orders ∧
    ∀ c S, worth s' c S = worth s c S - if c = c' then (n : Int) else 0 := by
  simp only [addDeduct, bind_eq_ok, pure_eq_ok] at h
  obtain ⟨d, h1, rfl⟩ := h
  refine ⟨rfl, rfl, rfl, fun c S => ?_⟩
  simp only [worth, amt_increase h1]
  split_ifs <;> push_cast <;> ring

theorem spendInput_pools {c c' : Pos.Cache} {d n : Nat} (h : Pos.spendInput c d n = .ok c') :
    c'.view.poolData = c.view.poolData := by
  simp only [Pos.spendInput, bind_eq_ok, pure_eq_ok] at h
  obtain ⟨⟨c1, u⟩, h1, b, h2, rfl⟩ := h
  obtain ⟨_, _, _, _, _, _, _, _, _, _, rfl, _⟩ := Pos.spendShare_ok.1 h1
  rfl

/-- what one input does -/
structure StepOk (cfg : Config) (pv : Pos.View) (s s' : St) (x : TxInput × Option TxOutput) : Prop where
  good : Good pv s'
  ops : ∃ us, Orders.run s.orders (orderOps cfg x.1) = .ok (s'.orders, us)
  worth : ∀ c S, (∀ id, touches id x.1 → id ∈ S) →
    worth s' c S = worth s c S + brought pv c x - commandFee cfg c x.1
  locked : ∀ d, s'.acc.lockedFrom d =
    s.acc.lockedFrom d + if cfg.maturity ≠ 0 ∧ d ≤ cfg.maturity then unstaked pv x else 0

theorem run_nil (c : Orders.Cache) : Orders.run c [] = .ok (c, []) := rfl

theorem run_one {c c' : Orders.Cache} {op : Orders.Op} {u : Orders.Undo} (h : Orders.step c op = .ok (c', u)) :
    Orders.run c [op] = .ok (c', [u]) := by
  simp only [Orders.run, History.run, h]
  rfl

theorem run_append {c c1 c2 : Orders.Cache} {o1 o2 : List Orders.Op} {u1 u2 : List Orders.Undo}
    (h1 : Orders.run c o1 = .ok (c1, u1)) (h2 : Orders.run c1 o2 = .ok (c2, u2)) :
    Orders.run c (o1 ++ o2) = .ok (c2, u1 ++ u2) := by
  induction o1 generalizing c u1 with
  | nil => cases h1; exact h2
  | cons op o1 ih =>
    obtain ⟨d, u, us, e1, e2, rfl⟩ := Orders.run_cons_ok h1
    have := ih e2
    simp only [Orders.run] at this
    simp only [Orders.run, List.cons_append, History.run, e1, bind_eq_ok, pure_eq_ok]
    exact ⟨_, rfl, _, this, rfl⟩

theorem unstaked_owner {pv pv' : Pos.View} (h : ∀ p, pv'.poolData p = pv.poolData p) (x : TxInput × Option TxOutput) :
    unstaked pv' x = unstaked pv x := by
  have : ∀ p, ownerShare pv' p = ownerShare pv p := by intro p; unfold ownerShare; rw [h]
  unfold unstaked
  split <;> first | rfl | exact this _

theorem inputStep_ok {cfg : Config} {pv : Pos.View} {s s' : St} {x : TxInput × Option TxOutput} (hg : Good pv s)
    (h : inputStep cfg s x = .ok s') : StepOk cfg pv s s' x := by
  have fee : ∀ (n : Nat), addDeduct s coin n = .ok s' → (∀ c, commandFee cfg c x.1 = if c = 0 then n else 0) →
      orderOps cfg x.1 = [] → (∀ c, brought pv c x = 0) → unstaked pv x = 0 → StepOk cfg pv s s' x := by
    intro n h hf ho hb hu
    obtain ⟨e1, e2, e3, e4⟩ := addDeduct_ok h
    refine ⟨⟨by rw [e3]; exact hg.parent, by rw [e3]; exact hg.view, by rw [e2]; exact hg.pools⟩, ?_, ?_, ?_⟩
    · rw [ho, e3]; exact ⟨[], rfl⟩
    · intro c S _
      rw [e4, hf, hb]
      have hc : (c = coin) = (c = 0) := rfl
      by_cases h0 : c = 0
      · rw [if_pos h0, if_pos (hc ▸ h0)]; push_cast; ring
      · rw [if_neg h0, if_neg (hc ▸ h0)]; push_cast; ring
    · intro d; rw [e1, hu]; simp
  obtain ⟨i, u⟩ := x
  cases i with
  | utxo =>
    simp only [inputStep, bind_eq_ok, okOr_eq_ok, pure_eq_ok] at h
    obtain ⟨o, rfl, a, h1, rfl⟩ := h
    obtain ⟨b1, b2⟩ := inputUtxo_ok h1
    have hu := unstaked_owner hg.pools (.utxo, some o)
    refine ⟨⟨hg.parent, hg.view, hg.pools⟩, ⟨[], rfl⟩, ?_, ?_⟩
    · intro c S _
      simp only [worth, b1, commandFee]
      have : brought s.pos.view c (.utxo, some o) = brought pv c (.utxo, some o) := by
        simp only [brought, hu]
      rw [this]; push_cast; ring
    · intro d; simp only [b2, hu]
  | delegation d n =>
    simp only [inputStep, inputDelegation, bind_eq_ok, mapError_eq_ok, pure_eq_ok] at h
    obtain ⟨p, h1, a, h2, rfl⟩ := h
    obtain ⟨b1, b2⟩ := addStaked_ok h2
    refine ⟨⟨hg.parent, hg.view, ?_⟩, ⟨[], rfl⟩, ?_, ?_⟩
    · intro q; simp only; rw [spendInput_pools h1]; exact hg.pools q
    · intro c S _
      simp only [worth, b1, commandFee, brought, unstaked]; push_cast; ring
    · intro k; simp only [b2, unstaked]
  | mint id n =>
    simp only [inputStep, bind_eq_ok] at h
    obtain ⟨s1, h1, h2⟩ := h
    simp only [inputMint, bind_eq_ok, mapError_eq_ok, pure_eq_ok] at h1
    obtain ⟨⟨t, _⟩, _, _, _, w, h3, rfl⟩ := h1
    obtain ⟨e1, e2, e3, e4⟩ := addDeduct_ok h2
    refine ⟨⟨by rw [e3]; exact hg.parent, by rw [e3]; exact hg.view, by rw [e2]; exact hg.pools⟩, ?_, ?_, ?_⟩
    · rw [e3]; exact ⟨[], rfl⟩
    · intro c S _
      rw [e4]
      have ht : (c = token id) = (c = id + 1) := rfl
      have e : (if c = token id then n else 0) = if c = id + 1 then n else 0 := by
        by_cases h1 : c = id + 1
        · rw [if_pos h1, if_pos (ht ▸ h1)]
        · rw [if_neg h1, if_neg (ht ▸ h1)]
      simp only [worth, unc_increase h3, brought, unstaked, commandFee, e]
      by_cases h0 : c = 0
      · have h1 : c = coin := h0
        simp only [if_pos h0, if_pos h1]; push_cast; ring
      · have h1 : ¬ c = coin := h0
        simp only [if_neg h0, if_neg h1]; push_cast; ring
    · intro d; rw [e1]; simp [Acc.lockedFrom, unstaked]
  | unmint id => exact fee _ h (fun _ => rfl) rfl (fun c => by simp [brought, unstaked]) rfl
  | lockSupply id => exact fee _ h (fun _ => rfl) rfl (fun c => by simp [brought, unstaked]) rfl
  | freezeToken id => exact fee _ h (fun _ => rfl) rfl (fun c => by simp [brought, unstaked]) rfl
  | unfreezeToken id => exact fee _ h (fun _ => rfl) rfl (fun c => by simp [brought, unstaked]) rfl
  | changeAuthority id => exact fee _ h (fun _ => rfl) rfl (fun c => by simp [brought, unstaked]) rfl
  | changeMetadataUri id => exact fee _ h (fun _ => rfl) rfl (fun c => by simp [brought, unstaked]) rfl
  | concludeOrder id =>
    simp only [inputStep, bind_eq_ok] at h
    obtain ⟨s1, h1, h2⟩ := h
    obtain ⟨g1, d1, l1, ⟨w, o1⟩, w1⟩ := inputConclude_ok hg h1
    obtain ⟨e1, e2, e3, e4⟩ := addDeduct_ok h2
    refine ⟨⟨by rw [e3]; exact g1.parent, by rw [e3]; exact g1.view, by rw [e2]; exact g1.pools⟩, ?_, ?_, ?_⟩
    · rw [e3]; exact ⟨_, run_one o1⟩
    · intro c S hS
      rw [e4, w1 c S (hS id rfl)]
      simp [brought, unstaked, commandFee]
    · intro d; rw [e1]; simp [Acc.lockedFrom, unstaked, l1]
  | fillOrder id n =>
    simp only [inputStep, bind_eq_ok] at h
    obtain ⟨⟨s1, ac⟩, h1, h2⟩ := h
    obtain ⟨g1, d1, l1, ⟨w, o1⟩, w1⟩ := inputFill_ok hg h1
    obtain ⟨e1, e2, e3, e4⟩ := addDeduct_ok h2
    refine ⟨⟨by rw [e3]; exact g1.parent, by rw [e3]; exact g1.view, by rw [e2]; exact g1.pools⟩, ?_, ?_, ?_⟩
    · rw [e3]; exact ⟨_, run_one o1⟩
    · intro c S hS
      rw [e4, w1 c S (hS id rfl)]
      simp [brought, unstaked, commandFee]
    · intro d; rw [e1]; simp [Acc.lockedFrom, unstaked, l1]
  | freezeOrder id =>
    cases h
    refine ⟨hg, ⟨[], rfl⟩, ?_, ?_⟩
    · intro c S _; simp [brought, unstaked, commandFee]
    · intro d; simp [unstaked]

theorem inputLoop_ok {cfg : Config} {pv : Pos.View} {xs : List (TxInput × Option TxOutput)} {s s' : St}
    (hg : Good pv s) (h : inputLoop cfg s xs = .ok s') :
    (∃ us, Orders.run s.orders (xs.flatMap (fun x => orderOps cfg x.1)) = .ok (s'.orders, us)) ∧
    (∀ c S, (∀ x ∈ xs, ∀ id, touches id x.1 → id ∈ S) →
      worth s' c S = worth s c S + (xs.map (fun x => (brought pv c x : Int))).sum -
        (xs.map (fun x => (commandFee cfg c x.1 : Int))).sum) ∧
    ∀ d, s'.acc.lockedFrom d = s.acc.lockedFrom d +
      if cfg.maturity ≠ 0 ∧ d ≤ cfg.maturity then (xs.map (unstaked pv)).sum else 0 := by
  induction xs generalizing s with
  | nil =>
    cases h
    exact ⟨⟨[], rfl⟩, fun c S _ => by simp, fun d => by simp⟩
  | cons x xs ih =>
    unfold inputLoop at h
    rw [List.foldlM_cons, bind_eq_ok] at h
    obtain ⟨s1, h1, h2⟩ := h
    obtain ⟨g, ⟨us1, o⟩, w, l⟩ := inputStep_ok hg h1
    obtain ⟨⟨us2, i1⟩, i2, i3⟩ := ih g h2
    refine ⟨⟨_, run_append o i1⟩, ?_, ?_⟩
    · intro c S hS
      rw [i2 c S (fun y hy => hS y (by simp [hy])), w c S (hS x (by simp))]
      simp only [List.map_cons, List.sum_cons]
      ring
    · intro d
      rw [i3, l]
      simp only [List.map_cons, List.sum_cons]
      split <;> omega

theorem addLocked_ok {a a' : Acc} {n : Nat} {l : TimeLock} (h : addLocked a n l = .ok a') :
    (∀ c, a'.total c = a.total c + val c (.coin n)) ∧
    ∀ d, a'.lockedFrom d = a.lockedFrom d + lockedOut d (.lockThenTransfer (.coin n) l) := by
  have plain : addValue a (.coin n) = .ok a' → (∀ d, lockedOut d (.lockThenTransfer (.coin n) l) = 0) →
      (∀ c, a'.total c = a.total c + val c (.coin n)) ∧
      ∀ d, a'.lockedFrom d = a.lockedFrom d + lockedOut d (.lockThenTransfer (.coin n) l) := by
    intro h h0
    have := addValue_ok h
    refine ⟨this.2, fun d => ?_⟩
    rw [h0]; unfold Acc.lockedFrom; rw [this.1]; rfl
  cases l with
  | untilHeight k => exact plain h (fun _ => rfl)
  | untilTime k => exact plain h (fun _ => rfl)
  | forSeconds k => exact plain h (fun _ => rfl)
  | forBlockCount k =>
    simp only [addLocked] at h
    split at h
    · rename_i hk
      simp only [bind_eq_ok, pure_eq_ok] at h
      obtain ⟨m, h1, rfl⟩ := h
      have := locked_increase h1
      refine ⟨this.1, fun d => ?_⟩
      rw [this.2]
      simp [lockedOut, hk]
    · rename_i hk
      exact plain h (fun d => by simp only [lockedOut]; rw [if_neg]; tauto)

theorem outputStep_ok {cfg : Config} {a a' : Acc} {o : TxOutput} (h : outputStep cfg a o = .ok a') :
    (∀ c, a'.total c = a.total c + placed cfg c o) ∧ ∀ d, a'.lockedFrom d = a.lockedFrom d + lockedOut d o := by
  have value : ∀ v, addValue a v = .ok a' → (∀ c, placed cfg c o = val c v) → (∀ d, lockedOut d o = 0) →
      (∀ c, a'.total c = a.total c + placed cfg c o) ∧ ∀ d, a'.lockedFrom d = a.lockedFrom d + lockedOut d o := by
    intro v hv hp hl
    have := addValue_ok hv
    refine ⟨fun c => by rw [hp, this.2], fun d => ?_⟩
    rw [hl]; unfold Acc.lockedFrom; rw [this.1]; rfl
  cases o with
  | transfer v => exact value v h (fun _ => rfl) (fun _ => rfl)
  | burn v => exact value v h (fun _ => rfl) (fun _ => rfl)
  | htlc v => exact value v h (fun _ => rfl) (fun _ => rfl)
  | delegateStaking n => exact value (.coin n) h (fun _ => rfl) (fun _ => rfl)
  | createStakePool p n => exact value (.coin n) h (fun _ => rfl) (fun _ => rfl)
  | produceBlockFromStake p => cases h; exact ⟨fun c => rfl, fun d => rfl⟩
  | createDelegationId => cases h; exact ⟨fun c => rfl, fun d => rfl⟩
  | dataDeposit => exact value (.coin cfg.dataDepositFee) h (fun _ => rfl) (fun _ => rfl)
  | issueFungibleToken => exact value (.coin cfg.ftIssuanceFee) h (fun _ => rfl) (fun _ => rfl)
  | issueNft id => exact value (.coin cfg.nftIssuanceFee) h (fun _ => rfl) (fun _ => rfl)
  | lockThenTransfer v l =>
    cases v with
    | coin n => exact addLocked_ok h
    | tokenV0 => exact value .tokenV0 h (fun _ => rfl) (fun _ => rfl)
    | tokenV1 id n => exact value (.tokenV1 id n) h (fun _ => rfl) (fun _ => rfl)
  | createOrder d =>
    simp only [outputStep, bind_eq_ok, okOr_eq_ok, pure_eq_ok] at h
    obtain ⟨c', h1, n, h2, u, h3, rfl⟩ := h
    refine ⟨fun c => ?_, fun d => rfl⟩
    rw [unc_increase h3]
    simp only [placed]
    rw [val_of h1 (valueAmount_ok h2)]

theorem outputs_ok {cfg : Config} {outs : List TxOutput} {a a' : Acc} (h : outs.foldlM (outputStep cfg) a = .ok a') :
    (∀ c, a'.total c = a.total c + (outs.map (placed cfg c)).sum) ∧
    ∀ d, a'.lockedFrom d = a.lockedFrom d + (outs.map (lockedOut d)).sum := by
  induction outs generalizing a with
  | nil => cases h; simp
  | cons o outs ih =>
    rw [List.foldlM_cons, bind_eq_ok] at h
    obtain ⟨a1, h1, h2⟩ := h
    have := outputStep_ok h1
    have i := ih h2
    refine ⟨fun c => ?_, fun d => ?_⟩
    · rw [i.1, this.1, List.map_cons, List.sum_cons]; omega
    · rw [i.2, this.2, List.map_cons, List.sum_cons]; omega

end Verif.Accumulator
