import Verif.Send.Whole
import Verif.Accumulator.Props

/-!
# Lemmas: the check of amounts by the chain
-/

namespace Verif.Send
open Verif Verif.Accumulator

set_option maxRecDepth 100000

theorem addDeduct_amt {s s' : Accumulator.St} {c' n : Nat} (h : addDeduct s c' n = .ok s') : s'.acc = s.acc ∧ s'.pos = s.pos ∧ s'.orders = s.orders ∧
    ∀ c, amt s'.deduct c = amt s.deduct c + if c = c' then n else 0 := by
  simp only [addDeduct, bind_eq_ok, pure_eq_ok] at h
  obtain ⟨d, h1, rfl⟩ := h
  exact ⟨rfl, rfl, rfl, fun c => amt_increase h1 c⟩

theorem amt_total {a b : Nat} {v : Orders.OutputValue} (h1 : Orders.amountOf v = some a) (h2 : Orders.amountOf v = some b) : a = b := by
  rw [h1] at h2; exact Option.some.inj h2

/-- what an input adds and what is to be deducted for it -/
theorem step_amounts {ctx : Ctx} {s s' : Accumulator.St} {x : TxInput × Option TxOutput}
    (hk : ∀ id, (x.1 = .concludeOrder id ∨ ∃ n, x.1 = .fillOrder id n) → Known ctx s.orders.view id) (h : inputStep ctx.cfg s x = .ok s') (c : Cur) :
    s'.acc.total c = s.acc.total c + brought s.pos.view c x + orderGives ctx c x.1 ∧
    amt s'.deduct c = amt s.deduct c + commandFee ctx.cfg c x.1 + orderTakes ctx c x.1 ∧
    s'.pos.view.poolData = s.pos.view.poolData ∧ (isOrder x.1 = false → s'.orders = s.orders) := by
  have fee : ∀ n, addDeduct s coin n = .ok s' → commandFee ctx.cfg c x.1 = (if c = 0 then n else 0) → brought s.pos.view c x = 0 → orderGives ctx c x.1 = 0 → orderTakes ctx c x.1 = 0 →
      s'.acc.total c = s.acc.total c + brought s.pos.view c x + orderGives ctx c x.1 ∧
      amt s'.deduct c = amt s.deduct c + commandFee ctx.cfg c x.1 + orderTakes ctx c x.1 ∧
      s'.pos.view.poolData = s.pos.view.poolData ∧ (isOrder x.1 = false → s'.orders = s.orders) := by
    intro n h e1 e2 e3 e4
    obtain ⟨a1, a2, a3, a4⟩ := addDeduct_amt h
    rw [e1, e2, e3, e4, a1, a2, a4]
    exact ⟨rfl, rfl, rfl, fun _ => a3⟩
  obtain ⟨i, u⟩ := x
  cases i with
  | utxo =>
    simp only [inputStep, bind_eq_ok, okOr_eq_ok, pure_eq_ok] at h
    obtain ⟨o, rfl, a, h1, rfl⟩ := h
    obtain ⟨b1, -⟩ := inputUtxo_ok h1
    refine ⟨?_, rfl, rfl, fun _ => rfl⟩
    exact b1 c
  | delegation d n =>
    simp only [inputStep, inputDelegation, bind_eq_ok, mapError_eq_ok, pure_eq_ok] at h
    obtain ⟨p, h1, a, h2, rfl⟩ := h
    obtain ⟨b1, -⟩ := addStaked_ok h2
    refine ⟨?_, rfl, spendInput_pools h1, fun _ => rfl⟩
    dsimp only
    rw [b1 c]
    simp [brought, unstaked, orderGives]
  | mint id n =>
    simp only [inputStep, bind_eq_ok] at h
    obtain ⟨s1, h1, h2⟩ := h
    simp only [inputMint, bind_eq_ok, mapError_eq_ok, pure_eq_ok] at h1
    obtain ⟨⟨t, _⟩, _, _, _, w, h3, rfl⟩ := h1
    obtain ⟨a1, a2, a3, a4⟩ := addDeduct_amt h2
    refine ⟨?_, ?_, by rw [a2], fun _ => a3⟩
    · rw [a1]
      dsimp only
      rw [unc_increase h3]
      have e : (if c = token id then n else 0) = if c = id + 1 then n else 0 := by
        by_cases h1 : c = id + 1
        · rw [if_pos h1, if_pos (show c = token id from h1)]
        · rw [if_neg h1, if_neg (show ¬ c = token id from h1)]
      rw [e]
      simp [brought, unstaked, orderGives]
    · rw [a4]; rfl
  | unmint id => exact fee _ h rfl (by simp [brought, unstaked]) rfl rfl
  | lockSupply id => exact fee _ h rfl (by simp [brought, unstaked]) rfl rfl
  | freezeToken id => exact fee _ h rfl (by simp [brought, unstaked]) rfl rfl
  | unfreezeToken id => exact fee _ h rfl (by simp [brought, unstaked]) rfl rfl
  | changeAuthority id => exact fee _ h rfl (by simp [brought, unstaked]) rfl rfl
  | changeMetadataUri id => exact fee _ h rfl (by simp [brought, unstaked]) rfl rfl
  | freezeOrder id =>
    cases h
    refine ⟨by simp [brought, unstaked, orderGives], by simp [commandFee, orderTakes], rfl, fun _ => rfl⟩
  | concludeOrder id =>
    simp only [inputStep, bind_eq_ok] at h
    obtain ⟨s1, h1, h2⟩ := h
    obtain ⟨a1, a2, a3, a4⟩ := addDeduct_amt h2
    clear h2
    obtain ⟨o, d, k1, k2, k3, k4, k5, k6, k7, k8⟩ := hk id (.inl rfl)
    simp only [inputConclude, bind_eq_ok, okOr_eq_ok, mapError_eq_ok, pure_eq_ok] at h1
    obtain ⟨od, h1, d', rfl, ask, h2, give, h3, ⟨o', u'⟩, h4, _, h5, _, h6, asked, h7, filled, h8, ac, h9, u1, h10, gc, h11, u2, h12, rfl⟩ := h1
    rw [k2] at h1; cases h1
    rw [k3] at h2; cases h2
    rw [k4] at h3; cases h3
    rw [k5] at h9; cases h9
    rw [k7] at h11; cases h11
    have e7 := amt_total k6 (valueAmount_ok h7)
    subst e7
    obtain ⟨-, rfl⟩ := sub_some.1 h8
    refine ⟨?_, ?_, by rw [a2], fun h => by cases h⟩
    · rw [a1]
      dsimp only
      have t1 := unc_increase h10 c
      have t2 := unc_increase (a := { s.acc with unc := u1 }) h12 c
      dsimp only at t1 t2
      rw [t2, t1]
      simp only [brought, unstaked, orderGives, k1, ite_self]
      omega
    · rw [a4]; simp [commandFee, orderTakes]
  | fillOrder id n =>
    simp only [inputStep, bind_eq_ok] at h
    obtain ⟨⟨s1, ac⟩, h1, h2⟩ := h
    obtain ⟨a1, a2, a3, a4⟩ := addDeduct_amt h2
    clear h2
    obtain ⟨o, d, k1, k2, k3, k4, k5, k6, k7, k8⟩ := hk id (.inr ⟨n, rfl⟩)
    simp only [inputFill, bind_eq_ok, okOr_eq_ok, mapError_eq_ok, pure_eq_ok, Prod.mk.injEq] at h1
    obtain ⟨od, h1, d', rfl, filled, h2, ⟨o', u'⟩, h4, _, h5, _, h6, gc, h7, u1, h8, ac', h9, rfl, rfl⟩ := h1
    rw [k2] at h1; cases h1
    rw [k7] at h7; cases h7
    rw [k5] at h9; cases h9
    have ev : filled = fillValue ctx o n := by
      unfold fillValue
      unfold Orders.calculateFillOrder at h2
      split at h2
      · next hv =>
        rw [hv]
        simp only [Orders.fillV0, bind_eq_ok, okOr_eq_ok, ensure_eq_ok, exists_and_left] at h2
        obtain ⟨a, b1, g, b2, -, -, b3⟩ := h2
        rw [k3] at b1; cases b1
        rw [k4] at b2; cases b2
        exact filled_ok b3
      · next hv =>
        rw [hv]
        simp only [Orders.fillV1, bind_eq_ok, okOr_eq_ok, pure_eq_ok] at h2
        obtain ⟨od, b1, dd, rfl, oa, b2, og, b3, cur, b4, _, b5, r, b6, _, b7, rfl⟩ := h2
        rw [k2] at b1; cases b1
        have q1 : Orders.amountOf d.ask = some oa := by
          cases hd : d.ask <;> rw [hd] at b2 <;> simp_all [Orders.outputValueAmount, Orders.amountOf]
        have q2 : Orders.amountOf d.give = some og := by
          cases hd : d.give <;> rw [hd] at b3 <;> simp_all [Orders.outputValueAmount, Orders.amountOf]
        have e1 := amt_total k6 q1
        have e2 := amt_total k8 q2
        subst e1 e2
        exact filled_ok b6
    refine ⟨?_, ?_, by rw [a2], fun h => by cases h⟩
    · rw [a1]
      dsimp only
      rw [unc_increase h8, ev]
      simp [brought, unstaked, orderGives, k1]
    · rw [a4]
      simp [commandFee, orderTakes, k1]

theorem brought_pools {pv pv' : Pos.View} (h : pv'.poolData = pv.poolData) (c : Cur) (x : TxInput × Option TxOutput) : brought pv' c x = brought pv c x := by
  unfold brought
  rw [unstaked_owner (pv := pv) (pv' := pv') (fun p => by rw [h]) x]

theorem loop_amounts {ctx : Ctx} {pv : Pos.View} : ∀ {xs : List (TxInput × Option TxOutput)} {s s' : Accumulator.St}, s.pos.view.poolData = pv.poolData →
    (xs.countP (fun x => isOrder x.1) = 0 ∨ (xs.countP (fun x => isOrder x.1) ≤ 1 ∧
      ∀ x ∈ xs, ∀ id, (x.1 = .concludeOrder id ∨ ∃ n, x.1 = .fillOrder id n) → Known ctx s.orders.view id)) →
    inputLoop ctx.cfg s xs = .ok s' → ∀ c,
    s'.acc.total c = s.acc.total c + (xs.map fun x => brought pv c x + orderGives ctx c x.1).sum ∧
    amt s'.deduct c = amt s.deduct c + (xs.map fun x => commandFee ctx.cfg c x.1 + orderTakes ctx c x.1).sum
  | [], s, s', _, _, h, c => by cases h; simp
  | x :: xs, s, s', hv, ho, h, c => by
    unfold inputLoop at h
    rw [List.foldlM_cons, bind_eq_ok] at h
    obtain ⟨s1, h1, h2⟩ := h
    have hk : ∀ id, (x.1 = .concludeOrder id ∨ ∃ n, x.1 = .fillOrder id n) → Known ctx s.orders.view id := by
      intro id hid
      rcases ho with ho | ho
      · have : isOrder x.1 = true := by
          rcases hid with e | ⟨n, e⟩ <;> rw [e] <;> rfl
        rw [List.countP_cons_of_pos (by exact this)] at ho
        omega
      · exact ho.2 x List.mem_cons_self id hid
    obtain ⟨a1, a2, a3, a4⟩ := step_amounts hk h1 c
    have ho' : xs.countP (fun x => isOrder x.1) = 0 ∨ (xs.countP (fun x => isOrder x.1) ≤ 1 ∧
        ∀ x ∈ xs, ∀ id, (x.1 = .concludeOrder id ∨ ∃ n, x.1 = .fillOrder id n) → Known ctx s1.orders.view id) := by
      cases hx : isOrder x.1 with
      | true =>
        rw [List.countP_cons_of_pos (by exact hx)] at ho
        left
        omega
      | false =>
        rw [List.countP_cons_of_neg (by simp [hx])] at ho
        rcases ho with ho | ho
        · exact .inl ho
        · refine .inr ⟨ho.1, fun y hy => ?_⟩
          rw [a4 hx]
          exact ho.2 y (List.mem_cons_of_mem _ hy)
    obtain ⟨i1, i2⟩ := loop_amounts (a3.trans hv) ho' h2 c
    rw [i1, i2, a1, a2, brought_pools hv]
    simp only [List.map_cons, List.sum_cons]
    omega

theorem unstaked_pre {ctx : Ctx} {m m' : BMap Cur Pre} {x : PreIn} (h : inputPre ctx m x = .ok m') (pv : Pos.View) :
    unstaked pv (x.input, x.utxo) = match x.input with | .delegation _ n => n | _ => 0 := by
  obtain ⟨i, u, w⟩ := x
  cases i with
  | utxo =>
    unfold inputPre at h
    dsimp only at h ⊢
    simp only [bind_eq_ok, okOr_eq_ok] at h
    obtain ⟨o, rfl, ⟨c, n⟩, h1, h2⟩ := h
    exact (spendable_ok h1 0 0 pv).2.2
  | _ => rfl

/-- outputs that add up are accepted -/
theorem outputs_fit {cfg : Config} : ∀ {outs : List TxOutput} {a : Acc}, (∀ o ∈ outs, ∀ d, o = .createOrder d → curOf d.give ≠ none) →
    (∀ c, a.total c + (outs.map (placed cfg c)).sum < U128) → ∃ a', outs.foldlM (outputStep cfg) a = .ok a'
  | [], a, _, _ => ⟨a, rfl⟩
  | o :: outs, a, ho, hs => by
    have hle : ∀ c, a.total c + placed cfg c o < U128 := fun c => by
      have := hs c
      simp only [List.map_cons, List.sum_cons] at this
      exact Nat.lt_of_le_of_lt (by omega) this
    have ins : ∀ k n, (∀ c, placed cfg c o = if c = k then n else 0) → ∃ u, insertOrIncrease a.unc k n = .ok u := by
      intro k n hp
      have h1 := hle k
      rw [hp, if_pos rfl, Accumulator.total_def] at h1
      refine ⟨_, insertOrIncrease_ok.2 ⟨Nat.lt_of_le_of_lt ?_ h1, rfl⟩⟩
      omega
    have value : ∀ v, (∀ c, placed cfg c o = val c v) → ∃ a', addValue a v = .ok a' := by
      intro v hp
      cases v with
      | coin n =>
        obtain ⟨u, hu⟩ := ins coin n hp
        exact ⟨_, by simp only [addValue, hu, bind, Except.bind]; rfl⟩
      | tokenV0 => exact ⟨a, rfl⟩
      | tokenV1 id n =>
        obtain ⟨u, hu⟩ := ins (token id) n hp
        exact ⟨_, by simp only [addValue, hu, bind, Except.bind]; rfl⟩
    have step : ∃ a1, outputStep cfg a o = .ok a1 := by
      cases o with
      | transfer v => exact value v fun _ => rfl
      | burn v => exact value v fun _ => rfl
      | htlc v => exact value v fun _ => rfl
      | delegateStaking n => exact value (.coin n) fun _ => rfl
      | createStakePool _ n => exact value (.coin n) fun _ => rfl
      | produceBlockFromStake _ => exact ⟨a, rfl⟩
      | createDelegationId => exact ⟨a, rfl⟩
      | dataDeposit => exact value (.coin cfg.dataDepositFee) fun _ => rfl
      | issueFungibleToken => exact value (.coin cfg.ftIssuanceFee) fun _ => rfl
      | issueNft _ => exact value (.coin cfg.nftIssuanceFee) fun _ => rfl
      | createOrder d =>
        cases hd : d.give with
        | tokenV0 => exact absurd (by rw [hd]; rfl) (ho _ List.mem_cons_self d rfl)
        | coin n =>
          obtain ⟨u, hu⟩ := ins coin n fun c => by simp only [placed, hd]; rfl
          exact ⟨_, by simp only [outputStep, hd, curOf, valueAmount, okOr, hu, bind, Except.bind]; rfl⟩
        | tokenV1 id n =>
          obtain ⟨u, hu⟩ := ins (token id) n fun c => by simp only [placed, hd]; rfl
          exact ⟨_, by simp only [outputStep, hd, curOf, valueAmount, okOr, hu, bind, Except.bind]; rfl⟩
      | lockThenTransfer v l =>
        cases v with
        | tokenV0 => exact ⟨a, rfl⟩
        | tokenV1 id n => exact value (.tokenV1 id n) fun _ => rfl
        | coin n =>
          cases l with
          | forBlockCount k =>
            by_cases hk : k = 0
            · subst hk; exact value (.coin n) fun _ => rfl
            · have h1 := hle 0
              rw [Accumulator.total_def, if_pos rfl] at h1
              simp only [placed, val, if_true] at h1
              have h2 : amt a.locked k ≤ a.locked.sumV (fun _ v => v) := by
                have := sumV_insert_amt (fun _ v => v) (fun _ => rfl) a.locked k 0
                omega
              have h3 : ∃ u, insertOrIncrease a.locked k n = .ok u :=
                ⟨_, insertOrIncrease_ok.2 ⟨Nat.lt_of_le_of_lt (by omega) h1, rfl⟩⟩
              obtain ⟨u, hu⟩ := h3
              exact ⟨_, by simp only [outputStep, addLocked, if_pos (show k ≠ 0 from hk), hu, bind, Except.bind]; rfl⟩
          | untilHeight _ => exact value (.coin n) fun _ => rfl
          | untilTime _ => exact value (.coin n) fun _ => rfl
          | forSeconds _ => exact value (.coin n) fun _ => rfl
    obtain ⟨a1, h1⟩ := step
    obtain ⟨a2, h2⟩ := outputs_fit (a := a1) (fun x hx => ho x (List.mem_cons_of_mem _ hx)) fun c => by
      have e := (outputStep_ok h1).1 c
      have := hs c
      simp only [List.map_cons, List.sum_cons] at this
      rw [e, Nat.add_assoc]
      exact this
    refine ⟨a2, ?_⟩
    rw [List.foldlM_cons, bind_eq_ok]
    exact ⟨a1, h1, h2⟩

theorem total_split (a : Acc) (d : Nat) : a.upTo d + a.lockedFrom (d + 1) = a.total 0 := by
  unfold Acc.upTo Acc.lockedFrom Acc.total
  rw [if_pos rfl, Nat.add_assoc]
  congr 1
  unfold BMap.sumV
  rw [← List.sum_map_add]
  congr 1
  refine List.map_congr_left fun x _ => ?_
  beta_reduce
  split_ifs <;> omega

theorem total_split0 (a : Acc) : amt a.unc 0 + a.lockedFrom 0 = a.total 0 := by
  rw [Accumulator.total_def, if_pos rfl]
  unfold Acc.lockedFrom
  simp

theorem lockedOut_le (cfg : Config) (d : Nat) (o : TxOutput) : lockedOut d o ≤ placed cfg 0 o := by
  unfold lockedOut
  split
  · simp only [placed, val, if_true]
    split <;> omega
  · omega

theorem lockedOut_anti {d e : Nat} (h : d ≤ e) (o : TxOutput) : lockedOut e o ≤ lockedOut d o := by
  unfold lockedOut
  split
  · split_ifs <;> omega
  · omega

theorem sum_map_le {A : Type} {f g : A → Nat} : ∀ {l : List A}, (∀ x ∈ l, f x ≤ g x) → (l.map f).sum ≤ (l.map g).sum
  | [], _ => by simp
  | x :: l, h => by
    have h1 := h x List.mem_cons_self
    have h2 := sum_map_le fun y hy => h y (List.mem_cons_of_mem x hy)
    simp only [List.map_cons, List.sum_cons]
    omega

theorem zip_spent (pre : List PreIn) (b : Built) : (inputsOf pre b).zip (spentOf pre b) = (pre.map fun x => (x.input, x.utxo)) ++ b.sel.map fun u => (TxInput.utxo, some u.2) := by
  unfold inputsOf spentOf
  rw [List.zip_append (by simp)]
  congr 1
  · induction pre with
    | nil => rfl
    | cons x l ih => simp only [List.map_cons, List.zip_cons_cons, ih]
  · induction b.sel with
    | nil => rfl
    | cons x l ih => simp only [List.map_cons, List.zip_cons_cons, ih]

theorem brought_sel {ctx : Ctx} (pv : Pos.View) (c : Cur) : ∀ {l : List Utxo}, (∀ u ∈ l, ∃ x, spendable u.2 = .ok x) →
    (l.map fun u => brought pv c (.utxo, some u.2) + orderGives ctx c .utxo).sum = valueOf c l ∧ (l.map fun u => unstaked pv (.utxo, some u.2)).sum = 0
  | [], _ => ⟨rfl, rfl⟩
  | u :: l, h => by
    obtain ⟨⟨k, n⟩, hx⟩ := h u List.mem_cons_self
    obtain ⟨s1, s2, s3⟩ := spendable_ok hx c u.1 pv
    obtain ⟨i1, i2⟩ := brought_sel (ctx := ctx) pv c fun y hy => h y (List.mem_cons_of_mem _ hy)
    simp only [List.map_cons, List.sum_cons]
    rw [i1, i2]
    refine ⟨?_, by rw [s3]⟩
    have e : valueOf c (u :: l) = valueOf c [u] + valueOf c l := by
      rw [← valueOf_append]
      rfl
    rw [e]
    have e2 : orderGives ctx c .utxo = 0 := rfl
    rw [e2, s2, show valueOf c [u] = _ from s1]
    rfl

theorem accepted {ctx : Ctx} {ov : Orders.View} {pv : Pos.View} {tv : Tokens.View} {pre : List PreIn} {outs : List Out} {us : List Utxo} {b : Built} {s : Accumulator.St}
    (hov : Orders.SoundView ov) (hb : BuiltOk ctx pre outs us b) (hone : pre.countP (fun x => isOrder x.input) ≤ 1)
    (hknown : ∀ x ∈ pre, ∀ id, (x.input = .concludeOrder id ∨ ∃ n, x.input = .fillOrder id n) → Known ctx ov id)
    (hloop : inputLoop ctx.cfg ⟨Acc.empty, BMap.empty, Pos.Cache.new pv, Tokens.Cache.new tv, ⟨ov, Orders.Delta.empty⟩⟩ ((inputsOf pre b).zip (spentOf pre b)) = .ok s)
    (hv0 : ∀ o ∈ outs, ∀ d, o.1 = .createOrder d → curOf d.give ≠ none) (hfit : ∀ c, paidOut ctx b.outs c < U128)
    (hlock : ctx.cfg.maturity ≠ 0 → withdrawn pre ≤ (outs.map fun o => lockedOut ctx.cfg.maturity o.1).sum) :
    ∃ i o f, fromInputs ctx.cfg ov pv tv (inputsOf pre b) (spentOf pre b) = .ok i ∧ fromOutputs ctx.cfg (b.outs.map (·.1)) = .ok o ∧ satisfyWith i o = .ok f ∧
      ∀ c, f.total c + (paidOut ctx b.outs c + taken ctx pre c) = valueOf c b.sel + given ctx pv pre c := by
  have hview : (⟨ov, Orders.Delta.empty⟩ : Orders.Cache).view = ov := Orders.new_view ov hov
  have hz := zip_spent pre b
  have hempty : ∀ c, Acc.empty.total c = 0 := fun c => by
    unfold Acc.total
    simp [Acc.empty, BMap.sumV, BMap.get, BMap.lookupL, BMap.empty]
  have hlen : (inputsOf pre b).length = (spentOf pre b).length := by simp [inputsOf, spentOf]
  have hsp : ∀ u ∈ b.sel, ∃ x, spendable u.2 = .ok x := fun u hu => hb.spend u (hb.sub.subset hu)
  have hcount : ((inputsOf pre b).zip (spentOf pre b)).countP (fun x => isOrder x.1) ≤ 1 := by
    rw [hz, List.countP_append, List.countP_map, List.countP_map]
    have e : b.sel.countP ((fun x : TxInput × Option TxOutput => isOrder x.1) ∘ fun u : Utxo => (TxInput.utxo, some u.2)) = 0 := by
      rw [List.countP_eq_zero]
      intro u _ he
      cases he
    rw [e]
    exact hone
  have hk : ∀ x ∈ (inputsOf pre b).zip (spentOf pre b), ∀ id, (x.1 = .concludeOrder id ∨ ∃ n, x.1 = .fillOrder id n) → Known ctx ov id := by
    rw [hz]
    intro x hx id hid
    rcases List.mem_append.1 hx with hx | hx
    · obtain ⟨y, hy, rfl⟩ := List.mem_map.1 hx
      exact hknown y hy id hid
    · obtain ⟨y, hy, rfl⟩ := List.mem_map.1 hx
      rcases hid with hid | ⟨n, hid⟩ <;> cases hid
  have ham := loop_amounts (ctx := ctx) (pv := pv) rfl (.inr ⟨hcount, by rw [hview]; exact hk⟩) hloop
  have htot : ∀ c, s.acc.total c = given ctx pv pre c + valueOf c b.sel := by
    intro c
    rw [(ham c).1, hz, List.map_append, List.sum_append, List.map_map, List.map_map, hempty, Nat.zero_add, ← (brought_sel (ctx := ctx) pv c hsp).1]
    rfl
  have hded : ∀ c, amt s.deduct c = taken ctx pre c := by
    intro c
    rw [(ham c).2, hz, List.map_append, List.sum_append, List.map_map, List.map_map]
    have e : (b.sel.map ((fun x : TxInput × Option TxOutput => commandFee ctx.cfg c x.1 + orderTakes ctx c x.1) ∘ fun u : Utxo => (TxInput.utxo, some u.2))).sum = 0 := by
      refine List.sum_eq_zero fun x hx => ?_
      obtain ⟨u, _, rfl⟩ := List.mem_map.1 hx
      rfl
    rw [e, Nat.add_zero]
    have e0 : amt (BMap.empty : BMap Nat Nat) c = 0 := rfl
    rw [e0, Nat.zero_add]
    rfl
  have hun : (((inputsOf pre b).zip (spentOf pre b)).map (unstaked pv)).sum = withdrawn pre := by
    rw [hz, List.map_append, List.sum_append, List.map_map, List.map_map]
    have e := (brought_sel (ctx := ctx) pv 0 hsp).2
    have e2 : (b.sel.map (unstaked pv ∘ fun u : Utxo => (TxInput.utxo, some u.2))).sum = 0 := e
    rw [e2, Nat.add_zero]
    unfold withdrawn
    congr 1
    refine List.map_congr_left fun x hx => ?_
    obtain ⟨m, m', hm⟩ := hb.pres x hx
    exact unstaked_pre hm pv
  have hg : Good pv ⟨Acc.empty, BMap.empty, Pos.Cache.new pv, Tokens.Cache.new tv, ⟨ov, Orders.Delta.empty⟩⟩ := ⟨hov, by rw [hview]; exact hov, fun p => rfl⟩
  have hsl := (inputLoop_ok hg hloop).2.2
  have z : ∀ d, Acc.lockedFrom Acc.empty d = 0 := fun d => by simp [Acc.lockedFrom, Acc.empty]
  have hsl' : ∀ d, s.acc.lockedFrom d = if ctx.cfg.maturity ≠ 0 ∧ d ≤ ctx.cfg.maturity then withdrawn pre else 0 := by
    intro d
    rw [hsl d, hun, z, Nat.zero_add]
  have hbal : ∀ c, paidOut ctx b.outs c + taken ctx pre c ≤ s.acc.total c := by
    intro c
    rw [htot]
    by_cases hc : c = coin
    · subst hc
      rcases hb.coins pv with ⟨x, e, -⟩ | ⟨v, -, x, d, cost, e, -⟩
      · omega
      · omega
    · by_cases hr : Requested ctx pre outs c
      · have := hb.token pv c hc hr
        omega
      · obtain ⟨-, e2, e3⟩ := hb.other c hc hr
        omega
  -- coins locked by the outputs
  have hlo : ∀ d, d ≤ ctx.cfg.maturity → ctx.cfg.maturity ≠ 0 → withdrawn pre ≤ ((b.outs.map (·.1)).map (lockedOut d)).sum := by
    intro d hd hm
    obtain ⟨chs, e, -⟩ := hb.changes
    rw [e, List.map_append, List.map_append, List.sum_append, List.map_map]
    have h1 := hlock hm
    have h2 : (outs.map fun o => lockedOut ctx.cfg.maturity o.1).sum ≤ (outs.map (lockedOut d ∘ fun o => o.1)).sum := sum_map_le fun o _ => lockedOut_anti hd o.1
    omega
  have hlp : ∀ d, ((b.outs.map (·.1)).map (lockedOut d)).sum ≤ paidOut ctx b.outs 0 := by
    intro d
    rw [List.map_map]
    exact sum_map_le fun o _ => lockedOut_le ctx.cfg d o.1
  have hW : s.acc.lockedFrom 0 ≤ paidOut ctx b.outs 0 := by
    rw [hsl']
    split
    · next hm => exact Nat.le_trans (hlo 0 (Nat.zero_le _) hm.1) (hlp 0)
    · exact Nat.zero_le _
  have hunc : ∀ c, c ≠ 0 → amt s.acc.unc c = s.acc.total c := fun c hc => by rw [Accumulator.total_def, if_neg hc, Nat.add_zero]
  have h0 := total_split0 s.acc
  -- the inputs
  obtain ⟨u, hu⟩ := (decreaseAll_isOk (l := s.deduct.entries) (m := s.acc.unc) (e := .attemptToViolateFeeRequirements)).2 (by
    intro k
    rw [sumAt_entries, hded]
    have := hbal k
    by_cases hk0 : k = 0
    · subst hk0; omega
    · rw [hunc k hk0]; omega)
  have hu' : ∀ c, amt u c + taken ctx pre c = amt s.acc.unc c := by
    intro c
    have := decreaseAll_ok hu c
    rwa [sumAt_entries, hded] at this
  -- the outputs
  obtain ⟨o, ho⟩ := outputs_fit (cfg := ctx.cfg) (outs := b.outs.map (·.1)) (a := Acc.empty) (by
    obtain ⟨chs, e, -, hch⟩ := hb.changes
    rw [e, List.map_append]
    intro x hx d hxd
    rcases List.mem_append.1 hx with hx | hx
    · obtain ⟨y, hy, rfl⟩ := List.mem_map.1 hx
      exact hv0 y hy d hxd
    · obtain ⟨y, hy, rfl⟩ := List.mem_map.1 hx
      obtain ⟨w, hw, rfl⟩ := List.mem_map.1 hy
      obtain ⟨⟨n, d', e', -⟩, -⟩ := hch w hw
      rw [e'] at hxd
      unfold changeOut at hxd
      split at hxd <;> cases hxd) (by
    intro c
    rw [hempty, Nat.zero_add, List.map_map]
    exact hfit c)
  obtain ⟨q1, q2⟩ := outputs_ok ho
  have hot : ∀ c, o.total c = paidOut ctx b.outs c := by
    intro c
    rw [q1, hempty, Nat.zero_add, List.map_map]
    rfl
  have hol : ∀ d, o.lockedFrom d = ((b.outs.map (·.1)).map (lockedOut d)).sum := by
    intro d
    rw [q2, z, Nat.zero_add]
  -- the check
  have hit : ∀ c, (({ s.acc with unc := u } : Acc)).total c + taken ctx pre c = s.acc.total c := by
    intro c
    have := hu' c
    rw [Accumulator.total_def, Accumulator.total_def]
    dsimp only
    omega
  have hsat : ∃ f, satisfyWith { s.acc with unc := u } o = .ok f := by
    rw [C20_satisfiable_iff]
    constructor
    · intro c
      change amt o.unc c ≤ amt u c
      have e1 := hu' c
      have e2 := hbal c
      by_cases hc : c = 0
      · subst hc
        have e3 := total_split0 o
        rw [hot] at e3
        have e4 : s.acc.lockedFrom 0 ≤ o.lockedFrom 0 := by
          rw [hsl', hol]
          split
          · next hm => exact hlo 0 (Nat.zero_le _) hm.1
          · exact Nat.zero_le _
        omega
      · have e3 : amt o.unc c = o.total c := by rw [Accumulator.total_def, if_neg hc, Nat.add_zero]
        rw [e3, hot]
        rw [hunc c hc] at e1
        omega
    · intro d
      have e1 := total_split o d
      have e2 := total_split { s.acc with unc := u } d
      have e3 : ({ s.acc with unc := u } : Acc).lockedFrom (d + 1) = s.acc.lockedFrom (d + 1) := rfl
      have e4 : s.acc.lockedFrom (d + 1) ≤ o.lockedFrom (d + 1) := by
        rw [hsl', hol]
        split
        · next hm => exact hlo _ hm.2 hm.1
        · exact Nat.zero_le _
      have e5 := hbal 0
      have e6 := hit 0
      rw [hot] at e1
      rw [e3] at e2
      omega
  obtain ⟨f, hf⟩ := hsat
  refine ⟨_, o, f, ?_, ho, hf, fun c => ?_⟩
  · simp only [fromInputs, bind_eq_ok, ensure_eq_ok, pure_eq_ok]
    exact ⟨(), hlen, s, hloop, u, hu, rfl⟩
  · have e1 := C20_satisfy_conserves _ _ _ hf c
    have e2 := hit c
    rw [hot] at e1
    rw [htot] at e2
    omega

end Verif.Send
