import Verif.Verifier.ValueShift
import Verif.Accumulator.Props
import Verif.Tokens.Props

/-!
# Orders and tokens: what a transaction changes
-/

namespace Verif.Verifier
open Verif
open Verif.Utxo (OutPoint Coin Output txOut rewardOut setAll remAll outPairs)
open Verif.Accumulator (Cur TxOutput val)

theorem ordM_sound {s s' : Orders.Sv} {op : Orders.Op} (h : ordM s op s') (ht : ∃ t, Orders.Rep t s) (hs : s.Sound) :
    s'.Sound := by
  obtain ⟨u, m⟩ := h
  obtain ⟨t, ht⟩ := ht
  exact m.sound ht hs

theorem ordM_rep {s s' : Orders.Sv} {op : Orders.Op} (h : ordM s op s') (ht : ∃ t, Orders.Rep t s) :
    ∃ t, Orders.Rep t s' := by
  obtain ⟨u, m⟩ := h
  obtain ⟨t, ht⟩ := ht
  obtain ⟨t', -, h2⟩ := m.fwd t ht
  exact ⟨t', h2⟩

theorem ordM_did {s s' : Orders.Sv} {op : Orders.Op} (h : ordM s op s') (ht : ∃ t, Orders.Rep t s) (hs : s.Sound) :
    Orders.Did s s' op := by
  obtain ⟨u, m⟩ := h
  obtain ⟨t, ht⟩ := ht
  exact m.did ht hs

/-- the operations can be run on any cache showing the state -/
theorem ord_run {s s' : Orders.Sv} {ops : List Orders.Op} (h : Chain ordM s ops s') : ∀ {t : Orders.Cache},
    Orders.Rep t s → ∃ t' us, Orders.run t ops = .ok (t', us) ∧ Orders.Rep t' s' := by
  induction h with
  | nil => intro t ht; exact ⟨t, [], rfl, ht⟩
  | cons hm _ ih =>
    intro t ht
    obtain ⟨u, m⟩ := hm
    obtain ⟨t1, h1, r1⟩ := m.fwd t ht
    obtain ⟨t2, us, h2, r2⟩ := ih r1
    refine ⟨t2, u :: us, ?_, r2⟩
    simp only [History.run, bind_eq_ok, pure_eq_ok]
    exact ⟨(t1, u), h1, (t2, us), h2, rfl⟩

theorem held_eq {t : Orders.Cache} {s : Orders.Sv} (h : Orders.Rep t s) (c : Cur) (id : Nat) :
    Accumulator.held t.view c id = ordPart c s id := by
  unfold Accumulator.held ordPart
  rw [h.vData, h.vAsk, h.vGive]
  cases s.data id <;> simp [orderHolds]

theorem flatMap_filter {A B : Type} (p : A → Bool) (g : A → List B) (l : List A) (h : ∀ x ∈ l, p x = false → g x = []) :
    l.flatMap g = (l.filter p).flatMap g := by
  induction l with
  | nil => rfl
  | cons x l ih =>
    have ih := ih fun y hy => h y (by simp [hy])
    cases hp : p x
    · simp [hp, h x (by simp) hp, ih]
    · simp [hp, ih]

/-- with one command at most, the order operations the accumulator counts are those of the verifier, save for a freeze -/
theorem ordOps_cases {cfg : Accumulator.Config} {is : List Input} (h1 : (is.filter Input.isCommand).length ≤ 1)
    (h0 : ∀ n id a, Input.orderV0 n (.fill id a) ∈ is → cfg.ordersVersion = .v0)
    (hv : ∀ id a, Input.order (.fill id a) ∈ is → cfg.ordersVersion = .v1) :
    is.flatMap ordInOps = (is.map Input.toAcc).flatMap (Accumulator.orderOps cfg) ∨
      ((is.map Input.toAcc).flatMap (Accumulator.orderOps cfg) = [] ∧ ∃ id, is.flatMap ordInOps = [.freeze id]) := by
  rw [List.flatMap_map]
  rw [flatMap_filter Input.isCommand ordInOps is (by
    intro x _ hx
    cases x <;> first | rfl | cases hx)]
  rw [flatMap_filter Input.isCommand (fun a => Accumulator.orderOps cfg a.toAcc) is (by
    intro x _ hx
    cases x <;> first | rfl | cases hx)]
  have hmem : ∀ x ∈ is.filter Input.isCommand, x ∈ is := fun x hx => (List.mem_filter.1 hx).1
  generalize is.filter Input.isCommand = cs at h1 hmem
  match cs, h1 with
  | [], _ => exact Or.inl rfl
  | [x], _ =>
    have hx := hmem x (by simp)
    simp only [List.flatMap_cons, List.flatMap_nil, List.append_nil]
    match x, hx with
    | .utxo _, _ => exact Or.inl rfl
    | .account _ _ _, _ => exact Or.inl rfl
    | .token _ c, _ => exact Or.inl (by cases c <;> rfl)
    | .orderV0 _ (.conclude _), _ => exact Or.inl rfl
    | .orderV0 n (.fill id a), hx =>
      left
      simp [ordInOps, OrderCmdV0.op, Input.toAcc, Accumulator.orderOps, h0 n id a hx]
    | .order (.conclude _), _ => exact Or.inl rfl
    | .order (.freeze id), _ => exact Or.inr ⟨rfl, id, rfl⟩
    | .order (.fill id a), hx =>
      left
      simp [ordInOps, OrderCmd.op, Input.toAcc, Accumulator.orderOps, hv id a hx]

/-- orders an operation is about -/
def opId : Orders.Op → Nat
  | .create id _ => id
  | .conclude id => id
  | .fill id _ _ => id
  | .freeze id => id

theorem ord_untouched {s s' : Orders.Sv} {ops : List Orders.Op} (h : Chain ordM s ops s') (ht : ∃ t, Orders.Rep t s)
    (hs : s.Sound) (c : Cur) (id : Nat) (hid : ∀ op ∈ ops, opId op ≠ id) : ordPart c s id = ordPart c s' id := by
  induction h with
  | nil => rfl
  | @cons s s1 s2 op ops hm _ ih =>
    have hd := ordM_did hm ht hs
    rw [← ih (ordM_rep hm ht) (ordM_sound hm ht hs) fun o ho => hid o (by simp [ho])]
    have hne : id ≠ opId op := fun e => hid op (by simp) e.symm
    unfold ordPart
    cases op with
    | create i d =>
      obtain ⟨oa, og, -, -, -, e1, e2, e3⟩ := hd
      rw [e1, e2, e3]
      simp [Function.update_of_ne hne, opId] at hne ⊢
      simp [Function.update_of_ne hne]
    | conclude i => obtain ⟨e1, e2, e3⟩ := hd id hne; rw [e1, e2, e3]
    | fill i a v => obtain ⟨e1, e2, e3⟩ := hd id hne; rw [e1, e2, e3]
    | freeze i =>
      obtain ⟨d, -, e1, e2, e3⟩ := hd
      rw [e1, e2, e3]
      have hne : id ≠ i := hne
      rw [Function.update_of_ne hne]

theorem ord_freeze {s s' : Orders.Sv} {id : Nat} (h : Orders.Did s s' (.freeze id)) (c : Cur) (i : Nat) :
    ordPart c s i = ordPart c s' i := by
  obtain ⟨d, h0, e1, e2, e3⟩ := h
  unfold ordPart
  rw [e1, e2, e3]
  by_cases hi : i = id
  · subst hi; simp [h0, orderHolds]
  · rw [Function.update_of_ne hi]

/-- the orders a transaction's commands are about, as the accumulator sees them -/
theorem touches_opId {cfg : Accumulator.Config} {x : Accumulator.TxInput} {op : Orders.Op}
    (h : op ∈ Accumulator.orderOps cfg x) : Accumulator.touches (opId op) x := by
  cases x <;> simp only [Accumulator.orderOps, List.not_mem_nil, List.mem_singleton] at h
  all_goals (subst h; rfl)

/-- change of what orders hold by the commands of a transaction, in terms of the accumulator's run -/
theorem ord_in {cfg : Accumulator.Config} {is : List Input} {s s1 : Orders.Sv} {t oc : Orders.Cache}
    {us : List Orders.Undo} (ht : Orders.Rep t s) (hs : s.Sound) (h : Chain ordM s (is.flatMap ordInOps) s1)
    (h1 : (is.filter Input.isCommand).length ≤ 1)
    (h0 : ∀ n id a, Input.orderV0 n (.fill id a) ∈ is → cfg.ordersVersion = .v0)
    (hv : ∀ id a, Input.order (.fill id a) ∈ is → cfg.ordersVersion = .v1)
    (hr : Orders.run (Orders.Cache.new t.view) ((is.map Input.toAcc).flatMap (Accumulator.orderOps cfg)) = .ok (oc, us)) :
    ∃ S : Finset Nat, (∀ x ∈ is.map Input.toAcc, ∀ id, Accumulator.touches id x → id ∈ S) ∧
      ∀ c, Shift (ordPart c s) (ordPart c s1)
        (∑ id ∈ S, Accumulator.held oc.view c id - ∑ id ∈ S, Accumulator.held t.view c id) := by
  have hS : ∃ S : Finset Nat, ∀ x ∈ is.map Input.toAcc, ∀ id, Accumulator.touches id x → id ∈ S := by
    refine ⟨((is.map Input.toAcc).flatMap fun x => match x with
      | .concludeOrder i => [i]
      | .fillOrder i _ => [i]
      | _ => []).toFinset, ?_⟩
    intro x hx id hid
    rw [List.mem_toFinset, List.mem_flatMap]
    refine ⟨x, hx, ?_⟩
    cases x <;> simp only [Accumulator.touches] at hid <;> simp [hid]
  obtain ⟨S, hS⟩ := hS
  refine ⟨S, hS, fun c => ?_⟩
  have e0 : ∑ id ∈ S, Accumulator.held t.view c id = ∑ id ∈ S, ordPart c s id :=
    Finset.sum_congr rfl fun id _ => held_eq ht c id
  rw [e0]
  rcases ordOps_cases h1 h0 hv with e | ⟨e, id, e'⟩
  · rw [← e] at hr
    obtain ⟨t', us', h2, r2⟩ := ord_run h ht.child
    rw [hr] at h2; cases h2
    rw [Finset.sum_congr rfl fun id _ => held_eq r2 c id]
    refine Shift.inside S fun k hk => ord_untouched h ⟨t, ht⟩ hs c k ?_
    intro op hop he
    rw [e, List.mem_flatMap] at hop
    obtain ⟨x, hx, hop⟩ := hop
    exact hk (he ▸ hS x hx _ (touches_opId hop))
  · rw [e] at hr
    cases hr
    rw [Finset.sum_congr rfl fun id _ => held_eq ht.child c id]
    rw [e'] at h
    cases h with
    | cons hm hn =>
      cases hn
      exact (Shift.of_eq fun k => ord_freeze (ordM_did hm ⟨t, ht⟩ hs) c k).cast (by simp)

/-- value of the orders created by outputs -/
def giveOf (c : Cur) (o : Out) : Int :=
  match o.effect with
  | .createOrder _ d => (val c d.give : Int)
  | _ => 0

theorem val_give {c : Cur} {v : Orders.OutputValue} {g : Nat} (h : Orders.amountOf v = some g) :
    (if Accumulator.curOf v = some c then (g : Int) else 0) = (val c v : Int) := by
  cases v with
  | coin n =>
    simp only [Orders.amountOf, Option.some.injEq] at h
    simp only [Accumulator.curOf, Accumulator.coin, val, Option.some.injEq, h, eq_comm (a := c)]
    split <;> rfl
  | tokenV1 id n =>
    simp only [Orders.amountOf, Option.some.injEq] at h
    simp only [Accumulator.curOf, Accumulator.token, val, Option.some.injEq, h, eq_comm (a := c)]
    split <;> rfl
  | tokenV0 => cases h

theorem ord_out {s s' : Orders.Sv} : ∀ {os : List Out}, Chain ordM s (os.flatMap ordOutOps) s' →
    (∃ t, Orders.Rep t s) → s.Sound → ∀ c, Shift (ordPart c s) (ordPart c s') (os.map (giveOf c)).sum := by
  intro os
  induction os generalizing s with
  | nil => intro h _ _ c; cases h; exact Shift.refl _
  | cons o os ih =>
    intro h ht hs c
    have key : ∀ (x : List Orders.Op), ordOutOps o = x → Chain ordM s (x ++ os.flatMap ordOutOps) s' := by
      intro x hx; rw [← hx]; exact h
    cases he : o.effect
    case createOrder id d =>
      have h := key [.create id d] (by simp [ordOutOps, he])
      cases h with
      | cons hm hn =>
        have hd := ordM_did hm ht hs
        have i := ih hn (ordM_rep hm ht) (ordM_sound hm ht hs) c
        obtain ⟨oa, og, h0, ha, hg, e1, e2, e3⟩ := hd
        refine ((Shift.point id fun k hk => ?_).trans i).cast ?_
        · unfold ordPart
          rw [e1, e2, e3]
          simp [Function.update_of_ne hk]
        · simp only [ordPart, e1, e2, e3, h0, Function.update_self, Option.map_some, Option.map_none, Option.getD_some,
            Option.getD_none, orderHolds, ha, val_give hg, giveOf, he, List.map_cons, List.sum_cons]
          split <;> omega
    all_goals
      have h := key [] (by simp [ordOutOps, he])
      refine (ih h ht hs c).cast ?_
      simp [giveOf, he]

/-! ### Tokens -/

theorem tokM_rep {s s' : Tokens.Sv} {op : Tokens.Op} (h : tokM s op s') (ht : ∃ t, Tokens.Rep t s) :
    ∃ t, Tokens.Rep t s' := by
  obtain ⟨u, m⟩ := h
  obtain ⟨t, ht⟩ := ht
  obtain ⟨t', -, h2⟩ := m.fwd t ht
  exact ⟨t', h2⟩

theorem tokM_did {s s' : Tokens.Sv} {op : Tokens.Op} (h : tokM s op s') (ht : ∃ t, Tokens.Rep t s) :
    Tokens.Did s s' op := by
  obtain ⟨u, m⟩ := h
  obtain ⟨t, ht⟩ := ht
  exact m.did ht

/-- no token has more units than its fixed cap -/
def CapOk (s : Tokens.Sv) : Prop := ∀ id d limit, s.data id = some d → d.totalSupply = .fixed limit → s.supply id ≤ limit

theorem tokM_cap {s s' : Tokens.Sv} {op : Tokens.Op} (h : tokM s op s') (ht : ∃ t, Tokens.Rep t s) (hl : s.LockedOk)
    (hc : CapOk s) : s'.LockedOk ∧ CapOk s' := by
  obtain ⟨u, m⟩ := h
  obtain ⟨t, ht⟩ := ht
  obtain ⟨t', h1, h2⟩ := m.fwd _ ht.child
  obtain ⟨s'', k1, k2, -⟩ := Tokens.step_move ht.child hl h1 h2.readable
  obtain rfl := k1.inj h2
  refine ⟨k2, fun id d limit hd hf => ?_⟩
  refine Tokens.C08_supply_never_exceeds_cap t.view ?_ ?_ [.perform op] t' [u] ?_ id d limit _ (by rw [h2.vData, hd]) hf
    (h2.vSupply id)
  · intro i d hd
    rw [ht.vData] at hd
    exact hl i d (by simpa using hd)
  · intro i d limit n hd hf hn
    rw [ht.vData] at hd
    rw [ht.vSupply] at hn
    have := hc i d limit (by simpa using hd) hf
    cases hn
    exact this
  · simp only [History.runActs, Tokens.start, bind_eq_ok]
    exact ⟨(t', u), h1, rfl⟩

theorem tok_cap {s s' : Tokens.Sv} {ops : List Tokens.Op} (h : Chain tokM s ops s') (ht : ∃ t, Tokens.Rep t s)
    (hl : s.LockedOk) (hc : CapOk s) : CapOk s' := by
  induction h with
  | nil => exact hc
  | cons hm _ ih => exact ih (tokM_rep hm ht) (tokM_cap hm ht hl hc).1 (tokM_cap hm ht hl hc).2

/-- units of a token burned by an output -/
def burnedBy (id : Nat) (o : Out) : Nat :=
  match o.effect with
  | .burnToken t a => if t = id then a else 0
  | _ => 0

theorem burned_ok {id : Nat} : ∀ {os : List Out} {b : Nat}, burned id os = .ok b → b = (os.map (burnedBy id)).sum
  | [], b, h => by cases h; rfl
  | o :: os, b, h => by
    simp only [burned, bind_eq_ok] at h
    obtain ⟨r, h1, h2⟩ := h
    have ih := burned_ok h1
    have hb : ∀ x, burnedBy id o = x → b = x + r → b = ((o :: os).map (burnedBy id)).sum := by
      intro x hx e
      rw [List.map_cons, List.sum_cons, hx, ← ih, e]
    cases he : o.effect <;> simp only [he] at h2
    case burnToken t a =>
      split at h2
      · rename_i ht
        rw [okOr_eq_ok] at h2
        unfold Amt.add at h2
        have : b = a + r := by
          split at h2
          · exact (Option.some.inj h2).symm
          · cases h2
        exact hb a (by simp [burnedBy, he, ht]) this
      · rename_i ht
        cases h2
        exact hb 0 (by simp [burnedBy, he, ht]) (by omega)
    all_goals
      cases h2
      exact hb 0 (by simp [burnedBy, he]) (by omega)

theorem tok_outs {s s' : Tokens.Sv} : ∀ {os : List Out}, Chain tokM s (os.flatMap tokOutOps) s' →
    (∃ t, Tokens.Rep t s) → s'.supply = s.supply := by
  intro os
  induction os generalizing s with
  | nil => intro h _; cases h; rfl
  | cons o os ih =>
    intro h ht
    have key : ∀ (x : List Tokens.Op), tokOutOps o = x → Chain tokM s (x ++ os.flatMap tokOutOps) s' := by
      intro x hx; rw [← hx]; exact h
    cases he : o.effect
    case issueToken id i =>
      have h := key [.issue id i] (by simp [tokOutOps, he])
      cases h with
      | cons hm hn =>
        have hd : _ = _ := tokM_did hm ht
        rw [ih hn (tokM_rep hm ht), hd]
    all_goals exact ih (key [] (by simp [tokOutOps, he])) ht

theorem tokIns_none {tx : Tx} {is : List Input} {ops : List Tokens.Op} (h : TokIns tx is ops)
    (hn : ∀ i ∈ is, i.isCommand = false) : ops = [] := by
  induction h with
  | nil => rfl
  | @cons i is a b h1 _ ih =>
    have hi := hn i (by simp)
    rw [ih fun j hj => hn j (by simp [hj])]
    cases h1 with
    | token => cases hi
    | other => rfl

theorem mintedBy_command {c : Cur} {i : Input} (h : i.isCommand = false) : mintedBy c i = 0 := by
  cases i <;> first | rfl | cases h

theorem minted_none {c : Cur} {is : List Input} (hn : ∀ i ∈ is, i.isCommand = false) : (is.map (mintedBy c)).sum = 0 := by
  induction is with
  | nil => rfl
  | cons i is ih =>
    rw [List.map_cons, List.sum_cons, mintedBy_command (hn i (by simp)), ih fun j hj => hn j (by simp [hj])]

/-- the token operations of inputs with one command at most -/
theorem tokIns_cases {tx : Tx} {is : List Input} {ops : List Tokens.Op} (h : TokIns tx is ops)
    (h1 : (is.filter Input.isCommand).length ≤ 1) :
    (ops = [] ∧ ∀ c, (is.map (mintedBy c)).sum = 0) ∨
      ∃ n cmd op, tokenOp tx cmd = .ok op ∧ ops = op.toList ∧ ∀ c, (is.map (mintedBy c)).sum = mintedBy c (.token n cmd) := by
  induction h with
  | nil => exact Or.inl ⟨rfl, fun _ => rfl⟩
  | @cons i is a b hi hb ih =>
    cases hc : i.isCommand
    · rw [List.filter_cons_of_neg (by simp [hc])] at h1
      have ha : a = [] := by
        cases hi with
        | token => cases hc
        | other => rfl
      subst ha
      rcases ih h1 with ⟨e1, e2⟩ | ⟨n, cmd, op, e1, e2, e3⟩
      · exact Or.inl ⟨e1, fun c => by simp [mintedBy_command hc, e2]⟩
      · exact Or.inr ⟨n, cmd, op, e1, e2, fun c => by simp [mintedBy_command hc, e3]⟩
    · rw [List.filter_cons_of_pos hc, List.length_cons] at h1
      have hnil : is.filter Input.isCommand = [] := List.eq_nil_of_length_eq_zero (by omega)
      have hn : ∀ j ∈ is, j.isCommand = false := by
        intro j hj
        have := List.filter_eq_nil_iff.1 hnil j hj
        simpa using this
      have hbe := tokIns_none hb hn
      subst hbe
      have hm : ∀ c, (is.map (mintedBy c)).sum = 0 := fun c => minted_none hn
      cases hi with
      | @token n cmd op ho =>
        exact Or.inr ⟨n, cmd, op, ho, by simp, fun c => by simp [hm]⟩
      | other ho =>
        refine Or.inl ⟨by simp, fun c => ?_⟩
        rw [List.map_cons, List.sum_cons, hm]
        cases i with
        | token n cmd => cases ho
        | _ => rfl

/-- a transaction changes the supply of a token by what it mints less at most what it burns -/
theorem tok_supply {tx : Tx} {ops : List Tokens.Op} {s s' : Tokens.Sv} (h : TokIns tx tx.inputs ops)
    (h1 : (tx.inputs.filter Input.isCommand).length ≤ 1)
    (hc : Chain tokM s (ops ++ tx.outputs.flatMap tokOutOps) s') (ht : ∃ t, Tokens.Rep t s) (id : Nat) :
    (s.supply id : Int) + (tx.inputs.map (mintedBy (id + 1))).sum ≤
      s'.supply id + (tx.outputs.map (burnedBy id)).sum := by
  rcases tokIns_cases h h1 with ⟨rfl, e2⟩ | ⟨n, cmd, op, e1, rfl, e3⟩
  · rw [e2, tok_outs hc ht]
    push_cast
    omega
  · rw [e3]
    have rest : ∀ s1 op', op = some op' → (∃ t, Tokens.Rep t s1) → Chain tokM s1 (tx.outputs.flatMap tokOutOps) s' →
        s'.supply = s1.supply := fun s1 _ _ ht1 hc1 => tok_outs hc1 ht1
    cases op with
    | none =>
      have : s'.supply = s.supply := tok_outs hc ht
      rw [this]
      have hm : mintedBy (id + 1) (.token n cmd) = 0 := by
        cases cmd with
        | mint i a => simp [tokenOp] at e1
        | _ => rfl
      rw [hm]
      push_cast
      omega
    | some op =>
      cases hc with
      | @cons _ s1 _ _ _ hm hn =>
        have hd := tokM_did hm ht
        rw [tok_outs hn (tokM_rep hm ht)]
        cases cmd with
        | mint i a =>
          cases e1
          have hd : _ = _ := hd
          rw [hd]
          by_cases hi : id = i
          · subst hi
            simp only [mintedBy, Function.update_self, if_true]
            push_cast
            omega
          · have : ¬ (id + 1 = i + 1) := by omega
            simp only [mintedBy, Function.update_of_ne hi, this, if_false]
            push_cast
            omega
        | unmint i =>
          simp only [tokenOp, bind_eq_ok, pure_eq_ok] at e1
          obtain ⟨b, hb, e1⟩ := e1
          split at e1
          · cases e1
            obtain ⟨hle, hd⟩ := hd
            rw [hd]
            have hbe := burned_ok hb
            by_cases hi : id = i
            · subst hi
              simp only [mintedBy, Function.update_self]
              push_cast
              omega
            · simp only [mintedBy, Function.update_of_ne hi]
              push_cast
              omega
          · cases e1
        | _ =>
          cases e1
          have hd : _ = _ := hd
          rw [hd]
          simp only [mintedBy]
          push_cast
          omega

end Verif.Verifier
