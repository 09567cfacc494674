import Verif.Accumulator.Lemmas
import Verif.Verifier.ChainLemmas

/-!
# What a chain of blocks can do at most once

Lemmas for C51: a transaction that spends an output, uses a nonce, concludes or freezes an order cannot be connected
a second time.
-/

namespace Verif.Verifier
open Verif Verif.Accounting
open Verif.Utxo (OutPoint Coin Output Layer txOut rewardOut LInv)

/-! ### Vocabulary -/

/-- the outputs a transaction spends, in order -/
def Tx.spends (tx : Tx) : List OutPoint := tx.inputs.filterMap Input.outpoint

/-- the outputs a block reward spends (the kernel inputs) -/
def Block.kernel (b : Block) : List OutPoint := (b.reward.inputs.getD []).filterMap fun o => o

/-- all outputs spent by a block -/
def Block.spends (b : Block) : List OutPoint := b.txs.flatMap Tx.spends ++ b.kernel

/-- the order created by an output -/
def Effect.order : Effect → Option Nat
  | .createOrder id _ => some id
  | _ => Option.none

/-- the orders a transaction creates -/
def Tx.creates (tx : Tx) : List Nat := tx.outputs.filterMap fun o => o.effect.order

/-- `FillOrder`: the only input that neither consumes anything nor carries a nonce -/
def Input.isFill : Input → Bool
  | .order (.fill _ _) => true
  | _ => false

/-- commands to tokens and orders – purposes_check.rs 214-222 -/
def Input.isCommand : Input → Bool
  | .utxo _ => false
  | .account _ _ _ => false
  | .token _ _ => true
  | .orderV0 _ _ => true
  | .order _ => true

def TokenCmd.toAcc : TokenCmd → Accumulator.TxInput
  | .mint id a => .mint id a
  | .unmint id => .unmint id
  | .lock id => .lockSupply id
  | .freeze id _ => .freezeToken id
  | .unfreeze id => .unfreezeToken id
  | .changeAuthority id _ => .changeAuthority id
  | .changeMetadataUri id _ => .changeMetadataUri id

/-- the input as the constrained value accumulator sees it -/
def Input.toAcc : Input → Accumulator.TxInput
  | .utxo _ => .utxo
  | .account _ d a => .delegation d a
  | .token _ c => c.toAcc
  | .orderV0 _ (.conclude id) => .concludeOrder id
  | .orderV0 _ (.fill id a) => .fillOrder id a
  | .order (.conclude id) => .concludeOrder id
  | .order (.fill id a) => .fillOrder id a
  | .order (.freeze id) => .freezeOrder id

/-- the two currencies of an order are different (or one of them is a deprecated token) -/
def Differ (d : Orders.OrderData) : Prop := Accumulator.curOf d.ask ≠ Accumulator.curOf d.give

/-- What the read-only checks of a transaction guarantee, as far as it matters here: `check_transaction` refuses empty
inputs (check_transaction.rs 125-130) and orders between equal currencies (466-475);
`check_tx_inputs_outputs_policy` refuses more than one command (purposes_check.rs 214-227) and inputs that do not add
up (input_output_policy/mod.rs 185-196). -/
structure Guards (env : Env) : Prop where
  nonempty : ∀ s t, env.checkTx s t = true → t.inputs ≠ []
  differ : ∀ s t o id d, env.checkTx s t = true → o ∈ t.outputs → o.effect = .createOrder id d → Differ d
  policy : ∀ w s t f, env.checkInputs w s t = some f → (t.inputs.filter Input.isCommand).length ≤ 1 ∧
    ∃ cfg utxos a, Accumulator.fromInputs cfg w.orders w.pos w.tokens (t.inputs.map Input.toAcc) utxos = .ok a

/-- one fill on its own is refused: the currency asked for must come from another input -/
theorem fill_alone_refused {cfg : Accumulator.Config} {o : Orders.View} {p : Pos.View} {t : Tokens.View} {id n : Nat}
    {utxos : List (Option Accumulator.TxOutput)} {a : Accumulator.Acc} (hn : 0 < n)
    (hd : ∀ d, o.data id = .ok (some d) → Differ d) :
    Accumulator.fromInputs cfg o p t [.fillOrder id n] utxos ≠ .ok a := by
  intro h
  simp only [Accumulator.fromInputs, bind_eq_ok, ensure_eq_ok, pure_eq_ok] at h
  obtain ⟨_, hl, s, h1, u, h2, rfl⟩ := h
  obtain ⟨x, rfl⟩ : ∃ x, utxos = [x] := by
    match utxos, hl with
    | [x], _ => exact ⟨x, rfl⟩
  simp only [Accumulator.inputLoop, List.zip_cons_cons, List.zip_nil_right, List.foldlM_cons, List.foldlM_nil,
    bind_eq_ok, pure_eq_ok, Accumulator.inputStep, Accumulator.inputFill, Accumulator.addDeduct, okOr_eq_ok,
    mapErr_ok, Prod.exists, Prod.mk.injEq] at h1
  obtain ⟨s1, ⟨s2, c, ⟨od, g1, d, rfl, filled, -, oc, ou, -, _, -, _, -, gc, g2, u1, g3, ac, g4, rfl, rfl⟩, dd, g5, rfl⟩, rfl⟩ := h1
  have hod : o.data id = .ok (some d) := by
    rw [← g1]
    exact (getVal_none (BMap.get_empty id)).symm
  have hne : ac ≠ gc := by
    intro e
    exact hd d hod (by rw [g2, g4, e])
  have k1 := Accumulator.decreaseAll_ok h2 ac
  have k2 := Accumulator.amt_increase g3 ac
  have k3 := Accumulator.amt_increase g5 ac
  rw [Accumulator.sumAt_entries] at k1
  rw [if_neg hne] at k2
  rw [if_pos rfl] at k3
  have k4 : Accumulator.amt Accumulator.Acc.empty.unc ac = 0 := by
    simp [Accumulator.amt, Accumulator.Acc.empty]
  dsimp only at k1 k2 k3
  omega

theorem Guards.not_only_fills {env : Env} (hg : Guards env) {w : Views} {s : Src} {t : Tx} {f : Nat}
    (hc : env.checkTx s t = true) (hi : env.checkInputs w s t = some f)
    (hp : ∀ id n, Input.order (.fill id n) ∈ t.inputs → 0 < n)
    (hd : ∀ id d, w.orders.data id = .ok (some d) → Differ d) : ∃ i ∈ t.inputs, i.isFill = false := by
  by_contra hall
  have hall : ∀ i ∈ t.inputs, i.isFill = true := by
    intro i hi
    by_contra hf
    exact hall ⟨i, hi, by simpa using hf⟩
  obtain ⟨h1, cfg, utxos, a, h2⟩ := hg.policy w s t f hi
  have hcmd : t.inputs.filter Input.isCommand = t.inputs := by
    rw [List.filter_eq_self]
    intro i hi
    have := hall i hi
    cases i with
    | order c => rfl
    | utxo o => cases this
    | account n d a => cases this
    | token n c => cases this
    | orderV0 n c => cases this
  rw [hcmd] at h1
  match ht : t.inputs, h1 with
  | [], _ => exact hg.nonempty _ t hc ht
  | [i], _ =>
    have hm : i ∈ t.inputs := by rw [ht]; simp
    have hf := hall i hm
    cases i with
    | order c =>
      cases c with
      | fill id n =>
        rw [ht] at h2
        exact fill_alone_refused (hp id n hm) (hd id) h2
      | conclude id => cases hf
      | freeze id => cases hf
    | utxo o => cases hf
    | account n d a => cases hf
    | token n c => cases hf
    | orderV0 n c => cases hf

/-! ### The part of the state that matters -/

abbrev UMap := OutPoint → Option Coin
abbrev DMap := Nat → Option Orders.OrderData

/-- the verifier shows these outputs and orders -/
structure Shows (v : TxVerifier) (U : UMap) (D : DMap) : Prop where
  uinv : LInv v.base.utxo v.utxo
  utxo : (v.utxo.view v.base.utxo).utxo = U
  data : RepD v.orders.parent.data v.orders.delta.data D
  parent : v.orders.parent = v.base.orders

theorem Shows.of_eq {v v' : TxVerifier} {U : UMap} {D : DMap} (h : Shows v U D) (h1 : v'.base = v.base)
    (h2 : v'.utxo = v.utxo) (h3 : v'.orders = v.orders) : Shows v' U D := by
  obtain ⟨a, b, c, d⟩ := h
  exact ⟨by rw [h1, h2]; exact a, by rw [h1, h2]; exact b, by rw [h3]; exact c, by rw [h1, h3]; exact d⟩

/-- what an order operation does to the orders -/
def OpRel (D : DMap) : Orders.Op → DMap → Prop
  | .create id d, D' => D id = none ∧ D' = Function.update D id (some d)
  | .conclude id, D' => D id ≠ none ∧ D' = Function.update D id none
  | .fill _ _ _, D' => D' = D
  | .freeze id, D' => ∃ d, D id = some d ∧ d.isFrozen = false ∧
      D' = Function.update D id (some { d with isFrozen := true })

theorem step_data {c c' : Orders.Cache} {op : Orders.Op} {u : Orders.Undo} {D : DMap}
    (h : RepD c.parent.data c.delta.data D) (hs : Orders.step c op = .ok (c', u)) :
    ∃ D', RepD c'.parent.data c'.delta.data D' ∧ c'.parent = c.parent ∧ OpRel D op D' := by
  cases op with
  | create id d =>
    obtain ⟨oa, og, data, du, ask, give, h1, h2, h3, h4, h5, h6, h7, h8, h9, rfl, rfl⟩ := Orders.createOrder_ok hs
    have hd : D id = none := Except.ok.inj ((h.val id).symm.trans h1)
    obtain ⟨td, e1, r1⟩ := h.merge hd (some d)
    rw [h7] at e1; cases e1
    exact ⟨_, r1, rfl, hd, rfl⟩
  | conclude id =>
    obtain ⟨d, ab, gb, data, du, ask, give, h1, h2, h3, h7, h8, h9, rfl, rfl⟩ := Orders.concludeOrder_ok hs
    have hd : D id = some d := Except.ok.inj ((h.val id).symm.trans h1)
    obtain ⟨td, e1, r1⟩ := h.merge hd none
    rw [h7] at e1; cases e1
    exact ⟨_, r1, rfl, by rw [hd]; simp, rfl⟩
  | fill id a ver =>
    obtain ⟨d, filled, ask, give, h1, h2, h3, h8, h9, rfl, rfl⟩ := Orders.fillOrder_ok hs
    exact ⟨D, h, rfl, rfl⟩
  | freeze id =>
    obtain ⟨d, data, du, h1, h2, h7, rfl, rfl⟩ := Orders.freezeOrder_ok hs
    have hd : D id = some d := Except.ok.inj ((h.val id).symm.trans h1)
    obtain ⟨td, e1, r1⟩ := h.merge hd (some { d with isFrozen := true })
    rw [h7] at e1; cases e1
    exact ⟨_, r1, rfl, d, hd, h2, rfl⟩

theorem ordStep_data {v v' : TxVerifier} {op : Orders.Op} {o} {U : UMap} {D : DMap} (hS : Shows v U D)
    (h : ordStep v op = .ok (v', o)) : ∃ D', Shows v' U D' ∧ OpRel D op D' := by
  simp only [ordStep, bind_eq_ok, mapErr_ok, pure_eq_ok, Prod.exists, Prod.mk.injEq] at h
  obtain ⟨c, u, h1, rfl, rfl⟩ := h
  obtain ⟨D', r1, r2, r3⟩ := step_data hS.data h1
  exact ⟨D', ⟨hS.uinv, hS.utxo, r1, r2.trans hS.parent⟩, r3⟩

/-! ### Orders -/

/-- the order is absent or frozen -/
def Shut (D : DMap) (id : Nat) : Prop := ∀ d, D id = some d → d.isFrozen = true

/-- what the inputs of a transaction do to the orders -/
structure InRel (D : DMap) (is : List Input) (D' : DMap) : Prop where
  keeps : ∀ id d, D' id = some d → ∃ d0, D id = some d0 ∧ d.ask = d0.ask ∧ d.give = d0.give
  absent : ∀ id, D id = none → D' id = none
  shut : ∀ id, Shut D id → Shut D' id
  conclude : ∀ id, Input.order (.conclude id) ∈ is → D id ≠ none ∧ D' id = none
  freeze : ∀ id, Input.order (.freeze id) ∈ is → ¬ Shut D id ∧ Shut D' id

theorem InRel.nil (D : DMap) : InRel D [] D :=
  ⟨fun _ d h => ⟨d, h, rfl, rfl⟩, fun _ h => h, fun _ h => h, by simp, by simp⟩

theorem InRel.append {D D1 D2 : DMap} {is js : List Input} (h : InRel D is D1) (h' : InRel D1 js D2) :
    InRel D (is ++ js) D2 where
  keeps id d hd := by
    obtain ⟨d1, e1, e2, e3⟩ := h'.keeps id d hd
    obtain ⟨d0, e4, e5, e6⟩ := h.keeps id d1 e1
    exact ⟨d0, e4, e2.trans e5, e3.trans e6⟩
  absent id hd := h'.absent id (h.absent id hd)
  shut id hd := h'.shut id (h.shut id hd)
  conclude id hm := by
    rcases List.mem_append.1 hm with hm | hm
    · exact ⟨(h.conclude id hm).1, h'.absent id (h.conclude id hm).2⟩
    · exact ⟨fun e => (h'.conclude id hm).1 (h.absent id e), (h'.conclude id hm).2⟩
  freeze id hm := by
    rcases List.mem_append.1 hm with hm | hm
    · exact ⟨(h.freeze id hm).1, h'.shut id (h.freeze id hm).2⟩
    · exact ⟨fun e => (h'.freeze id hm).1 (h.shut id e), (h'.freeze id hm).2⟩

theorem InRel.same {D : DMap} {i : Input} (h1 : ∀ id, i ≠ .order (.conclude id)) (h2 : ∀ id, i ≠ .order (.freeze id)) :
    InRel D [i] D where
  keeps _ d h := ⟨d, h, rfl, rfl⟩
  absent _ h := h
  shut _ h := h
  conclude id hm := absurd (List.mem_singleton.1 hm).symm (h1 id)
  freeze id hm := absurd (List.mem_singleton.1 hm).symm (h2 id)

theorem inRel_conclude {D : DMap} {id : Nat} {i : Input} (hd : D id ≠ none)
    (h1 : ∀ k, i = .order (.conclude k) → k = id) (h2 : ∀ k, i ≠ .order (.freeze k)) :
    InRel D [i] (Function.update D id none) where
  keeps k d hk := by
    by_cases e : k = id
    · subst e; simp at hk
    · rw [Function.update_of_ne e] at hk; exact ⟨d, hk, rfl, rfl⟩
  absent k hk := by by_cases e : k = id <;> simp [e, Function.update, hk]
  shut k hk d hd := by
    by_cases e : k = id
    · subst e; simp at hd
    · rw [Function.update_of_ne e] at hd; exact hk d hd
  conclude k hm := by
    obtain rfl := h1 k (List.mem_singleton.1 hm).symm
    exact ⟨hd, by simp⟩
  freeze k hm := absurd (List.mem_singleton.1 hm).symm (h2 k)

theorem spendNonce_eq {v v' : TxVerifier} {a : Account} {n : Nat} (h : spendNonce v a n = .ok v') :
    ∃ m, v' = { v with nonces := m } := by
  simp only [spendNonce, bind_eq_ok, ensure_eq_ok, pure_eq_ok] at h
  obtain ⟨_, -, _, -, rfl⟩ := h
  exact ⟨_, rfl⟩

theorem ordInput_data {v v' : TxVerifier} {i : Input} {o} {U : UMap} {D : DMap} (hS : Shows v U D)
    (h : ordInput v i = .ok (v', o)) : ∃ D', Shows v' U D' ∧ InRel D [i] D' := by
  cases i with
  | utxo op => cases h; exact ⟨D, hS, .same (by simp) (by simp)⟩
  | account nonce d a => cases h; exact ⟨D, hS, .same (by simp) (by simp)⟩
  | token n c => cases h; exact ⟨D, hS, .same (by simp) (by simp)⟩
  | orderV0 nonce cmd =>
    simp only [ordInput, bind_eq_ok] at h
    obtain ⟨v1, h1, h2⟩ := h
    obtain ⟨m, rfl⟩ := spendNonce_eq h1
    obtain ⟨D', r1, r2⟩ := ordStep_data (hS.of_eq (v' := { v with nonces := m }) rfl rfl rfl) h2
    refine ⟨D', r1, ?_⟩
    cases cmd with
    | conclude id => obtain ⟨r3, rfl⟩ := r2; exact inRel_conclude r3 (by simp) (by simp)
    | fill id a => cases r2; exact .same (by simp) (by simp)
  | order cmd =>
    obtain ⟨D', r1, r2⟩ := ordStep_data hS h
    refine ⟨D', r1, ?_⟩
    cases cmd with
    | conclude id => obtain ⟨r3, rfl⟩ := r2; exact inRel_conclude r3 (by simp) (by simp)
    | fill id a => cases r2; exact .same (by simp) (by simp)
    | freeze id =>
      obtain ⟨d, r3, r4, rfl⟩ := r2
      refine ⟨?_, ?_, ?_, by simp, ?_⟩
      · intro k d' hk
        by_cases e : k = id
        · subst e; simp at hk; exact ⟨d, r3, by rw [← hk], by rw [← hk]⟩
        · rw [Function.update_of_ne e] at hk; exact ⟨d', hk, rfl, rfl⟩
      · intro k hk
        have e : k ≠ id := by rintro rfl; rw [r3] at hk; cases hk
        rw [Function.update_of_ne e]; exact hk
      · intro k hk d' hd'
        by_cases e : k = id
        · subst e; simp at hd'; rw [← hd']
        · rw [Function.update_of_ne e] at hd'; exact hk d' hd'
      · intro k hm
        have e : k = id := by simpa using hm
        subst e
        refine ⟨fun hs => ?_, fun d' hd' => ?_⟩
        · have := hs d r3; rw [r4] at this; cases this
        · simp at hd'; rw [← hd']

theorem ordInputs_data : ∀ (is : List Input) {v v' : TxVerifier} {us} {U : UMap} {D : DMap}, Shows v U D →
    collect ordInput v is = .ok (v', us) → ∃ D', Shows v' U D' ∧ InRel D is D'
  | [], v, v', us, U, D, hS, h => by cases h; exact ⟨D, hS, .nil D⟩
  | i :: is, v, v', us, U, D, hS, h => by
    simp only [collect, bind_eq_ok, pure_eq_ok, Prod.exists, Prod.mk.injEq] at h
    obtain ⟨v1, o, h1, v2, us2, h2, rfl, rfl⟩ := h
    obtain ⟨D1, r1, r2⟩ := ordInput_data hS h1
    obtain ⟨D2, r3, r4⟩ := ordInputs_data is r1 h2
    exact ⟨D2, r3, r2.append r4⟩

/-- filling with nothing is refused -/
theorem ordInput_fill {v v' : TxVerifier} {id n : Nat} {o} (h : ordInput v (.order (.fill id n)) = .ok (v', o)) : 0 < n := by
  simp only [ordInput, ordStep, OrderCmd.op, Orders.step, Orders.fillOrder, Orders.calculateFillOrder, Orders.fillV1,
    bind_eq_ok, mapErr_ok, okOr_eq_ok, ensure_eq_ok, pure_eq_ok, Prod.exists, Prod.mk.injEq] at h
  obtain ⟨c, u, ⟨_, -, _, -, _, -, r, ⟨_, -, _, -, x, -, y, -, _, -, _, -, r', h1, _, h2, rfl⟩, -⟩, -⟩ := h
  rcases Nat.eq_zero_or_pos n with rfl | hn
  · unfold Orders.calculateFilledAmount at h1
    split at h1
    · cases h1
    · split at h1
      · simp only [Nat.mul_zero, Nat.zero_div, Option.some.injEq] at h1
        omega
      · cases h1
  · exact hn

theorem ordInputs_fill : ∀ (is : List Input) {v v' : TxVerifier} {us}, collect ordInput v is = .ok (v', us) →
    ∀ id n, Input.order (.fill id n) ∈ is → 0 < n
  | [], v, v', us, h => by simp
  | i :: is, v, v', us, h => by
    simp only [collect, bind_eq_ok, pure_eq_ok, Prod.exists, Prod.mk.injEq] at h
    obtain ⟨v1, o, h1, v2, us2, h2, rfl, rfl⟩ := h
    intro id n hm
    rcases List.mem_cons.1 hm with rfl | hm
    · exact ordInput_fill h1
    · exact ordInputs_fill is h2 id n hm

/-- what the outputs of a transaction do to the orders -/
def OutRel (D : DMap) (os : List Out) (D' : DMap) : Prop :=
  ∀ id, D' id = D id ∨ ∃ o ∈ os, ∃ d, o.effect = .createOrder id d ∧ D' id = some d

theorem OutRel.same {D D' : DMap} {tx : Tx} (h : OutRel D tx.outputs D') {id : Nat} (hid : id ∉ tx.creates) :
    D' id = D id := by
  rcases h id with h | ⟨o, ho, d, he, -⟩
  · exact h
  · exact absurd (List.mem_filterMap.2 ⟨o, ho, by rw [he]; rfl⟩) hid

theorem ordOutputs_data : ∀ (os : List Out) {v v' : TxVerifier} {us} {U : UMap} {D : DMap}, Shows v U D →
    collect ordOutput v os = .ok (v', us) → ∃ D', Shows v' U D' ∧ OutRel D os D'
  | [], v, v', us, U, D, hS, h => by cases h; exact ⟨D, hS, fun _ => .inl rfl⟩
  | x :: os, v, v', us, U, D, hS, h => by
    simp only [collect, bind_eq_ok, pure_eq_ok, Prod.exists, Prod.mk.injEq] at h
    obtain ⟨v1, o, h1, v2, us2, h2, rfl, rfl⟩ := h
    have : ∃ D1, Shows v1 U D1 ∧ ∀ id, D1 id = D id ∨ ∃ d, x.effect = .createOrder id d ∧ D1 id = some d := by
      unfold ordOutput at h1
      split at h1
      · rename_i id d he
        obtain ⟨D1, r1, -, rfl⟩ := ordStep_data hS h1
        refine ⟨_, r1, fun k => ?_⟩
        by_cases e : k = id
        · subst e; exact .inr ⟨d, he, by simp⟩
        · exact .inl (Function.update_of_ne e _ _)
      · cases h1; exact ⟨D, hS, fun _ => .inl rfl⟩
    obtain ⟨D1, r1, r2⟩ := this
    obtain ⟨D2, r3, r4⟩ := ordOutputs_data os r1 h2
    refine ⟨D2, r3, fun id => ?_⟩
    rcases r4 id with e | ⟨y, hy, d, e1, e2⟩
    · rcases r2 id with e' | ⟨d, e1, e2⟩
      · exact .inl (e.trans e')
      · exact .inr ⟨x, List.mem_cons_self, d, e1, e.trans e2⟩
    · exact .inr ⟨y, List.mem_cons_of_mem _ hy, d, e1, e2⟩

/-! ### The other stages -/

/-- a stage that leaves the outputs and orders alone -/
structure Same (v v' : TxVerifier) : Prop where
  base : v'.base = v.base
  utxo : v'.utxo = v.utxo
  orders : v'.orders = v.orders

theorem Same.refl (v : TxVerifier) : Same v v := ⟨rfl, rfl, rfl⟩
theorem Same.trans {u v w : TxVerifier} (h : Same u v) (h' : Same v w) : Same u w :=
  ⟨h'.1.trans h.1, h'.2.trans h.2, h'.3.trans h.3⟩

theorem kept_collect {A X : Type} {f : TxVerifier → A → Except Err (TxVerifier × Option X)}
    (hf : ∀ v x v' o, f v x = .ok (v', o) → Same v v') : ∀ (xs : List A) {v v' : TxVerifier} {us},
      collect f v xs = .ok (v', us) → Same v v'
  | [], v, v', us, h => by cases h; exact .refl v
  | x :: xs, v, v', us, h => by
    simp only [collect, bind_eq_ok, pure_eq_ok, Prod.exists, Prod.mk.injEq] at h
    obtain ⟨v1, o, h1, v2, us2, h2, rfl, rfl⟩ := h
    exact (hf _ _ _ _ h1).trans (kept_collect hf xs h2)

theorem kept_posStep {v v' : TxVerifier} {op : Pos.Op} {o} (h : posStep v op = .ok (v', o)) : Same v v' := by
  obtain ⟨p, rfl⟩ := posStep_eq h; exact ⟨rfl, rfl, rfl⟩

theorem kept_tokStep {v v' : TxVerifier} {op : Tokens.Op} {o} (h : tokStep v op = .ok (v', o)) : Same v v' := by
  obtain ⟨p, rfl⟩ := tokStep_eq h; exact ⟨rfl, rfl, rfl⟩

theorem kept_spendNonce {v v' : TxVerifier} {a : Account} {n : Nat} (h : spendNonce v a n = .ok v') : Same v v' := by
  obtain ⟨p, rfl⟩ := spendNonce_eq h; exact ⟨rfl, rfl, rfl⟩

theorem posUtxo_ok {env : Env} {v v' : TxVerifier} {o : OutPoint} {r} (h : posUtxo env v o = .ok (v', r)) :
    Same v v' ∧ (v.utxo.view v.base.utxo).utxo o ≠ none := by
  simp only [posUtxo, bind_eq_ok, okOr_eq_ok] at h
  obtain ⟨coin, h1, h2⟩ := h
  refine ⟨?_, by rw [h1]; simp⟩
  split at h2
  · exact kept_posStep h2
  · cases h2; exact .refl v

theorem kept_posInput {env : Env} {v : TxVerifier} {i : Input} {v' : TxVerifier} {o}
    (h : posInput env v i = .ok (v', o)) :
    Same v v' ∧ ∀ k, i.outpoint = some k → (v.utxo.view v.base.utxo).utxo k ≠ none := by
  cases i with
  | utxo op =>
    obtain ⟨h1, h2⟩ := posUtxo_ok h
    exact ⟨h1, fun k hk => by cases hk; exact h2⟩
  | account nonce d a =>
    simp only [posInput, bind_eq_ok] at h
    obtain ⟨v1, h1, h2⟩ := h
    exact ⟨(kept_spendNonce h1).trans (kept_posStep h2), fun k hk => by cases hk⟩
  | token n c => cases h; exact ⟨.refl v, fun k hk => by cases hk⟩
  | orderV0 n c => cases h; exact ⟨.refl v, fun k hk => by cases hk⟩
  | order c => cases h; exact ⟨.refl v, fun k hk => by cases hk⟩

theorem posInputs_present {env : Env} : ∀ (is : List Input) {v v' : TxVerifier} {us},
    collect (posInput env) v is = .ok (v', us) →
      ∀ k ∈ is.filterMap Input.outpoint, (v.utxo.view v.base.utxo).utxo k ≠ none
  | [], v, v', us, h => by simp
  | i :: is, v, v', us, h => by
    simp only [collect, bind_eq_ok, pure_eq_ok, Prod.exists, Prod.mk.injEq] at h
    obtain ⟨v1, o, h1, v2, us2, h2, rfl, rfl⟩ := h
    obtain ⟨s1, s2⟩ := kept_posInput h1
    intro k hk
    obtain ⟨x, hx, e⟩ := List.mem_filterMap.1 hk
    rcases List.mem_cons.1 hx with rfl | hx
    · exact s2 k e
    · have := posInputs_present is h2 k (List.mem_filterMap.2 ⟨x, hx, e⟩)
      rwa [s1.base, s1.utxo] at this

theorem kept_connectPos {env : Env} {src : Src} {v v' : TxVerifier} {tx : Tx} (h : connectPos env src v tx = .ok v') :
    Same v v' ∧ ∀ k ∈ tx.spends, (v.utxo.view v.base.utxo).utxo k ≠ none := by
  simp only [connectPos, bind_eq_ok, Prod.exists] at h
  obtain ⟨v1, us1, h1, v2, us2, h2, _, -, h3⟩ := h
  refine ⟨?_, posInputs_present _ h1⟩
  refine (kept_collect (fun _ _ _ _ hx => (kept_posInput hx).1) _ h1).trans
    ((kept_collect (fun w x w' o hx => ?_) _ h2).trans ?_)
  · unfold posOutput at hx
    split at hx
    · split at hx
      · exact kept_posStep hx
      · cases hx
    · exact kept_posStep hx
    · exact kept_posStep hx
    · cases hx; exact .refl _
  · unfold storePosUndo at h3
    split at h3
    · cases h3; exact .refl _
    · simp only [bind_eq_ok, mapErr_ok, pure_eq_ok] at h3
      obtain ⟨_, -, rfl⟩ := h3; exact ⟨rfl, rfl, rfl⟩

theorem kept_connectTokens {env : Env} {src : Src} {v v' : TxVerifier} {tx : Tx}
    (h : connectTokens env src v tx = .ok v') : Same v v' := by
  simp only [connectTokens, bind_eq_ok, Prod.exists] at h
  obtain ⟨_, -, v1, us1, h1, v2, us2, h2, h3⟩ := h
  refine (kept_collect (fun w i w' o hx => ?_) _ h1).trans
    ((kept_collect (fun w x w' o hx => ?_) _ h2).trans ?_)
  · cases i with
    | token n c =>
      simp only [tokInput, bind_eq_ok] at hx
      obtain ⟨w1, g1, op, -, g3⟩ := hx
      refine (kept_spendNonce g1).trans ?_
      cases op with
      | none => cases g3; exact .refl _
      | some op => exact kept_tokStep g3
    | utxo o => cases hx; exact .refl _
    | account a b c => cases hx; exact .refl _
    | orderV0 a b => cases hx; exact .refl _
    | order a => cases hx; exact .refl _
  · unfold tokOutput at hx
    split at hx
    · exact kept_tokStep hx
    · cases hx; exact .refl _
  · unfold storeTokUndo at h3
    split at h3
    · cases h3; exact .refl _
    · simp only [bind_eq_ok, mapErr_ok, pure_eq_ok] at h3
      obtain ⟨_, -, rfl⟩ := h3; exact ⟨rfl, rfl, rfl⟩

/-- what the orders stage does -/
theorem connectOrders_data {src : Src} {v v' : TxVerifier} {tx : Tx} {U : UMap} {D : DMap} (hS : Shows v U D)
    (h : connectOrders src v tx = .ok v') :
    ∃ D1 D', InRel D tx.inputs D1 ∧ Shows v' U D' ∧ OutRel D1 tx.outputs D' ∧
      ∀ id n, Input.order (.fill id n) ∈ tx.inputs → 0 < n := by
  simp only [connectOrders, bind_eq_ok, Prod.exists] at h
  obtain ⟨v1, us1, h1, v2, us2, h2, h3⟩ := h
  obtain ⟨D1, r1, r2⟩ := ordInputs_data _ hS h1
  obtain ⟨D2, r3, r4⟩ := ordOutputs_data _ r1 h2
  refine ⟨D1, D2, r2, ?_, r4, ordInputs_fill _ h1⟩
  unfold storeOrdUndo at h3
  split at h3
  · cases h3; exact r3
  · simp only [bind_eq_ok, mapErr_ok, pure_eq_ok] at h3
    obtain ⟨_, -, rfl⟩ := h3; exact r3.of_eq rfl rfl rfl

theorem spends_eq (tx : Tx) : tx.utxo.inputs.filterMap id = tx.spends := by
  simp only [Tx.utxo, Tx.spends, List.filterMap_map]
  rfl

/-- what must hold for a transaction to be connected, whether or not its id is new -/
theorem connectTx_needs {env : Env} {src : Src} {v v' : TxVerifier} {tx : Tx} {fee : Nat} {U : UMap} {D : DMap}
    (hS : Shows v U D) (h : connectTx env src v tx = .ok (v', fee)) :
    (∀ o ∈ tx.spends, U o ≠ none) ∧ (∀ id, Input.order (.conclude id) ∈ tx.inputs → D id ≠ none) ∧
      (∀ id, Input.order (.freeze id) ∈ tx.inputs → ¬ Shut D id) ∧
      (∀ id n, Input.order (.fill id n) ∈ tx.inputs → 0 < n) ∧ env.checkTx src tx = true ∧
      ∃ w f, (∀ id, w.orders.data id = .ok (D id)) ∧ env.checkInputs w src tx = some f := by
  simp only [connectTx, bind_eq_ok, okOr_eq_ok, pure_eq_ok, Prod.mk.injEq] at h
  obtain ⟨_, hck, v1, h1, f, hf, v2, h2, v3, h3, v4, h4, v5, h5, rfl, -⟩ := h
  obtain ⟨a, b, rfl⟩ := register_eq h1
  obtain ⟨s1, s2⟩ := kept_connectPos h2
  have s3 := s1.trans (kept_connectTokens h3)
  have hS1 : Shows { v with nfts := a, nftByTx := b } U D := hS.of_eq rfl rfl rfl
  obtain ⟨D1, D2, r1, -, -, r2⟩ := connectOrders_data (hS1.of_eq s3.base s3.utxo s3.orders) h4
  refine ⟨fun o ho => ?_, fun id hm => (r1.conclude id hm).1, fun id hm => (r1.freeze id hm).1, r2,
    (ensure_eq_ok.1 hck), _, f, fun id => hS.data.val id, hf⟩
  rw [← hS.utxo]
  exact s2 o ho

/-- what connecting a transaction with a new id does -/
theorem connectTx_does {env : Env} {src : Src} {v v' : TxVerifier} {tx : Tx} {fee : Nat} {U : UMap} {D : DMap}
    (hS : Shows v U D) (h : connectTx env src v tx = .ok (v', fee)) (hf : ∀ j, U (txOut tx.id j) = none) :
    ∃ U' D1 D', Shows v' U' D' ∧ tx.spends.Nodup ∧ (∀ o ∈ tx.spends, U' o = none) ∧
      (∀ o, (∀ j, o ≠ txOut tx.id j) → U o = none → U' o = none) ∧
      InRel D tx.inputs D1 ∧ OutRel D1 tx.outputs D' := by
  have hneed := (connectTx_needs hS h).1
  simp only [connectTx, bind_eq_ok, okOr_eq_ok, pure_eq_ok, Prod.mk.injEq] at h
  obtain ⟨_, -, v1, h1, f, -, v2, h2, v3, h3, v4, h4, v5, h5, rfl, -⟩ := h
  obtain ⟨a, b, rfl⟩ := register_eq h1
  have s3 := (kept_connectPos h2).1.trans (kept_connectTokens h3)
  have hS1 : Shows { v with nfts := a, nftByTx := b } U D := hS.of_eq rfl rfl rfl
  obtain ⟨D1, D2, r1, r2, r3, -⟩ := connectOrders_data (hS1.of_eq s3.base s3.utxo s3.orders) h4
  simp only [connectUtxo, bind_eq_ok, mapErr_ok, pure_eq_ok, Prod.exists] at h5
  obtain ⟨l, u, g1, c, -, rfl⟩ := h5
  have hfr : Utxo.TxFresh (v4.utxo.view v4.base.utxo) tx.utxo.id := by
    intro j; rw [r2.utxo]; exact hf j
  obtain ⟨k1, k2, k3, k4, k5, k6, k7⟩ := Utxo.connectTx_spec r2.uinv hfr g1
  rw [spends_eq] at k4 k6
  rw [r2.utxo] at k6
  refine ⟨(l.view v4.base.utxo).utxo, D1, D2, ⟨k1, rfl, r2.data, r2.parent⟩, k4, fun o ho => ?_, fun o ho hn => ?_, r1, r3⟩
  · rw [k6, Utxo.setAll_notMem, Utxo.remAll_apply, if_pos ho]
    intro hm
    obtain ⟨p, hp, rfl⟩ := List.mem_map.1 hm
    obtain ⟨j, -, h2⟩ := Utxo.outPairs_mem hp
    exact hneed _ ho (by rw [h2]; exact hf j)
  · exact Utxo.connectTx_fresh r2.uinv hfr g1 ho (by rw [r2.utxo]; exact hn)

/-! ### Block rewards -/

/-- what a block reward does to the outputs -/
theorem reward_utxo {parent : Utxo.View OutPoint Coin} {l l1 : Layer OutPoint Coin} {r : Utxo.Reward} {block height : Nat}
    {u : Option (List Coin)} (hi : LInv parent l) (hf : Utxo.RewardFresh (l.view parent) block)
    (h : Utxo.connectReward parent l r block height = .ok (l1, u)) :
    LInv parent l1 ∧ ((r.inputs.getD []).filterMap fun o => o).Nodup ∧
      (∀ o ∈ (r.inputs.getD []).filterMap (fun o => o), (l.view parent).utxo o ≠ none ∧ (l1.view parent).utxo o = none) ∧
      (∀ o, (∀ j, o ≠ rewardOut block j) → (l.view parent).utxo o = none → (l1.view parent).utxo o = none) := by
  obtain ⟨inputs, outputs⟩ := r
  have hmk : ∀ i j, rewardOut block i = rewardOut block j → i = j := fun i j e => (Utxo.rewardOut_inj.1 e).2
  have houts : ∀ {l0 : Layer OutPoint Coin}, LInv parent l0 → Utxo.RewardFresh (l0.view parent) block →
      (match outputs with
        | some os => Utxo.addRewardOutputs l0 block height 0 os
        | none => pure l0) = .ok l1 →
      LInv parent l1 ∧ ∀ k, (∀ j, k ≠ rewardOut block j) → (l1.view parent).utxo k = (l0.view parent).utxo k := by
    intro l0 hi0 hf0 h
    cases outputs with
    | none => cases h; exact ⟨hi0, fun _ _ => rfl⟩
    | some os =>
      simp only at h
      obtain ⟨m1, m2⟩ := Utxo.addRewardOutputs_eq (parent := parent) os 0 hi0 (fun j _ => hf0 j) h
      obtain ⟨l1', k1, k2, k3, k4⟩ := Utxo.addOutputs_spec (parent := parent) hmk (source := height) false os 0 hi0
        (fun j _ => hf0 j)
      rw [m2] at k1
      cases k1
      refine ⟨k2, fun k hk => ?_⟩
      rw [k4, Utxo.setAll_notMem]
      intro hm
      obtain ⟨p, hp, rfl⟩ := List.mem_map.1 hm
      obtain ⟨j, -, h2⟩ := Utxo.outPairs_mem hp
      exact hk j h2
  unfold Utxo.connectReward at h
  cases inputs with
  | none =>
    have h2 : (match outputs with
        | some os => Utxo.addRewardOutputs l block height 0 os
        | none => pure l) = .ok l1 := by
      cases outputs with
      | none => cases h; rfl
      | some os =>
        simp only [bind_eq_ok, pure_eq_ok, Prod.mk.injEq, Except.ok.injEq] at h
        obtain ⟨_, rfl, _, h2, rfl, -⟩ := h
        exact h2
    obtain ⟨g1, g2⟩ := houts hi hf h2
    exact ⟨g1, by simp, by simp, fun o ho hn => by rw [g2 o ho]; exact hn⟩
  | some is =>
    have h4 : ∃ l3 us, Utxo.spendInputs parent l is = .ok (l3, us) ∧ (match outputs with
        | some os => Utxo.addRewardOutputs l3 block height 0 os
        | none => pure l3) = .ok l1 := by
      cases outputs with
      | none =>
        simp only [bind_eq_ok, pure_eq_ok, Prod.mk.injEq, Except.ok.injEq, Prod.exists] at h
        obtain ⟨l3, us, h3, _, _, ⟨rfl, -⟩, _, rfl, rfl, -⟩ := h
        exact ⟨_, us, h3, rfl⟩
      | some os =>
        simp only [bind_eq_ok, pure_eq_ok, Prod.mk.injEq, Except.ok.injEq, Prod.exists] at h
        obtain ⟨l3, us, h3, _, _, ⟨rfl, -⟩, _, h2, rfl, -⟩ := h
        exact ⟨_, us, h3, h2⟩
    obtain ⟨l3, us, h3, h2⟩ := h4
    obtain ⟨g1, g2, g3, g4, g5, g6⟩ := Utxo.spendInputs_spec _ hi h3
    have hf0 : Utxo.RewardFresh (l3.view parent) block := by
      intro j
      rw [g6, Utxo.remAll_apply]
      split
      · rfl
      · exact hf j
    obtain ⟨k1, k2⟩ := houts g1 hf0 h2
    have hpres : ∀ o ∈ is.filterMap id, (l.view parent).utxo o ≠ none := by
      intro o ho
      rw [← Utxo.pairs_fst g3, List.mem_map] at ho
      obtain ⟨q, hq, rfl⟩ := ho
      rw [g5 q hq]; simp
    refine ⟨k1, g4, fun o ho => ⟨hpres o ho, ?_⟩, fun o ho hn => ?_⟩
    · rw [k2 o (fun j e => hpres o ho (by rw [e]; exact hf j)), g6, Utxo.remAll_apply]
      exact if_pos ho
    · rw [k2 o ho, g6, Utxo.remAll_apply]
      split
      · rfl
      · exact hn

theorem connectReward_does {env : Env} {v v' : TxVerifier} {b : Block} {fees : List Nat} {U : UMap} {D : DMap}
    (hS : Shows v U D) (h : connectReward env v b fees = .ok v') (hf : ∀ j, U (rewardOut b.id j) = none) :
    ∃ U', Shows v' U' D ∧ b.kernel.Nodup ∧ (∀ o ∈ b.kernel, U o ≠ none ∧ U' o = none) ∧
      (∀ o, (∀ j, o ≠ rewardOut b.id j) → U o = none → U' o = none) := by
  simp only [connectReward, bind_eq_ok] at h
  obtain ⟨_, -, v1, h1, h2⟩ := h
  have n1 : ∃ U', Shows v1 U' D ∧ b.kernel.Nodup ∧ (∀ o ∈ b.kernel, U o ≠ none ∧ U' o = none) ∧
      (∀ o, (∀ j, o ≠ rewardOut b.id j) → U o = none → U' o = none) := by
    simp only [rewardUtxo, bind_eq_ok, mapErr_ok, Prod.exists] at h1
    obtain ⟨l, u, h3, h4⟩ := h1
    have hfr : Utxo.RewardFresh (v.utxo.view v.base.utxo) b.id := by intro j; rw [hS.utxo]; exact hf j
    obtain ⟨k1, k2, k3, k4⟩ := reward_utxo hS.uinv hfr h3
    rw [hS.utxo] at k3 k4
    cases u with
    | none => cases h4; exact ⟨_, ⟨k1, rfl, hS.data, hS.parent⟩, k2, k3, k4⟩
    | some r =>
      simp only [bind_eq_ok, mapErr_ok, pure_eq_ok] at h4
      obtain ⟨c, -, rfl⟩ := h4
      exact ⟨_, ⟨k1, rfl, hS.data, hS.parent⟩, k2, k3, k4⟩
  obtain ⟨U', r1, r2⟩ := n1
  refine ⟨U', ?_, r2⟩
  unfold rewardPos at h2
  split at h2
  · simp only [bind_eq_ok, okOr_eq_ok, mapErr_ok, pure_eq_ok, Prod.exists] at h2
    obtain ⟨p, -, v2, ops, h3, c, -, rfl⟩ := h2
    have a := kept_collect (fun _ _ _ _ hx => kept_posStep hx) _ h3
    exact r1.of_eq a.base a.utxo a.orders
  · cases h2; exact r1

/-! ### The history of a chain -/

/-- what is assumed of the transactions of a chain (`G`: the outputs it starts from): equal ids mean equal inputs, ids do not
occur at the start, and two orders with the same id come from the same first spent output -/
structure Sane (G : UMap) (all : List Tx) : Prop where
  ids : ∀ t ∈ all, ∀ t' ∈ all, t.id = t'.id → t.inputs = t'.inputs
  fresh : ∀ t ∈ all, ∀ j, G (txOut t.id j) = none
  orders : ∀ t ∈ all, ∀ t' ∈ all, ∀ id ∈ t.creates, id ∈ t'.creates →
    ∃ o, t.spends.head? = some o ∧ t'.spends.head? = some o

/-- the output comes from the start, a transaction or a block so far -/
def Known (G : UMap) (hist : List Tx) (blocks : List Nat) (o : OutPoint) : Prop :=
  G o ≠ none ∨ (∃ t ∈ hist, ∃ j, o = txOut t.id j) ∨ ∃ b ∈ blocks, ∃ j, o = rewardOut b j

/-- the invariant: `hist` the transactions and `blocks` the finished blocks so far, `spent` the outputs they spent -/
structure Hist (G : UMap) (hist : List Tx) (blocks : List Nat) (spent : List OutPoint) (U : UMap) (D : DMap)
    (next : Account → Nat) : Prop where
  gone : ∀ o ∈ spent, U o = none ∧ Known G hist blocks o
  known : ∀ o, U o ≠ none → Known G hist blocks o
  spends : ∀ t ∈ hist, ∀ o ∈ t.spends, o ∈ spent
  nodup : spent.Nodup
  ids : (hist.map Tx.id).Nodup
  created : ∀ id, D id ≠ none → ∃ t ∈ hist, id ∈ t.creates
  concluded : ∀ t ∈ hist, ∀ id, Input.order (.conclude id) ∈ t.inputs → D id = none ∧ ∃ t ∈ hist, id ∈ t.creates
  frozen : ∀ t ∈ hist, ∀ id, Input.order (.freeze id) ∈ t.inputs → Shut D id ∧ ∃ t ∈ hist, id ∈ t.creates
  nonces : ∀ t ∈ hist, ∀ u ∈ t.staged, u.2 < next u.1
  differ : ∀ id d, D id = some d → Differ d

theorem Known.mono {G : UMap} {hist hist' : List Tx} {blocks blocks' : List Nat} {o : OutPoint}
    (h : Known G hist blocks o) (h1 : hist ⊆ hist') (h2 : blocks ⊆ blocks') : Known G hist' blocks' o := by
  rcases h with h | ⟨t, ht, j, e⟩ | ⟨b, hb, j, e⟩
  · exact .inl h
  · exact .inr (.inl ⟨t, h1 ht, j, e⟩)
  · exact .inr (.inr ⟨b, h2 hb, j, e⟩)

theorem mem_noncesFor {u : Use} {us : List Use} (h : u ∈ us) : u.2 ∈ noncesFor u.1 us := by
  unfold noncesFor
  exact List.mem_map.2 ⟨u, List.mem_filter.2 ⟨h, by simp⟩, rfl⟩

theorem Seq.mono {f g us} (h : Seq f us g) (a : Account) : f a ≤ g a := by
  have := (h.spec a).2; omega

theorem Seq.bounds {f g us} (h : Seq f us g) {u : Use} (hu : u ∈ us) : f u.1 ≤ u.2 ∧ u.2 < g u.1 := by
  obtain ⟨h1, h2⟩ := h.spec u.1
  have hm := mem_noncesFor hu
  rw [h1, List.mem_range'_1] at hm
  omega

/-- every input but a fill leaves a trace -/
theorem input_cases {tx : Tx} {i : Input} (hi : i ∈ tx.inputs) (hf : i.isFill = false) :
    (∃ o, o ∈ tx.spends) ∨ (∃ u, u ∈ tx.staged) ∨ (∃ id, Input.order (.conclude id) ∈ tx.inputs) ∨
      ∃ id, Input.order (.freeze id) ∈ tx.inputs := by
  cases i with
  | utxo o => exact .inl ⟨o, List.mem_filterMap.2 ⟨_, hi, rfl⟩⟩
  | account n d a =>
    exact .inr (.inl ⟨_, by
      simp only [Tx.staged, List.mem_append]; exact .inl (.inl (List.mem_filterMap.2 ⟨_, hi, rfl⟩))⟩)
  | token n c =>
    exact .inr (.inl ⟨_, by
      simp only [Tx.staged, List.mem_append]; exact .inl (.inr (List.mem_filterMap.2 ⟨_, hi, rfl⟩))⟩)
  | orderV0 n c =>
    exact .inr (.inl ⟨_, by
      simp only [Tx.staged, List.mem_append]; exact .inr (List.mem_filterMap.2 ⟨_, hi, rfl⟩)⟩)
  | order c =>
    cases c with
    | fill id a => cases hf
    | conclude id => exact .inr (.inr (.inl ⟨id, hi⟩))
    | freeze id => exact .inr (.inr (.inr ⟨id, hi⟩))

/-- a transaction of the history cannot be connected again -/
theorem Hist.no_repeat {G : UMap} {all hist : List Tx} {blocks : List Nat} {spent : List OutPoint} {U : UMap} {D : DMap}
    {next : Account → Nat} {env : Env} {src : Src} {v v' : TxVerifier} {tx : Tx} {fee : Nat}
    (hH : Hist G hist blocks spent U D next) (hs : Sane G all) (hsub : hist ⊆ all) (htx : tx ∈ all)
    (hg : Guards env)
    (hS : Shows v U D) (hn : v.expects = next) (h : connectTx env src v tx = .ok (v', fee)) :
    tx.id ∉ hist.map Tx.id := by
  intro hm
  obtain ⟨t, ht, e⟩ := List.mem_map.1 hm
  have he := hs.ids t (hsub ht) tx htx e
  have hsp : t.spends = tx.spends := by unfold Tx.spends; rw [he]
  obtain ⟨n1, n2, n3, hfp, hck, w, f, hw, hc⟩ := connectTx_needs hS h
  obtain ⟨i, hi, hif⟩ := hg.not_only_fills hck hc hfp fun id d hd => hH.differ id d (by
    rw [hw id] at hd; exact Except.ok.inj hd)
  rcases input_cases hi hif with ⟨o, ho⟩ | ⟨u, hu⟩ | ⟨id, hc⟩ | ⟨id, hc⟩
  · exact n1 o ho (hH.gone o (hH.spends t ht o (hsp ▸ ho))).1
  · have h1 := hH.nonces t ht u (by unfold Tx.staged at hu ⊢; rw [he]; exact hu)
    have h2 := ((ns_connectTx h).seq.bounds hu).1
    rw [hn] at h2
    omega
  · exact n2 id hc (hH.concluded t ht id (he ▸ hc)).1
  · exact n3 id hc (hH.frozen t ht id (he ▸ hc)).1

/-- connecting one more transaction -/
theorem Hist.tx {G : UMap} {all hist : List Tx} {blocks : List Nat} {spent : List OutPoint} {U : UMap} {D : DMap}
    {next : Account → Nat} {env : Env} {src : Src} {v v' : TxVerifier} {tx : Tx} {fee : Nat}
    (hH : Hist G hist blocks spent U D next) (hs : Sane G all) (hsub : hist ⊆ all) (htx : tx ∈ all)
    (hg : Guards env)
    (hS : Shows v U D) (hn : v.expects = next) (h : connectTx env src v tx = .ok (v', fee)) :
    ∃ U' D', Shows v' U' D' ∧ Hist G (hist ++ [tx]) blocks (spent ++ tx.spends) U' D' v'.expects := by
  have hnew := hH.no_repeat hs hsub htx hg hS hn h
  obtain ⟨n1, n2, n3, -, hck, -⟩ := connectTx_needs hS h
  have hnk : ∀ j, ¬ Known G hist blocks (txOut tx.id j) := by
    rintro j (hk | ⟨t, ht, j', e⟩ | ⟨b, -, j', e⟩)
    · exact hk (hs.fresh tx htx j)
    · exact hnew (List.mem_map.2 ⟨t, ht, (Utxo.txOut_inj.1 e).1.symm⟩)
    · exact absurd (congrArg parentOf e) (by rw [parentOf_txOut]; simp [parentOf, rewardOut])
  have hf : ∀ j, U (txOut tx.id j) = none := by
    intro j
    by_contra hc
    exact hnk j (hH.known _ hc)
  obtain ⟨U', D1, D', r1, r2, r3, r4, r5, r6⟩ := connectTx_does hS h hf
  have hseq := (ns_connectTx h).seq
  rw [hn] at hseq
  have hl : hist ⊆ hist ++ [tx] := List.subset_append_left _ _
  -- an order of the history is not created again
  have hcr : ∀ id ∈ tx.creates, ¬ ∃ t ∈ hist, id ∈ t.creates := by
    rintro id hid ⟨t, ht, hid'⟩
    obtain ⟨o, ho, ho'⟩ := hs.orders tx htx t (hsub ht) id hid hid'
    exact n1 o (List.mem_of_mem_head? ho) (hH.gone o (hH.spends t ht o (List.mem_of_mem_head? ho'))).1
  have hD : ∀ id, (∃ t ∈ hist, id ∈ t.creates) → D' id = D1 id := fun id hx => r6.same fun hc => hcr id hc hx
  have hown : ∀ id, D id ≠ none → ∃ t ∈ hist, id ∈ t.creates := hH.created
  have hup : ∀ id, (∃ t ∈ hist, id ∈ t.creates) → ∃ t ∈ hist ++ [tx], id ∈ t.creates :=
    fun id ⟨t, ht, hc⟩ => ⟨t, hl ht, hc⟩
  refine ⟨U', D', r1, ?_, ?_, ?_, ?_, ?_, ?_, ?_, ?_, ?_, ?_⟩
  · intro o ho
    rcases List.mem_append.1 ho with ho | ho
    · obtain ⟨g1, g2⟩ := hH.gone o ho
      exact ⟨r4 o (fun j e => hnk j (e ▸ g2)) g1, g2.mono hl fun _ h => h⟩
    · exact ⟨r3 o ho, (hH.known o (n1 o ho)).mono hl fun _ h => h⟩
  · intro o ho
    by_cases hj : ∃ j, o = txOut tx.id j
    · obtain ⟨j, rfl⟩ := hj
      exact .inr (.inl ⟨tx, by simp, j, rfl⟩)
    · refine (hH.known o fun hc => ho (r4 o (fun j e => hj ⟨j, e⟩) hc)).mono hl fun _ h => h
  · intro t ht o ho
    rcases List.mem_append.1 ht with ht | ht
    · exact List.mem_append_left _ (hH.spends t ht o ho)
    · obtain rfl := List.mem_singleton.1 ht
      exact List.mem_append_right _ ho
  · refine List.nodup_append.2 ⟨hH.nodup, r2, fun a ha b hb e => ?_⟩
    subst e
    exact n1 a hb (hH.gone a ha).1
  · rw [List.map_append, List.map_singleton]
    refine List.nodup_append.2 ⟨hH.ids, by simp, fun a ha b hb e => ?_⟩
    rw [List.mem_singleton] at hb
    subst e hb
    exact hnew ha
  · intro id hd
    by_cases hc : id ∈ tx.creates
    · exact ⟨tx, by simp, hc⟩
    · rw [r6.same hc] at hd
      exact hup id (hown id fun e => hd (r5.absent id e))
  · intro t ht id hc
    rcases List.mem_append.1 ht with ht | ht
    · obtain ⟨g1, g2⟩ := hH.concluded t ht id hc
      exact ⟨by rw [hD id g2]; exact r5.absent id g1, hup id g2⟩
    · obtain rfl := List.mem_singleton.1 ht
      obtain ⟨g1, g2⟩ := r5.conclude id hc
      have g3 := hown id g1
      exact ⟨by rw [hD id g3]; exact g2, hup id g3⟩
  · intro t ht id hc
    rcases List.mem_append.1 ht with ht | ht
    · obtain ⟨g1, g2⟩ := hH.frozen t ht id hc
      refine ⟨?_, hup id g2⟩
      have := r5.shut id g1
      unfold Shut at this ⊢
      rw [hD id g2]; exact this
    · obtain rfl := List.mem_singleton.1 ht
      obtain ⟨g1, g2⟩ := r5.freeze id hc
      have g3 := hown id fun e => g1 fun d hd => by rw [e] at hd; cases hd
      refine ⟨?_, hup id g3⟩
      unfold Shut at g2 ⊢
      rw [hD id g3]; exact g2
  · intro t ht u hu
    rcases List.mem_append.1 ht with ht | ht
    · exact lt_of_lt_of_le (hH.nonces t ht u hu) (hseq.mono u.1)
    · obtain rfl := List.mem_singleton.1 ht
      exact (hseq.bounds hu).2
  · intro id d hd
    rcases r6 id with e | ⟨o, ho, d', e1, e2⟩
    · rw [e] at hd
      obtain ⟨d0, e0, ea, eg⟩ := r5.keeps id d hd
      have := hH.differ id d0 e0
      unfold Differ at this ⊢
      rw [ea, eg]; exact this
    · rw [e2] at hd
      cases hd
      exact hg.differ _ tx o id d hck ho e1

theorem Hist.txs {G : UMap} {all : List Tx} {env : Env} {src : Src} {blocks : List Nat} (hs : Sane G all)
    (hg : Guards env) :
    ∀ (txs : List Tx) {hist : List Tx} {spent : List OutPoint} {U : UMap} {D : DMap} {v v' : TxVerifier} {fees : List Nat},
      Hist G hist blocks spent U D v.expects → hist ⊆ all → txs ⊆ all → Shows v U D →
      connectTxs env src v txs = .ok (v', fees) →
      ∃ U' D', Shows v' U' D' ∧ Hist G (hist ++ txs) blocks (spent ++ txs.flatMap Tx.spends) U' D' v'.expects
  | [], hist, spent, U, D, v, v', fees, hH, _, _, hS, h => by
    cases h; exact ⟨U, D, hS, by simpa using hH⟩
  | tx :: txs, hist, spent, U, D, v, v', fees, hH, h1, h2, hS, h => by
    simp only [connectTxs, bind_eq_ok, pure_eq_ok, Prod.exists, Prod.mk.injEq] at h
    obtain ⟨v1, fee, g1, v2, fees', g2, rfl, rfl⟩ := h
    have htx : tx ∈ all := h2 List.mem_cons_self
    obtain ⟨U1, D1, k1, k2⟩ := hH.tx hs h1 htx hg hS rfl g1
    obtain ⟨U2, D2, k3, k4⟩ := Hist.txs hs hg txs k2 (by
      intro t ht
      rcases List.mem_append.1 ht with ht | ht
      · exact h1 ht
      · rw [List.mem_singleton.1 ht]; exact htx) (fun t ht => h2 (List.mem_cons_of_mem _ ht)) k1 g2
    exact ⟨U2, D2, k3, by simpa [List.append_assoc] using k4⟩

/-- finishing a block -/
theorem Hist.reward {G : UMap} {hist : List Tx} {blocks : List Nat} {spent : List OutPoint} {U : UMap} {D : DMap}
    {env : Env} {v v' : TxVerifier} {b : Block} {fees : List Nat}
    (hH : Hist G hist blocks spent U D v.expects) (hG : ∀ j, G (rewardOut b.id j) = none) (hb : b.id ∉ blocks)
    (hS : Shows v U D) (h : connectReward env v b fees = .ok v') :
    ∃ U', Shows v' U' D ∧ Hist G hist (blocks ++ [b.id]) (spent ++ b.kernel) U' D v'.expects := by
  have hnk : ∀ j, ¬ Known G hist blocks (rewardOut b.id j) := by
    rintro j (hk | ⟨t, ht, j', e⟩ | ⟨c, hc, j', e⟩)
    · exact hk (hG j)
    · exact absurd (congrArg parentOf e) (by rw [parentOf_txOut]; simp [parentOf, rewardOut])
    · exact hb ((Utxo.rewardOut_inj.1 e).1 ▸ hc)
  have hf : ∀ j, U (rewardOut b.id j) = none := by
    intro j
    by_contra hc
    exact hnk j (hH.known _ hc)
  obtain ⟨U', r1, r2, r3, r4⟩ := connectReward_does hS h hf
  have hl : blocks ⊆ blocks ++ [b.id] := List.subset_append_left _ _
  have hseq := (ns_connectReward h).seq
  refine ⟨U', r1, ?_, ?_, ?_, ?_, hH.ids, hH.created, hH.concluded, hH.frozen, ?_, hH.differ⟩
  · intro o ho
    rcases List.mem_append.1 ho with ho | ho
    · obtain ⟨g1, g2⟩ := hH.gone o ho
      exact ⟨r4 o (fun j e => hnk j (e ▸ g2)) g1, g2.mono (fun _ h => h) hl⟩
    · exact ⟨(r3 o ho).2, (hH.known o (r3 o ho).1).mono (fun _ h => h) hl⟩
  · intro o ho
    by_cases hj : ∃ j, o = rewardOut b.id j
    · obtain ⟨j, rfl⟩ := hj
      exact .inr (.inr ⟨b.id, by simp, j, rfl⟩)
    · exact (hH.known o fun hc => ho (r4 o (fun j e => hj ⟨j, e⟩) hc)).mono (fun _ h => h) hl
  · exact fun t ht o ho => List.mem_append_left _ (hH.spends t ht o ho)
  · refine List.nodup_append.2 ⟨hH.nodup, r2, fun a ha b hb e => ?_⟩
    subst e
    exact (r3 a hb).1 (hH.gone a ha).1
  · exact fun t ht u hu => lt_of_lt_of_le (hH.nonces t ht u hu) (hseq.mono u.1)

/-- what the stored state shows -/
structure LShows (l : Ledger) (U : UMap) (D : DMap) : Prop where
  utxo : l.utxo.utxos.get = U
  data : l.orders.data.get = D

theorem LShows.new {l : Ledger} {U : UMap} {D : DMap} (h : LShows l U D) : Shows (TxVerifier.new l.base) U D where
  uinv := Utxo.new_inv _
  utxo := h.utxo
  data := RepD.empty fun k => by rw [← h.data]; rfl
  parent := rfl

theorem flush_shows {l l' : Ledger} {v : TxVerifier} {U : UMap} {D : DMap} (hS : Shows v U D) (hb : v.base = l.base)
    (h : l.flush v = .ok l') : LShows l' U D := by
  simp only [Ledger.flush, bind_eq_ok, mapErr_ok, pure_eq_ok, Prod.exists] at h
  obtain ⟨_, -, _, -, utxo, h3, _, -, _, _, -, _, -, _, _, -, _, -, nonces, -, orders, _, h10, _, -, rfl⟩ := h
  have hu := hS.uinv
  rw [hb] at hu
  obtain ⟨utxo', e4, r4⟩ := Utxo.dbWrite_spec (db := l.utxo) hu
  rw [h3] at e4
  cases e4
  refine ⟨?_, ?_⟩
  · rw [← hS.utxo, hb]
    exact congrArg Utxo.View.utxo r4
  · have hd := hS.data
    rw [hS.parent, hb] at hd
    obtain ⟨pd, pdu, e1, r1⟩ := RepD.flush (store := l.orders.data) hd
    simp only [Orders.DB.mergeWithDelta, bind_eq_ok, Orders.lift_ok, pure_eq_ok, Prod.exists, Prod.mk.injEq] at h10
    obtain ⟨a, b, e2, c, d, -, e, f, -, rfl, -⟩ := h10
    rw [e1] at e2
    cases e2
    exact funext r1

/-- connecting one more block -/
theorem Hist.block {G : UMap} {all hist : List Tx} {blocks : List Nat} {spent : List OutPoint} {U : UMap} {D : DMap}
    {env : Env} {l l' : Ledger} {b : Block} (hs : Sane G all)
    (hg : Guards env)
    (hH : Hist G hist blocks spent U D l.expects) (h1 : hist ⊆ all) (h2 : b.txs ⊆ all)
    (hG : ∀ j, G (rewardOut b.id j) = none) (hb : b.id ∉ blocks) (hL : LShows l U D) (h : l.connect env b = .ok l') :
    ∃ U' D', LShows l' U' D' ∧ Hist G (hist ++ b.txs) (blocks ++ [b.id]) (spent ++ b.spends) U' D' l'.expects := by
  simp only [Ledger.connect, bind_eq_ok] at h
  obtain ⟨v, g1, g2⟩ := h
  have n := ns_connectBlock g1
  have hbase : v.base = l.base := n.base
  have he := flush_nonces g2 (n.noRead (by simp [TxVerifier.new])) hbase
  simp only [connectBlock, bind_eq_ok, pure_eq_ok, Prod.exists] at g1
  obtain ⟨v1, fees, g3, v2, g4, rfl⟩ := g1
  obtain ⟨U1, D1, k1, k2⟩ := Hist.txs hs hg b.txs (v := TxVerifier.new l.base) hH h1 h2 hL.new g3
  obtain ⟨U2, k3, k4⟩ := k2.reward hG hb k1 g4
  have hS : Shows (setBest v2 b.id) U2 D1 := ⟨k3.uinv, k3.utxo, k3.data, k3.parent⟩
  refine ⟨U2, D1, flush_shows hS hbase g2, ?_⟩
  rw [he, Block.spends, ← List.append_assoc]
  exact k4

theorem Hist.blocks {G : UMap} {all : List Tx} {env : Env} (hs : Sane G all)
    (hg : Guards env) :
    ∀ (bs : List Block) {hist : List Tx} {blocks : List Nat} {spent : List OutPoint} {U : UMap} {D : DMap} {l l' : Ledger},
      Hist G hist blocks spent U D l.expects → hist ⊆ all → (∀ b ∈ bs, b.txs ⊆ all) →
      (∀ b ∈ bs, ∀ j, G (rewardOut b.id j) = none) → (blocks ++ bs.map Block.id).Nodup → LShows l U D →
      l.connects env bs = .ok l' →
      ∃ U' D', LShows l' U' D' ∧ Hist G (hist ++ bs.flatMap Block.txs) (blocks ++ bs.map Block.id)
        (spent ++ bs.flatMap Block.spends) U' D' l'.expects
  | [], hist, blocks, spent, U, D, l, l', hH, _, _, _, _, hL, h => by
    cases h; exact ⟨U, D, hL, by simpa using hH⟩
  | b :: bs, hist, blocks, spent, U, D, l, l', hH, h1, h2, hG, hn, hL, h => by
    simp only [Ledger.connects, bind_eq_ok] at h
    obtain ⟨l1, g1, g2⟩ := h
    have hb : b.id ∉ blocks := by
      intro hm
      rw [List.nodup_append] at hn
      exact hn.2.2 _ hm _ (by simp) rfl
    obtain ⟨U1, D1, k1, k2⟩ := Hist.block hs hg hH h1 (h2 b (by simp)) (hG b (by simp)) hb hL g1
    obtain ⟨U2, D2, k3, k4⟩ := Hist.blocks hs hg bs k2 (by
      intro t ht
      rcases List.mem_append.1 ht with ht | ht
      · exact h1 ht
      · exact h2 b (by simp) ht) (fun c hc => h2 c (by simp [hc])) (fun c hc => hG c (by simp [hc]))
      (by simpa [List.append_assoc] using hn) k1 g2
    exact ⟨U2, D2, k3, by simpa [List.append_assoc] using k4⟩

/-- the start of a chain: no orders yet -/
theorem Hist.start {l : Ledger} (h0 : ∀ id, l.orders.data.get id = none) :
    Hist l.utxo.utxos.get [] [] [] l.utxo.utxos.get l.orders.data.get l.expects where
  gone := by simp
  known := fun o h => .inl h
  spends := by simp
  nodup := by simp
  ids := by simp
  created := fun id h => absurd (h0 id) h
  concluded := by simp
  frozen := by simp
  nonces := by simp
  differ := fun id d h => by rw [h0 id] at h; cases h

end Verif.Verifier
