import Verif.Verifier.RangePos
import Verif.Verifier.LedgerLemmas
import Verif.Verifier.Check

/-!
# What the end of a block says about its beginning

Two kinds of balances are bounded only by the fact that they could be stored in the end: the balance of a pool that does not
exist, and the supply of a token.  Both only grow, unless they are read first; so if they are in range in the end, they were
all the way.
-/

namespace Verif.Pos
open Verif Verif.Accounting

/-- what was recorded for pools that do not exist is below the limit -/
def Cap (c : Cache) : Prop := ∀ q b, c.view.poolData q = .ok none → c.parent.poolBalance q = .ok b →
  (b : Int) + dval (c.delta.poolBalances.get q) < I128

/-- a pool that does not exist: either its balance was found to be zero, or it still does not exist and its balance did not
decrease -/
theorem step_dead {c c' : Cache} {op : Op} {u : Undo} {q : PoolId} (h : step c op = .ok (c', u))
    (hq : c.view.poolData q = .ok none) : c.view.poolBalance q = .ok 0 ∨
      (c'.view.poolData q = .ok none ∧ dval (c.delta.poolBalances.get q) ≤ dval (c'.delta.poolBalances.get q)) := by
  cases op with
  | createPool p d =>
    obtain ⟨bs, pd, du, h1, h2, h3, h4, rfl, rfl⟩ := createPool_ok.1 h
    by_cases e : q = p
    · subst e; exact .inl h2
    · refine .inr ⟨((getVal_merged h4 q).trans (if_neg e)).trans hq, ?_⟩
      dsimp only
      rw [dval_add h3, if_neg e]; omega
  | decommissionPool p =>
    obtain ⟨d, b, bs, pd, du, h1, h2, h3, h4, rfl, rfl⟩ := decommissionPool_ok.1 h
    have e : q ≠ p := by rintro rfl; rw [hq] at h1; cases h1
    refine .inr ⟨((getVal_merged h4 q).trans (if_neg e)).trans hq, ?_⟩
    dsimp only
    rw [dval_sub h3, if_neg e]; omega
  | increaseStakerRewards p a =>
    obtain ⟨d, bs, pd, du, h1, h2, h3, h4, rfl, rfl⟩ := increaseStakerRewards_ok.1 h
    have e : q ≠ p := by rintro rfl; rw [hq] at h1; cases h1
    refine .inr ⟨((getVal_merged h4 q).trans (if_neg e)).trans hq, ?_⟩
    dsimp only
    rw [dval_add h2, if_neg e]; omega
  | createDelegationId t d k =>
    obtain ⟨x, dd, du, h1, h2, h3, rfl, rfl⟩ := createDelegationId_ok.1 h
    exact .inr ⟨hq, le_refl _⟩
  | deleteDelegationId d =>
    obtain ⟨data, dd, du, h1, h2, h3, h4, h5, rfl, rfl⟩ := deleteDelegationId_ok.1 h
    exact .inr ⟨hq, le_refl _⟩
  | delegateStaking d a =>
    obtain ⟨data, db, pb, sh, h1, h2, h3, h4, rfl, rfl⟩ := delegateStaking_ok.1 h
    refine .inr ⟨hq, ?_⟩
    dsimp only
    rw [dval_add h3]
    split <;> omega
  | spendShare d a =>
    obtain ⟨data, o, db, pb, sh, h1, h2, h3, h4, h5, rfl, rfl⟩ := spendShare_ok.1 h
    refine .inr ⟨hq, ?_⟩
    dsimp only
    rcases h4 with ⟨h4, h6⟩ | ⟨-, rfl⟩
    · have e : q ≠ data.sourcePool := by
        rintro rfl
        rw [hq] at h3; cases h3; cases h4
      rw [dval_sub h6, if_neg e]; omega
    · exact le_refl _

theorem dval_merged {K : Type} [LinearOrder K] {c d m : AmountColl K} (h : mergeAmounts c d = .ok m) (k : K) :
    dval (m.get k) = dval (c.get k) + dval (d.get k) := by
  have := mergeAmounts_ok h k
  cases hd : d.get k with
  | none => rw [hd] at this; simp only at this; rw [this]; simp
  | some y => rw [hd] at this; simp only at this; rw [this]; simp

/-- backwards through an operation made on a fresh layer that is then merged -/
theorem Cap.back {c t : Cache} {d w : Delta} {op : Op} {u : Undo} (h1 : step (Cache.new c.view) op = .ok (t, u))
    (h2 : c.delta.mergeWithDelta t.delta = .ok (d, w)) (h : Cap { c with delta := d }) : Cap c := by
  intro q b hq hb
  simp only [Delta.mergeWithDelta, bind_eq_ok, lift_ok, pure_eq_ok, Prod.mk.injEq] at h2
  obtain ⟨pb, e1, sh, e2, db, e3, ⟨pd, pdu⟩, e4, ⟨dd, ddu⟩, e5, rfl, -⟩ := h2
  have hp := step_parent h1
  rcases step_dead (q := q) h1 (by rw [new_view]; exact hq) with h0 | ⟨h3, h4⟩
  · rw [new_view] at h0
    obtain ⟨p, k1, k2, -⟩ := getBal_ok.1 h0
    rw [hb] at k1; cases k1
    rw [← k2, I128_eq]; norm_num
  · have h5 : getVal (getVal c.parent.poolData c.delta.poolData) t.delta.poolData q = .ok none := by
      have : t.view.poolData q = getVal t.parent.poolData t.delta.poolData q := rfl
      rw [this, hp] at h3
      exact h3
    rw [getVal_merge e4] at h5
    have h6 := h q b h5 hb
    dsimp only at h6
    rw [dval_merged e1] at h6
    have h7 : dval ((Cache.new c.view).delta.poolBalances.get q) = 0 := by
      simp [Cache.new, Delta.empty]
    omega

end Verif.Pos

namespace Verif.Tokens
open Verif Verif.Accounting

/-- what was recorded for supplies is below the limit -/
def Cap (c : Cache) : Prop := ∀ id b, c.parent.supply id = .ok b → (b : Int) + dval (c.delta.supply.get id) < I128

theorem Cap.back {c c' : Cache} {op : Op} {u : Undo} (hs : step c op = .ok (c', u)) (hw : ∀ id b, c.parent.supply id = .ok b →
    (b : Int) < I128) (h : Cap c') : Cap c := by
  intro id b hb
  rcases step_cases hs with ⟨i, cur, new, data, du, ht, h1, h2, rfl, h3, h3', h4⟩ |
    ⟨i, a, d, supply, rfl, rfl, h1, h2, h3, h4, rfl⟩ | ⟨i, a, d, x, supply, rfl, rfl, h1, h2, h3, h4, h5, h6, rfl⟩
  · exact h id b hb
  · have := h id b hb
    dsimp only at this
    rw [dval_add h4] at this
    split at this <;> omega
  · by_cases e : id = i
    · subst e
      obtain ⟨p, k1, k2, k3⟩ := getBal_ok.1 h4
      rw [hb] at k1; cases k1
      cases hc : c.delta.supply.get id with
      | none => simpa using hw id b hb
      | some y => rw [hc] at k2 k3; have := (k3 rfl).2; omega
    · have := h id b hb
      dsimp only at this
      rw [dval_sub h6, if_neg e] at this
      omega

end Verif.Tokens

namespace Verif.Verifier
open Verif Verif.Accounting
open Verif.Utxo (OutPoint Coin Output txOut rewardOut LInv)

/-- both bounds, and supplies below the verifier in range -/
structure Up (v : TxVerifier) : Prop where
  pos : Pos.Cap v.pos
  tok : Tokens.Cap v.tokens

/-- stored supplies are in range -/
def SupplyOk (v : TxVerifier) : Prop := ∀ id b, v.tokens.parent.supply id = .ok b → (b : Int) < I128

/-- a step that changes nothing below and from which the bounds can be followed backwards -/
structure Back (v v' : TxVerifier) : Prop where
  parent : v'.tokens.parent = v.tokens.parent
  up : SupplyOk v → Up v' → Up v

theorem Back.refl (v : TxVerifier) : Back v v := ⟨rfl, fun _ h => h⟩

theorem Back.trans {v v1 v2 : TxVerifier} (h : Back v v1) (h' : Back v1 v2) : Back v v2 :=
  ⟨h'.parent.trans h.parent, fun hs hu => h.up hs (h'.up (by unfold SupplyOk; rw [h.parent]; exact hs) hu)⟩

theorem Back.same {v v' : TxVerifier} (hp : v'.pos = v.pos) (ht : v'.tokens = v.tokens) : Back v v' :=
  ⟨by rw [ht], fun _ h => ⟨hp ▸ h.pos, ht ▸ h.tok⟩⟩

theorem posStep_back {v v' : TxVerifier} {op : Pos.Op} {u : Option Pos.Undo} (h : posStep v op = .ok (v', u)) : Back v v' := by
  simp only [posStep, bind_eq_ok, mapErr_ok, pure_eq_ok, Prod.exists, Prod.mk.injEq] at h
  obtain ⟨c, w, h1, d, x, h2, rfl, -⟩ := h
  exact ⟨rfl, fun _ hu => ⟨Pos.Cap.back h1 h2 hu.pos, hu.tok⟩⟩

theorem tokStep_back {v v' : TxVerifier} {op : Tokens.Op} {u : Option Tokens.Undo} (h : tokStep v op = .ok (v', u)) :
    Back v v' := by
  simp only [tokStep, bind_eq_ok, mapErr_ok, pure_eq_ok, Prod.exists, Prod.mk.injEq] at h
  obtain ⟨c, w, h1, rfl, -⟩ := h
  exact ⟨Tokens.step_parent h1, fun hs hu => ⟨hu.pos, Tokens.Cap.back h1 hs hu.tok⟩⟩

theorem ordStep_back {v v' : TxVerifier} {op : Orders.Op} {u : Option Orders.Undo} (h : ordStep v op = .ok (v', u)) :
    Back v v' := by
  simp only [ordStep, bind_eq_ok, mapErr_ok, pure_eq_ok, Prod.exists, Prod.mk.injEq] at h
  obtain ⟨c, w, h1, rfl, -⟩ := h
  exact .same rfl rfl

theorem back_spendNonce {v v' : TxVerifier} {a : Account} {n : Nat} (h : spendNonce v a n = .ok v') : Back v v' := by
  obtain ⟨-, -, rfl, -⟩ := spendNonce_spec h; exact .same rfl rfl

theorem back_posInput {env : Env} {v : TxVerifier} {i : Input} {v' : TxVerifier} {o} (h : posInput env v i = .ok (v', o)) :
    Back v v' := by
  cases i with
  | utxo op =>
    simp only [posInput, posUtxo, bind_eq_ok, okOr_eq_ok] at h
    obtain ⟨coin, -, h2⟩ := h
    split at h2
    · exact posStep_back h2
    · cases h2; exact .refl _
  | account nonce d a =>
    simp only [posInput, bind_eq_ok] at h
    obtain ⟨v1, h1, h2⟩ := h
    exact (back_spendNonce h1).trans (posStep_back h2)
  | token n c => cases h; exact .refl _
  | orderV0 n c => cases h; exact .refl _
  | order c => cases h; exact .refl _

theorem back_posOutput {env : Env} {tx : Tx} {v : TxVerifier} {x : Out} {v' : TxVerifier} {o}
    (h : posOutput env tx v x = .ok (v', o)) : Back v v' := by
  unfold posOutput at h
  split at h
  · split at h
    · exact posStep_back h
    · cases h
  · exact posStep_back h
  · exact posStep_back h
  · cases h; exact .refl _

theorem back_tokInput {tx : Tx} {v : TxVerifier} {i : Input} {v' : TxVerifier} {o} (h : tokInput tx v i = .ok (v', o)) :
    Back v v' := by
  cases i with
  | token nonce cmd =>
    simp only [tokInput, bind_eq_ok] at h
    obtain ⟨v1, h1, op, -, h2⟩ := h
    refine (back_spendNonce h1).trans ?_
    cases op with
    | none => cases h2; exact .refl _
    | some op => exact tokStep_back h2
  | utxo op => cases h; exact .refl _
  | account nonce d a => cases h; exact .refl _
  | orderV0 n c => cases h; exact .refl _
  | order c => cases h; exact .refl _

theorem back_tokOutput {v : TxVerifier} {x : Out} {v' : TxVerifier} {o} (h : tokOutput v x = .ok (v', o)) : Back v v' := by
  unfold tokOutput at h
  split at h
  · exact tokStep_back h
  · cases h; exact .refl _

theorem back_ordInput {v : TxVerifier} {i : Input} {v' : TxVerifier} {o} (h : ordInput v i = .ok (v', o)) : Back v v' := by
  cases i with
  | orderV0 nonce cmd =>
    simp only [ordInput, bind_eq_ok] at h
    obtain ⟨v1, h1, h2⟩ := h
    exact (back_spendNonce h1).trans (ordStep_back h2)
  | order c => exact ordStep_back h
  | utxo op => cases h; exact .refl _
  | account nonce d a => cases h; exact .refl _
  | token n c => cases h; exact .refl _

theorem back_ordOutput {v : TxVerifier} {x : Out} {v' : TxVerifier} {o} (h : ordOutput v x = .ok (v', o)) : Back v v' := by
  unfold ordOutput at h
  split at h
  · exact ordStep_back h
  · cases h; exact .refl _

theorem back_collect {A U : Type} {f : TxVerifier → A → Except Err (TxVerifier × Option U)}
    (hf : ∀ v x v' o, f v x = .ok (v', o) → Back v v') {xs : List A} {v v' : TxVerifier} {us : List U}
    (h : collect f v xs = .ok (v', us)) : Back v v' :=
  collect_spec (Good := fun _ => True) (P := fun v _ _ v' => Back v v') Back.refl
    (fun {v v1 v2 x o xs us} hx _ hp => (hf _ _ _ _ hx).trans hp) h (fun _ _ => trivial)

theorem back_storePos {v v' : TxVerifier} {src : Src} {tx : Tx} {us} (h : storePosUndo v src tx us = .ok v') : Back v v' := by
  unfold storePosUndo at h
  split at h
  · cases h; exact .refl _
  · simp only [bind_eq_ok, mapErr_ok, pure_eq_ok] at h
    obtain ⟨_, -, rfl⟩ := h; exact .same rfl rfl

theorem back_storeTok {v v' : TxVerifier} {src : Src} {tx : Tx} {us} (h : storeTokUndo v src tx us = .ok v') : Back v v' := by
  unfold storeTokUndo at h
  split at h
  · cases h; exact .refl _
  · simp only [bind_eq_ok, mapErr_ok, pure_eq_ok] at h
    obtain ⟨_, -, rfl⟩ := h; exact .same rfl rfl

theorem back_storeOrd {v v' : TxVerifier} {src : Src} {tx : Tx} {us} (h : storeOrdUndo v src tx us = .ok v') : Back v v' := by
  unfold storeOrdUndo at h
  split at h
  · cases h; exact .refl _
  · simp only [bind_eq_ok, mapErr_ok, pure_eq_ok] at h
    obtain ⟨_, -, rfl⟩ := h; exact .same rfl rfl

theorem back_connectPos {env : Env} {src : Src} {v v' : TxVerifier} {tx : Tx} (h : connectPos env src v tx = .ok v') :
    Back v v' := by
  simp only [connectPos, bind_eq_ok, Prod.exists] at h
  obtain ⟨v1, us1, h1, v2, us2, h2, _, -, h3⟩ := h
  exact ((back_collect (fun _ _ _ _ => back_posInput) h1).trans (back_collect (fun _ _ _ _ => back_posOutput) h2)).trans
    (back_storePos h3)

theorem back_connectTokens {env : Env} {src : Src} {v v' : TxVerifier} {tx : Tx} (h : connectTokens env src v tx = .ok v') :
    Back v v' := by
  simp only [connectTokens, bind_eq_ok, Prod.exists] at h
  obtain ⟨_, -, v1, us1, h1, v2, us2, h2, h3⟩ := h
  exact ((back_collect (fun _ _ _ _ => back_tokInput) h1).trans (back_collect (fun _ _ _ _ => back_tokOutput) h2)).trans
    (back_storeTok h3)

theorem back_connectOrders {src : Src} {v v' : TxVerifier} {tx : Tx} (h : connectOrders src v tx = .ok v') :
    Back v v' := by
  simp only [connectOrders, bind_eq_ok, Prod.exists] at h
  obtain ⟨v1, us1, h1, v2, us2, h2, h3⟩ := h
  exact ((back_collect (fun _ _ _ _ => back_ordInput) h1).trans (back_collect (fun _ _ _ _ => back_ordOutput) h2)).trans
    (back_storeOrd h3)

theorem back_connectUtxo {src : Src} {v v' : TxVerifier} {tx : Tx} (h : connectUtxo src v tx = .ok v') : Back v v' := by
  simp only [connectUtxo, bind_eq_ok, mapErr_ok, pure_eq_ok, Prod.exists] at h
  obtain ⟨l, u, -, c, -, rfl⟩ := h
  exact .same rfl rfl

theorem back_connectTx {env : Env} {src : Src} {v v' : TxVerifier} {tx : Tx} {fee : Nat}
    (h : connectTx env src v tx = .ok (v', fee)) : Back v v' := by
  simp only [connectTx, bind_eq_ok, pure_eq_ok, Prod.mk.injEq] at h
  obtain ⟨_, -, v1, h1, _, -, v2, h2, v3, h3, v4, h4, v5, h5, rfl, -⟩ := h
  obtain ⟨a, b, rfl⟩ := register_eq h1
  refine Back.trans (v1 := { v with nfts := a, nftByTx := b }) (.same rfl rfl) ?_
  exact ((back_connectPos h2).trans (back_connectTokens h3)).trans ((back_connectOrders h4).trans (back_connectUtxo h5))

theorem back_connectTxs {env : Env} {src : Src} : ∀ (txs : List Tx) {v v' : TxVerifier} {fees : List Nat},
    connectTxs env src v txs = .ok (v', fees) → Back v v'
  | [], v, v', fees, h => by cases h; exact .refl _
  | tx :: txs, v, v', fees, h => by
    simp only [connectTxs, bind_eq_ok, pure_eq_ok, Prod.exists, Prod.mk.injEq] at h
    obtain ⟨v1, fee, h1, v2, fees', h2, rfl, rfl⟩ := h
    exact (back_connectTx h1).trans (back_connectTxs txs h2)

theorem back_rewardUtxo {v v' : TxVerifier} {b : Block} (h : rewardUtxo v b = .ok v') : Back v v' := by
  simp only [rewardUtxo, bind_eq_ok, mapErr_ok, Prod.exists] at h
  obtain ⟨l, u, -, h⟩ := h
  cases u with
  | none => cases h; exact .same rfl rfl
  | some u =>
    simp only [bind_eq_ok, mapErr_ok, pure_eq_ok] at h
    obtain ⟨c, -, rfl⟩ := h; exact .same rfl rfl

theorem back_rewardPos {env : Env} {v v' : TxVerifier} {b : Block} {fees : List Nat} (h : rewardPos env v b fees = .ok v') :
    Back v v' := by
  unfold rewardPos at h
  split at h
  · simp only [bind_eq_ok, okOr_eq_ok, mapErr_ok, pure_eq_ok, Prod.exists] at h
    obtain ⟨p, -, v1, us, h2, c, -, rfl⟩ := h
    exact (back_collect (fun _ _ _ _ => posStep_back) h2).trans (.same rfl rfl)
  · cases h; exact .refl _

/-! ### In the end -/

theorem cap_of_flush {K : Type} [LinearOrder K] {store r : BMap K Nat} {d u : AmountColl K}
    (h : dbMergeBalances store d = .ok (r, u)) (hs : ∀ k, (bal store k : Int) < I128) (k : K) :
    (bal store k : Int) + dval (d.get k) < I128 := by
  have h1 := getBal_flush (E := Pos.Err) (wrap := .accounting) h k
  obtain ⟨p, e1, e2, e3⟩ := getBal_ok.1 h1
  cases e1
  cases hd : d.get k with
  | none => simpa using hs k
  | some x => rw [hd] at e2 e3; have := (e3 rfl).2; omega

/-- a verifier whose changes could be stored -/
theorem up_of_flush {l l' : Ledger} {v : TxVerifier} (h : l.flush v = .ok l') (hw : l.WF) (hp : v.pos.parent = l.pos.view)
    (ht : v.tokens.parent = l.tokens.view) : Up v ∧ SupplyOk v := by
  simp only [Ledger.flush, bind_eq_ok, mapErr_ok, pure_eq_ok, Prod.exists] at h
  obtain ⟨_, -, _, -, _, -, _, -, p, _, h1, _, -, t, _, h2, -⟩ := h
  simp only [Pos.DB.mergeWithDelta, bind_eq_ok, Pos.lift_ok, pure_eq_ok, Prod.exists] at h1
  obtain ⟨_, _, -, _, _, -, pb, pbu, h1, -⟩ := h1
  simp only [Tokens.DB.mergeWithDelta, bind_eq_ok, Tokens.lift_ok, pure_eq_ok, Prod.exists] at h2
  obtain ⟨_, _, -, sp, spu, h2, -⟩ := h2
  refine ⟨⟨fun q b _ hb => ?_, fun id b hb => ?_⟩, fun id b hb => ?_⟩
  · rw [hp] at hb
    cases hb
    exact cap_of_flush h1 (bal_lt hw.poolBal) q
  · rw [ht] at hb
    cases hb
    exact cap_of_flush h2 (bal_lt hw.supply) id
  · rw [ht] at hb
    cases hb
    exact bal_lt hw.supply id

end Verif.Verifier
