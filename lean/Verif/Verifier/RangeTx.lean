import Verif.Verifier.RangeSteps

/-!
# A transaction stays in range

The coins a transaction moves into staking were there before; so if twice all coins are below the limit of a balance, no
balance of staking can leave its range.
-/

namespace Verif.Verifier
open Verif Verif.Accounting
open Verif.Utxo (OutPoint Coin Output txOut rewardOut LInv)
open Verif.Accumulator (Cur TxOutput val)

/-! ### Withdrawals -/

def accWithdraws : Accumulator.TxInput × Option TxOutput → Option (Nat × Nat)
  | (.delegation d n, _) => some (d, n)
  | _ => none

theorem inputStep_pos {cfg : Accumulator.Config} {st st' : Accumulator.St} {x : Accumulator.TxInput × Option TxOutput}
    (h : Accumulator.inputStep cfg st x = .ok st') : Pos.spendInputs st.pos (accWithdraws x).toList = .ok st'.pos := by
  have fee : ∀ {c n} {st st' : Accumulator.St}, Accumulator.addDeduct st c n = .ok st' → st'.pos = st.pos := fun h =>
    (Accumulator.addDeduct_ok h).2.1
  obtain ⟨i, u⟩ := x
  cases i with
  | utxo =>
    simp only [Accumulator.inputStep, bind_eq_ok, okOr_eq_ok, pure_eq_ok] at h
    obtain ⟨o, rfl, a, h1, rfl⟩ := h
    rfl
  | delegation d n =>
    simp only [Accumulator.inputStep, Accumulator.inputDelegation, bind_eq_ok, Accumulator.mapError_eq_ok, pure_eq_ok] at h
    obtain ⟨p, h1, a, h2, rfl⟩ := h
    simp only [accWithdraws, Option.toList, Pos.spendInputs, bind_eq_ok]
    exact ⟨p, h1, rfl⟩
  | mint id n =>
    simp only [Accumulator.inputStep, bind_eq_ok] at h
    obtain ⟨s1, h1, h2⟩ := h
    simp only [Accumulator.inputMint, bind_eq_ok, Accumulator.mapError_eq_ok, pure_eq_ok] at h1
    obtain ⟨⟨t, _⟩, _, _, _, w, h3, rfl⟩ := h1
    rw [fee h2]; rfl
  | concludeOrder id =>
    simp only [Accumulator.inputStep, bind_eq_ok] at h
    obtain ⟨s1, h1, h2⟩ := h
    simp only [Accumulator.inputConclude, bind_eq_ok, Accumulator.mapError_eq_ok, okOr_eq_ok, pure_eq_ok] at h1
    obtain ⟨_, _, _, _, _, _, _, _, ⟨_, _⟩, _, _, _, _, _, _, _, _, _, _, _, _, _, _, _, _, _, rfl⟩ := h1
    rw [fee h2]; rfl
  | fillOrder id n =>
    simp only [Accumulator.inputStep, bind_eq_ok] at h
    obtain ⟨⟨s1, c⟩, h1, h2⟩ := h
    simp only [Accumulator.inputFill, bind_eq_ok, Accumulator.mapError_eq_ok, okOr_eq_ok, pure_eq_ok, Prod.mk.injEq] at h1
    obtain ⟨_, _, _, _, _, _, ⟨_, _⟩, _, _, _, _, _, _, _, _, _, _, _, rfl, -⟩ := h1
    rw [fee h2]; rfl
  | freezeOrder id => cases h; rfl
  | unmint id => rw [fee h]; rfl
  | lockSupply id => rw [fee h]; rfl
  | freezeToken id => rw [fee h]; rfl
  | unfreezeToken id => rw [fee h]; rfl
  | changeAuthority id => rw [fee h]; rfl
  | changeMetadataUri id => rw [fee h]; rfl

theorem spendInputs_append {c c1 c2 : Pos.Cache} {a b : List (Nat × Nat)} (h1 : Pos.spendInputs c a = .ok c1)
    (h2 : Pos.spendInputs c1 b = .ok c2) : Pos.spendInputs c (a ++ b) = .ok c2 := by
  induction a generalizing c with
  | nil => cases h1; exact h2
  | cons x a ih =>
    obtain ⟨d, n⟩ := x
    simp only [Pos.spendInputs, bind_eq_ok] at h1
    obtain ⟨c', e1, e2⟩ := h1
    simp only [List.cons_append, Pos.spendInputs, bind_eq_ok]
    exact ⟨c', e1, ih e2⟩

theorem inputLoop_pos {cfg : Accumulator.Config} : ∀ {xs : List (Accumulator.TxInput × Option TxOutput)}
    {st st' : Accumulator.St}, Accumulator.inputLoop cfg st xs = .ok st' →
    Pos.spendInputs st.pos (xs.filterMap accWithdraws) = .ok st'.pos
  | [], st, st', h => by cases h; rfl
  | x :: xs, st, st', h => by
    simp only [Accumulator.inputLoop, List.foldlM_cons, bind_eq_ok] at h
    obtain ⟨s1, h1, h2⟩ := h
    have e1 := inputStep_pos h1
    have e2 := inputLoop_pos (xs := xs) h2
    have e : (x :: xs).filterMap accWithdraws = (accWithdraws x).toList ++ xs.filterMap accWithdraws := by
      rw [List.filterMap_cons]; cases accWithdraws x <;> rfl
    rw [e]
    exact spendInputs_append e1 e2

/-- a transaction does not withdraw more from a delegation than it has -/
theorem withdrawn_le {cfg : Accumulator.Config} {ov : Orders.View} {t : Pos.Cache} {s : Pos.Sv} {tv : Tokens.View}
    {is : List Input} {us : List (Option TxOutput)} {a : Accumulator.Acc} (ht : Pos.Rep t s)
    (h : Accumulator.fromInputs cfg ov t.view tv (is.map Input.toAcc) us = .ok a) (d : Nat) :
    Pos.withdrawn d (is.filterMap Input.withdraws) ≤ s.delBal d := by
  simp only [Accumulator.fromInputs, bind_eq_ok, ensure_eq_ok, pure_eq_ok] at h
  obtain ⟨_, hl, st, h1, -⟩ := h
  have h2 := inputLoop_pos h1
  have e : ((is.map Input.toAcc).zip us).filterMap accWithdraws = is.filterMap Input.withdraws := by
    clear h1 h2
    rw [List.length_map] at hl
    induction is generalizing us with
    | nil => rfl
    | cons i is ih =>
      cases us with
      | nil => simp at hl
      | cons u us =>
        have ih := @ih us (by simpa using hl)
        rw [List.map_cons, List.zip_cons_cons, List.filterMap_cons, List.filterMap_cons, ih]
        have : accWithdraws (i.toAcc, u) = i.withdraws := by
          cases i with
          | utxo => rfl
          | account => rfl
          | token n c => cases c <;> rfl
          | orderV0 n c => cases c <;> rfl
          | order c => cases c <;> rfl
        rw [this]
  rw [e] at h2
  exact (Pos.C07_no_overspend t.view _ _ h2 d).1 _ (ht.vDelBal d)

/-! ### All coins -/

/-- the coins a state holds, whichever of them are counted, are at most `B` -/
def Bounded (read : Nat → TxOutput) (s : St) (B : Int) : Prop :=
  ∀ (K : Finset OutPoint) (F G O : Finset Nat), ∑ k ∈ K, utxoPart read 0 s.utxo k + ∑ p ∈ F, ownPart s.pos.poolData p +
    ∑ d ∈ G, delPart s.pos.delBal d + ∑ o ∈ O, ordPart 0 s.orders o ≤ B

theorem Bounded.under {read : Nat → TxOutput} {s : St} {B : Int} (h : Bounded read s B) : Under s.pos B := by
  intro F G
  have := h ∅ F G ∅
  simpa using this

theorem Bounded.mono {read : Nat → TxOutput} {s : St} {B C : Int} (h : Bounded read s B) (hBC : B ≤ C) : Bounded read s C :=
  fun K F G O => (h K F G O).trans hBC

theorem utxoPart_nonneg (read : Nat → TxOutput) (c : Cur) (U : OutPoint → Option Coin) (k : OutPoint) :
    0 ≤ utxoPart read c U k := by
  unfold utxoPart
  cases U k
  · exact le_refl _
  · exact Int.natCast_nonneg _

theorem ordPart_nonneg {s : Orders.Sv} (h : s.Sound) (c : Cur) (id : Nat) : 0 ≤ ordPart c s id := by
  unfold ordPart
  have := h id
  unfold Orders.Sound at this
  cases hd : s.data id with
  | none => exact le_refl _
  | some d =>
    rw [hd] at this
    obtain ⟨oa, og, h1, h2, -, -, -, -, h3, -⟩ := this
    simp only [Option.map_some, Option.getD_some, orderHolds, h1]
    split_ifs <;> omega

theorem held_nonneg {v : Orders.View} (h : Orders.SoundView v) (c : Cur) (id : Nat) : 0 ≤ Accumulator.held v c id := by
  obtain ⟨od, a, g, e1, e2, e3, h4⟩ := h id
  unfold Accumulator.held
  rw [e1, e2, e3]
  cases od with
  | none => exact le_refl _
  | some d =>
    obtain ⟨oa, og, h1, h2, -, -, -, -, h3, -⟩ := h4
    simp only [h1, Option.getD_some]
    split_ifs <;> omega

theorem Bounded.moved {read : Nat → TxOutput} {s s' : St} {B δ : Int} (h : Bounded read s B) (hm : Moved read 0 s s' δ)
    (hs : s'.orders.Sound) : Bounded read s' (B + δ) := by
  obtain ⟨a, p, d, o, h1, h2, h3, h4, rfl⟩ := hm
  intro K F G O
  obtain ⟨K', k1⟩ := h1.le (utxoPart_nonneg _ _ _) K
  obtain ⟨F', k2⟩ := h2.le (ownPart_nonneg _) F
  obtain ⟨G', k3⟩ := h3.le (delPart_nonneg _) G
  obtain ⟨O', k4⟩ := h4.le (ordPart_nonneg hs 0) O
  have := h K' F' G' O'
  rw [if_pos rfl]
  omega

theorem sums_le_sums {A : Type} {f g : A → Int} {l : List A} (h : ∀ a ∈ l, f a ≤ g a) : (l.map f).sum ≤ (l.map g).sum := by
  induction l with
  | nil => simp
  | cons x l ih =>
    have h1 := h x (by simp)
    have h2 := ih fun a ha => h a (by simp [ha])
    simp only [List.map_cons, List.sum_cons]
    omega

theorem sums_nonneg {A : Type} {f : A → Int} {l : List A} (h : ∀ a ∈ l, 0 ≤ f a) : 0 ≤ (l.map f).sum := by
  have := sums_le_sums (f := fun _ => 0) h
  simpa using this

/-- what the outputs of a transaction move into staking was held before -/
theorem tx_gains {env : Env} {read : Nat → TxOutput} {cfg : Accumulator.Config} {v : TxVerifier} {tx : Tx} {s : St}
    {s1 : Pos.Sv} {B : Int} {ai ao fee : Accumulator.Acc} (hV : VRep v s) (hB : Bounded read s B)
    (hpool : ∀ n, env.poolOf n = poolIn (read n))
    (a1 : Accumulator.fromInputs cfg v.views.orders v.views.pos v.views.tokens (tx.inputs.map Input.toAcc)
      (tx.inputs.map (spent read v.views)) = .ok ai)
    (a2 : Accumulator.fromOutputs cfg (tx.outputs.map fun o => read o.out.content) = .ok ao)
    (a3 : Accumulator.satisfyWith ai ao = .ok fee)
    (hk : ∀ i ∈ tx.inputs, ∀ o, spent read v.views i = some o → Spendable o) (hnd : tx.spends.Nodup)
    (hd : ∀ o ∈ tx.outputs, Fits o.effect (read o.out.content) o.out.inUtxoSet)
    (hc : Chain posM s.pos (tx.inputs.flatMap (posInOps env s.utxo)) s1)
    (hsp : ∀ i ∈ tx.inputs, ∀ k, i.outpoint = some k → s.utxo k ≠ none) :
    ((tx.outputs.flatMap posOutOps).map gain).sum ≤ B := by
  have hsv : Orders.SoundView v.orders.view := sound_view hV.orders hV.sound
  obtain ⟨oc, us, c1, c2⟩ := Accumulator.C20_transaction_conserves _ _ _ _ _ _ _ _ _ _ hsv a1 a2 a3
  have hoc := Orders.C13_sound_invariant _ hsv _ _ _ c1
  obtain ⟨S, hS⟩ : ∃ S : Finset Nat, ∀ x ∈ tx.inputs.map Input.toAcc, ∀ id, Accumulator.touches id x → id ∈ S := by
    refine ⟨((tx.inputs.map Input.toAcc).flatMap fun x => match x with
      | .concludeOrder i => [i]
      | .fillOrder i _ => [i]
      | _ => []).toFinset, ?_⟩
    intro x hx id hid
    rw [List.mem_toFinset, List.mem_flatMap]
    refine ⟨x, hx, ?_⟩
    cases x <;> simp only [Accumulator.touches] at hid <;> simp [hid]
  have cons := c2 0 S hS
  have hin : ∀ i ∈ tx.inputs, _ := fun i hi => input_value (env := env) (read := read) (U := s.utxo)
    (w := v.views) (s := s.pos) hpool hV.utxo (ownerShare_eq hV.pos) i 0 (hsp i hi) (hk i hi)
  have e1 := sum_congr' hin
  simp only [if_true, sub_eq_add_neg, sum_add] at e1
  rw [zip_maps, List.map_map, sum_nat, List.map_map, List.map_map] at cons
  simp only [Function.comp_def] at cons
  -- outputs
  have g1 : ((tx.outputs.flatMap posOutOps).map gain).sum ≤
      (tx.outputs.map fun o => (Accumulator.placed cfg 0 (read o.out.content) : Int)).sum := by
    rw [sum_flatMap]
    refine sums_le_sums fun o ho => ?_
    have := output_value cfg o 0 (hd o ho)
    rw [if_pos rfl] at this
    have z1 : 0 ≤ outWorth read 0 o.out := by unfold outWorth; split <;> omega
    have z2 : 0 ≤ giveOf 0 o := by unfold giveOf; split <;> omega
    have z3 : nftBy 0 (read o.out.content) = 0 := by unfold nftBy; split <;> simp
    have z4 : ((posOutOps o).map gain).sum = ((posOutOps o).map (poolGain fun _ => Option.none)).sum +
      ((posOutOps o).map delGain).sum := sum_add _ _ _
    rw [z3] at this
    omega
  -- inputs
  obtain ⟨shP, shD⟩ := pos_in (f := s.pos.poolData) hc ⟨_, hV.pos⟩ (posIn_isIn _ _ _) (fun p => Or.inl rfl)
  obtain ⟨F, hF⟩ := shP.taken (ownPart_nonneg _)
  obtain ⟨G, hG⟩ := shD.taken (delPart_nonneg _)
  rw [sum_flatMap] at hF hG
  have hz : (tx.inputs.map fun i => (mintedBy 0 i : Int)).sum = 0 := by
    rw [sum_congr' (g := fun _ => (0 : Int)) fun i _ => ?_]
    · simp
    · unfold mintedBy; split <;> simp
  have hneg : ∀ (f g : Input → Int), (tx.inputs.map fun a => -(f a + g a)).sum =
      - ((tx.inputs.map f).sum + (tx.inputs.map g).sum) := by
    intro f g
    generalize tx.inputs = is
    induction is with
    | nil => rfl
    | cons x l ih => simp only [List.map_cons, List.sum_cons, ih]; omega
  rw [hneg, hz] at e1
  have hU : (tx.inputs.map fun i => (i.outpoint.map (utxoPart read 0 s.utxo)).getD 0).sum =
      ∑ k ∈ tx.spends.toFinset, utxoPart read 0 s.utxo k := by
    rw [List.sum_toFinset _ hnd, Tx.spends, sum_filterMap]
  have hO : ∑ id ∈ S, Accumulator.held v.orders.view 0 id = ∑ id ∈ S, ordPart 0 s.orders id :=
    Finset.sum_congr rfl fun id _ => held_eq hV.orders 0 id
  have hO2 : 0 ≤ ∑ id ∈ S, Accumulator.held oc.view 0 id := Finset.sum_nonneg fun id _ => held_nonneg hoc 0 id
  have hfee : 0 ≤ (tx.inputs.map fun i => (Accumulator.commandFee cfg 0 i.toAcc : Int)).sum :=
    sums_nonneg fun _ _ => Int.natCast_nonneg _
  have hb := hB tx.spends.toFinset F G S
  rw [hU] at e1
  rw [hO] at cons
  have hf2 : (0 : Int) ≤ fee.total 0 := Int.natCast_nonneg _
  linarith

/-- **one transaction stays in range** -/
theorem connectTx_range {env : Env} {read : Nat → TxOutput} {cfgOf : Src → Accumulator.Config}
    {feeOf : Nat → Accumulator.Acc} {subsidy : Nat → Nat} (hg : ValueGuards env read cfgOf feeOf subsidy)
    {src : Src} {v v' : TxVerifier} {tx : Tx} {fee : Nat} {s : St} {B : Int} {ps : List Nat}
    (h : connectTx env src v tx = .ok (v', fee)) (hV : VRep v s) (hp : ∀ j, s.utxo (txOut tx.id j) = none)
    (hd : ∀ o ∈ tx.outputs, Fits o.effect (read o.out.content) o.out.inUtxoSet)
    (hc : Pos.Coh s.pos) (hB : Bounded read s B) (hlt : 2 * B < I128)
    (hn : NewPools s.pos ((tx.outputs.flatMap posOutOps).flatMap opPools ++ ps))
    (hb : Orders.SoundView v.base.orders) (hup : Up v') (hso : SupplyOk v) :
    (∀ w ∈ txTrace env src v tx, Readable w) ∧ ∃ s', VRep v' s' ∧ Pos.Coh s'.pos ∧ NewPools s'.pos ps := by
  have hnd : tx.spends.Nodup := by
    have hS : Shows v s.utxo s.orders.data := ⟨hV.uinv, hV.utxo, hV.orders.data, hV.ordp⟩
    obtain ⟨_, _, _, -, h1, -⟩ := connectTx_does hS h hp
    exact h1
  have h' := h
  simp only [connectTx, bind_eq_ok, okOr_eq_ok, ensure_eq_ok, pure_eq_ok, Prod.mk.injEq] at h'
  obtain ⟨_, hck, v1, h1, f, hf, v2, h2, v3, h3, v4, h4, v5, h5, rfl, rfl⟩ := h'
  have b2 := back_connectPos h2
  have b3 := back_connectTokens h3
  have b4 := back_connectOrders h4
  have b5 := back_connectUtxo h5
  have b1 : Back v v1 := by
    obtain ⟨a, b, rfl⟩ := register_eq h1; exact .same rfl rfl
  have so1 : SupplyOk v1 := by unfold SupplyOk; rw [b1.parent]; exact hso
  have so2 : SupplyOk v2 := by unfold SupplyOk; rw [b2.parent]; exact so1
  have so3 : SupplyOk v3 := by unfold SupplyOk; rw [b3.parent]; exact so2
  have so4 : SupplyOk v4 := by unfold SupplyOk; rw [b4.parent]; exact so3
  have up4 := b5.up so4 hup
  have up3 := b4.up so3 up4
  have up2 := b3.up so2 up3
  obtain ⟨na, nb, rfl, r1, hnft⟩ := register_spec h1 hV
  have es : (s.register tx src.block).utxo = s.utxo ∧ (s.register tx src.block).pos = s.pos := by
    unfold St.register
    split <;> exact ⟨rfl, rfl⟩
  generalize s.register tx src.block = t1 at r1 es
  obtain ⟨eu, ep⟩ := es
  obtain ⟨ai, ao, a1, a2, a3⟩ := hg.adds _ _ _ _ hf
  have hkinds := hg.kinds _ _ _ _ hf
  have ev : TxVerifier.views { v with nfts := na, nftByTx := nb } = v.views := rfl
  rw [ev] at a1 hkinds
  -- staking
  have hP : (∀ w ∈ posTrace env { v with nfts := na, nftByTx := nb } tx, Readable w) ∧
      ∃ s2 nx, VRep v2 { t1 with pos := s2, next := nx } ∧ Pos.Coh s2 ∧ NewPools s2 ps := by
    have h2' := h2
    simp only [connectPos, bind_eq_ok, Prod.exists] at h2'
    obtain ⟨w1, us1, k1, w2, us2, k2, _, -, k3⟩ := h2'
    obtain ⟨g1, p, n, s1, nx, e1, q1, cc1, u1, n1⟩ := in_inputs k1 r1 (by rw [ep]; exact hc) (by rw [ep]; exact hB.under)
      (by rw [ep]; exact hn) (by rw [ep]; exact withdrawn_le hV.pos a1)
    obtain ⟨p', n', s1', nx', e1', q1', ch, hsp⟩ := posInputs_run k1 g1 r1
    obtain rfl : s1' = s1 := q1'.pos.inj q1.pos
    rw [eu, ep] at ch
    rw [eu] at hsp
    have hgain := tx_gains hV hB hg.pool a1 a2 a3 hkinds hnd hd ch hsp
    have c1 := back_collect (fun _ _ _ _ => back_posInput) k1
    have c2 := back_collect (fun _ _ _ _ => back_posOutput) k2
    have c3 := back_storePos k3
    have sw1 : SupplyOk w1 := by unfold SupplyOk; rw [c1.parent]; exact so1
    have sw2 : SupplyOk w2 := by unfold SupplyOk; rw [c2.parent]; exact sw1
    obtain ⟨g2, p2, s2, e2, q2, cc2, n2⟩ := out_outputs k2 q1 cc1 u1 (by omega) (c3.up sw2 up2) sw1 n1 (by
      intro p d hm
      rw [List.mem_flatMap] at hm
      obtain ⟨o, ho, hm⟩ := hm
      have hfit := hd o ho
      unfold posOutOps at hm
      cases he : o.effect <;> rw [he] at hm <;> simp at hm
      obtain ⟨rfl, rfl⟩ := hm
      rw [he] at hfit
      obtain ⟨_, -, -, hr, -⟩ := hfit
      exact hr)
    refine ⟨?_, s2, nx, ?_, cc2, n2⟩
    · intro w hw
      simp only [posTrace, k1, after, List.mem_append] at hw
      rcases hw with hw | hw
      · exact g1 w hw
      · exact g2 w hw
    · unfold storePosUndo at k3
      split at k3
      · cases k3; exact q2
      · simp only [bind_eq_ok, mapErr_ok, pure_eq_ok] at k3
        obtain ⟨c, -, rfl⟩ := k3
        exact q2.withUndo _ _ _ _
  obtain ⟨hrP, s2, nx, r2, cc, nn⟩ := hP
  have hrT := tok_stage h3 r2 up3 so2
  obtain ⟨t, n3, tu, st, nx3, tops, e3, r3, ct1, ct2⟩ := connectTokens_run h3 hrT r2
  have hb3 : Orders.SoundView v3.base.orders := by
    have e2 := (kept_connectPos h2).1.trans (kept_connectTokens h3)
    rw [e2.base]; exact hb
  have hrO := ord_stage h4 r3 up4 so3 hb3
  obtain ⟨o, n4, ou, so1', so', nx4, e4, r4, co1, co2, ro1, hso'⟩ := connectOrders_run h4 hrO r3
  have hr : ∀ w ∈ txTrace env src v tx, Readable w := by
    intro w hw
    simp only [txTrace, after, h1, h2, h3, List.mem_append] at hw
    rcases hw with hw | hw | hw
    · exact hrP w hw
    · exact hrT w hw
    · exact hrO w hw
  obtain ⟨s', q1, -⟩ := connectTx_value hg h hr hV hp hd
  refine ⟨hr, s', q1, ?_⟩
  have hpos : v5.pos = v4.pos := by
    simp only [connectUtxo, bind_eq_ok, mapErr_ok, pure_eq_ok, Prod.exists] at h5
    obtain ⟨l, u, -, c, -, rfl⟩ := h5; rfl
  have := r4.pos
  rw [← hpos] at this
  rw [q1.pos.inj this]
  exact ⟨cc, nn⟩

end Verif.Verifier
