import Verif.Verifier.RangeTx
import Verif.Verifier.ValueBlock
import Verif.Verifier.ChainLemmas
import Verif.Verifier.Check

/-!
# A chain stays in range

Blocks only add their subsidy to the coins, so a bound for the coins there are and the subsidies to come is a bound for
every balance on the way.
-/

namespace Verif.Verifier
open Verif Verif.Accounting
open Verif.Utxo (OutPoint Coin Output txOut rewardOut LInv)
open Verif.Accumulator (TxOutput)

/-- ids of the staking pools a transaction creates -/
def Tx.pools (t : Tx) : List Nat := (t.outputs.flatMap posOutOps).flatMap opPools

/-- ids of the staking pools a block creates -/
def Block.pools (b : Block) : List Nat := b.txs.flatMap Tx.pools

theorem VRep.base_orders {v v' : TxVerifier} {s s' : St} (h : VRep v s) (h' : VRep v' s') (ho : Over v v') :
    v'.base.orders = v.base.orders := by
  rw [← h.ordp, ← h'.ordp, ho.orders]

theorem moved_fee {tx : Tx} {cfg : Accumulator.Config} {read : Nat → TxOutput} {fee : Int} :
    (tx.inputs.map (fun i => (mintedBy 0 i : Int))).sum + (tx.outputs.map (fun o => (nftBy 0 (read o.out.content) : Int))).sum -
        (tx.outputs.map (fun o => (lostBy cfg 0 (read o.out.content) : Int))).sum -
        (tx.inputs.map (fun i => (Accumulator.commandFee cfg 0 i.toAcc : Int))).sum - fee ≤ -fee := by
  have e1 : (tx.inputs.map (fun i => (mintedBy 0 i : Int))).sum = 0 := by
    apply sum_eq_zero
    intro i _
    unfold mintedBy
    split <;> simp
  have e2 : (tx.outputs.map (fun o => (nftBy 0 (read o.out.content) : Int))).sum = 0 := by
    apply sum_eq_zero
    intro i _
    unfold nftBy
    split <;> simp
  have e3 : 0 ≤ (tx.outputs.map (fun o => (lostBy cfg 0 (read o.out.content) : Int))).sum := sums_nonneg fun _ _ => Int.natCast_nonneg _
  have e4 : 0 ≤ (tx.inputs.map (fun i => (Accumulator.commandFee cfg 0 i.toAcc : Int))).sum := sums_nonneg fun _ _ => Int.natCast_nonneg _
  omega

theorem connectTxs_range {env : Env} {read : Nat → TxOutput} {cfgOf : Src → Accumulator.Config}
    {feeOf : Nat → Accumulator.Acc} {subsidy : Nat → Nat} (hg : ValueGuards env read cfgOf feeOf subsidy)
    {src : Src} : ∀ (txs : List Tx) {v v' : TxVerifier} {fees : List Nat} {s : St} {B : Int} {ps : List Nat},
    connectTxs env src v txs = .ok (v', fees) → VRep v s →
    (∀ tx ∈ txs, ∀ j, s.utxo (txOut tx.id j) = none) → (txs.map Tx.id).Nodup →
    (∀ t ∈ txs, ∀ o ∈ t.outputs, Fits o.effect (read o.out.content) o.out.inUtxoSet) →
    Pos.Coh s.pos → Bounded read s B → 2 * B < I128 → NewPools s.pos (txs.flatMap Tx.pools ++ ps) →
    Orders.SoundView v.base.orders → Up v' → SupplyOk v →
    (∀ w ∈ txsTrace env src v txs, Readable w) ∧ ∃ s', VRep v' s' ∧ Pos.Coh s'.pos ∧ NewPools s'.pos ps ∧
      Bounded read s' (B - (fees.map fun f => ((feeOf f).total 0 : Int)).sum) ∧
      (∀ k, (∀ tx ∈ txs, ∀ j, k ≠ txOut tx.id j) → s.utxo k = none → s'.utxo k = none)
  | [], v, v', fees, s, B, ps, h, hV, _, _, _, hc, hB, _, hn, _, _, _ => by
    cases h
    exact ⟨by simp [txsTrace], s, hV, hc, hn, hB.mono (by simp), fun _ _ h => h⟩
  | tx :: txs, v, v', fees, s, B, ps, h, hV, hp, hnd, hd, hc, hB, hlt, hn, hb, hup, hso => by
    simp only [connectTxs, bind_eq_ok, pure_eq_ok, Prod.exists, Prod.mk.injEq] at h
    obtain ⟨v1, fee, h1, v2, fs, h2, rfl, rfl⟩ := h
    have b1 := back_connectTx h1
    have so1 : SupplyOk v1 := by unfold SupplyOk; rw [b1.parent]; exact hso
    have up1 := (back_connectTxs txs h2).up so1 hup
    rw [List.flatMap_cons, List.append_assoc] at hn
    obtain ⟨r1, s1, V1, c1, n1⟩ := connectTx_range hg h1 hV (hp tx (by simp)) (hd tx (by simp)) hc hB hlt hn hb up1 hso
    rw [List.map_cons, List.nodup_cons] at hnd
    obtain ⟨s1', V1', k1, m1, -⟩ := connectTx_value hg h1 r1 hV (hp tx (by simp)) (hd tx (by simp))
    obtain rfl := V1.inj V1'
    have B1 : Bounded read s1 (B - (feeOf fee).total 0) := (hB.moved (m1 0) V1.sound).mono (by
      have := @moved_fee tx (cfgOf src) read ((feeOf fee).total 0)
      omega)
    obtain ⟨r2, s2, V2, c2, n2, B2, k2⟩ := connectTxs_range hg txs h2 V1 (by
        intro t ht j
        refine k1 _ (fun j' e => ?_) (hp t (by simp [ht]) j)
        exact hnd.1 (List.mem_map.2 ⟨t, ht, (Utxo.txOut_inj.1 e).1⟩)) hnd.2 (fun t ht => hd t (by simp [ht])) c1 B1
      (by omega) n1 (by rw [hV.base_orders V1 (over_connectTx h1)]; exact hb) hup so1
    refine ⟨?_, s2, V2, c2, n2, B2.mono ?_, ?_⟩
    · intro w hw
      simp only [txsTrace, h1, after, List.mem_append] at hw
      exact hw.elim (r1 w) (r2 w)
    · simp only [List.map_cons, List.sum_cons]; omega
    · intro k hk hs
      exact k2 k (fun t ht => hk t (by simp [ht])) (k1 k (hk tx (by simp)) hs)

theorem rewardUtxo_eq {v v1 : TxVerifier} {b : Block} (h : rewardUtxo v b = .ok v1) :
    ∃ l c u, v1 = { v with utxo := l, utxoUndo := c } ∧ Utxo.connectReward v.base.utxo v.utxo b.reward b.id b.height = .ok (l, u) := by
  simp only [rewardUtxo, bind_eq_ok, mapErr_ok, Prod.exists] at h
  obtain ⟨l, u, h1, h3⟩ := h
  cases u with
  | none => cases h3; exact ⟨l, v.utxoUndo, _, rfl, h1⟩
  | some u =>
    simp only [bind_eq_ok, pure_eq_ok] at h3
    obtain ⟨c, -, rfl⟩ := h3
    exact ⟨l, c, _, rfl, h1⟩

theorem over_rewardPos {env : Env} {v v' : TxVerifier} {b : Block} {fees : List Nat} (h : rewardPos env v b fees = .ok v') :
    Over v v' := by
  unfold rewardPos at h
  split at h
  · simp only [bind_eq_ok, okOr_eq_ok, mapErr_ok, pure_eq_ok, Prod.exists] at h
    obtain ⟨p, -, v1, us, h2, c, -, rfl⟩ := h
    exact (over_collect (fun _ _ _ _ => over_posStep) h2).trans ⟨rfl, rfl, rfl⟩
  · cases h; exact .refl _

theorem plan_pools (p : Plan) : p.ops.flatMap opPools = [] := by
  rw [List.flatMap_eq_nil_iff]
  intro op h
  simp only [Plan.ops, List.mem_append, List.mem_map, List.mem_singleton] at h
  rcases h with ⟨e, -, rfl⟩ | rfl <;> rfl

theorem plan_gains (p : Plan) : (p.ops.map gain).sum = (p.total : Int) := by
  rw [← plan_gain]
  generalize p.ops = ops
  induction ops with
  | nil => rfl
  | cons o ops ih => simp only [List.map_cons, List.sum_cons, ih, gain]; omega

theorem reward_range {env : Env} {read : Nat → TxOutput} {cfgOf : Src → Accumulator.Config}
    {feeOf : Nat → Accumulator.Acc} {subsidy : Nat → Nat} (hg : ValueGuards env read cfgOf feeOf subsidy)
    {v v' : TxVerifier} {b : Block} {fees : List Nat} {s : St} {B : Int} {ps : List Nat}
    (h : connectReward env v b fees = .ok v') (hV : VRep v s) (hf : ∀ j, s.utxo (rewardOut b.id j) = none)
    (hc : Pos.Coh s.pos) (hB : Bounded read s (B - (fees.map fun f => ((feeOf f).total 0 : Int)).sum))
    (hlt : B + subsidy b.height < I128) (hn : NewPools s.pos ps) (hup : Up v') (hso : SupplyOk v) :
    (∀ v1, rewardUtxo v b = .ok v1 → ∀ w ∈ rewardTrace env v1 b fees, Readable w) ∧
      ∃ s', VRep v' s' ∧ Pos.Coh s'.pos ∧ NewPools s'.pos ps ∧ Bounded read s' (B + subsidy b.height) := by
  have h' := h
  simp only [connectReward, bind_eq_ok, ensure_eq_ok] at h'
  obtain ⟨_, hck, v1, h1, h2⟩ := h'
  obtain ⟨maturity, n, hfee, hin, hpos, hpow⟩ := hg.reward _ _ _ hck
  have hle := feesOf_le hfee
  have hsum : (n : Int) ≤ (fees.map fun f => ((feeOf f).total 0 : Int)).sum := by
    rw [← sum_nat]; exact_mod_cast hle
  obtain ⟨l, cu, u, e1, hu⟩ := rewardUtxo_eq h1
  have hV1 : VRep v1 { s with utxo := (l.view v.base.utxo).utxo } := by
    have hfr : Utxo.RewardFresh (v.utxo.view v.base.utxo) b.id := by
      intro j; rw [hV.utxo]; exact hf j
    obtain ⟨g1, -⟩ := Utxo.connectReward_set hV.uinv hfr hu
    rw [e1]
    exact (hV.withUtxo g1 rfl).withUndo cu v.posUndo v.tokensUndo v.ordersUndo
  have so1 : SupplyOk v1 := by unfold SupplyOk; rw [(back_rewardUtxo h1).parent]; exact hso
  have main : (∀ w ∈ rewardTrace env v1 b fees, Readable w) ∧
      ∃ s', VRep v' s' ∧ Pos.Coh s'.pos ∧ NewPools s'.pos ps := by
    cases hb : b.pos with
    | false =>
      simp only [rewardPos, hb] at h2
      cases h2
      exact ⟨by simp [rewardTrace, hb], _, hV1, hc, hn⟩
    | true =>
      simp only [rewardPos, hb, if_true, bind_eq_ok, okOr_eq_ok, mapErr_ok, pure_eq_ok, Prod.exists] at h2
      obtain ⟨p, hp, v2, us, h2, c, -, rfl⟩ := h2
      obtain ⟨-, htot⟩ := hpos hb
      obtain ⟨r, q, s1, e, V2, c2, n2⟩ := out_steps h2 hV1 hc hB.under (by rw [plan_gains, htot _ _ hp]; push_cast; omega)
        (plan_isOut p) ⟨hup.pos, hup.tok⟩ so1 (by rw [plan_pools]; exact hn) (by
          intro p' d' hm
          simp only [Plan.ops, List.mem_append, List.mem_map, List.mem_singleton] at hm
          rcases hm with ⟨e, -, he⟩ | he <;> cases he)
      refine ⟨?_, _, V2.withUndo v2.utxoUndo c v2.tokensUndo v2.ordersUndo, c2, n2⟩
      simpa only [rewardTrace, hb, if_true, hp] using r
  obtain ⟨r, s', V', c', n'⟩ := main
  have hr : ∀ v1, rewardUtxo v b = .ok v1 → ∀ w ∈ rewardTrace env v1 b fees, Readable w := by
    intro v1' h1'
    rw [h1] at h1'
    cases h1'
    exact r
  refine ⟨hr, s', V', c', n', ?_⟩
  obtain ⟨s'', V'', -, -, mt, n2, hn2, hm⟩ := connectReward_value hg h hr hV hf
  obtain rfl := V'.inj V''
  have hle2 := feesOf_le hn2
  have hsum2 : (n2 : Int) ≤ (fees.map fun f => ((feeOf f).total 0 : Int)).sum := by
    rw [← sum_nat]; exact_mod_cast hle2
  obtain ⟨δ, m, hδ, -⟩ := hm 0
  refine (hB.moved m V'.sound).mono ?_
  simp only [if_true] at hδ
  push_cast at hδ
  omega

theorem block_range {env : Env} {read : Nat → TxOutput} {cfgOf : Src → Accumulator.Config}
    {feeOf : Nat → Accumulator.Acc} {subsidy : Nat → Nat} (hg : ValueGuards env read cfgOf feeOf subsidy)
    {l l' : Ledger} {b : Block} {B : Int} {ps : List Nat} (hw : l.WF) (hf : Fresh l b) (hd : Described read b)
    (hc : Pos.Coh l.st.pos) (hB : Bounded read l.st B) (hlt : 2 * (B + subsidy b.height) < I128)
    (hn : NewPools l.st.pos (b.pools ++ ps)) (h : l.connect env b = .ok l') :
    InRange env l b ∧ Pos.Coh l'.st.pos ∧ NewPools l'.st.pos ps ∧ Bounded read l'.st (B + subsidy b.height) := by
  have hh := h
  simp only [Ledger.connect, bind_eq_ok] at h
  obtain ⟨v, h1, h2⟩ := h
  have hl := hw.rep
  have h1' := h1
  simp only [connectBlock, bind_eq_ok, pure_eq_ok, Prod.exists] at h1'
  obtain ⟨v1, fees, t1, v3, t2, rfl⟩ := h1'
  have t2' := t2
  simp only [connectReward, bind_eq_ok, ensure_eq_ok] at t2'
  obtain ⟨_, -, v2, u1, u2⟩ := t2'
  have ou : Over v1 v2 := by obtain ⟨_, _, _, rfl, -⟩ := rewardUtxo_eq u1; exact ⟨rfl, rfl, rfl⟩
  have ov : Over (TxVerifier.new l.base) v3 := ((over_connectTxs _ t1).trans ou).trans (over_rewardPos u2)
  obtain ⟨up, so⟩ := up_of_flush (v := setBest v3 b.id) h2 hw ov.pos ov.tokens
  have so0 : SupplyOk (TxVerifier.new l.base) := by
    unfold SupplyOk at so ⊢
    rw [← ov.tokens]; exact so
  have up3 : Up v3 := ⟨up.pos, up.tok⟩
  have bt := back_connectTxs _ t1
  have so1 : SupplyOk v1 := by unfold SupplyOk; rw [bt.parent]; exact so0
  have so2 : SupplyOk v2 := by unfold SupplyOk; rw [(back_rewardUtxo u1).parent]; exact so1
  have up1 : Up v1 := (back_rewardUtxo u1).up so1 ((back_rewardPos u2).up so2 up3)
  have sv : Orders.SoundView (TxVerifier.new l.base).base.orders := sound_view hl.new.orders hl.sound
  obtain ⟨r1, s1, V1, c1, n1, B1, k1⟩ := connectTxs_range hg b.txs t1 hl.new hf.utxo hf.nodup hd hc hB
    (by omega) hn sv up1 so0
  obtain ⟨r2, s2, V2, c2, n2, B2⟩ := reward_range hg t2 V1 (fun j => k1 _ (fun tx _ j' => Utxo.txOut_ne_rewardOut.symm) (hf.reward j))
    c1 B1 (by have := Int.natCast_nonneg (subsidy b.height); have : 0 ≤ B := by simpa using hB ∅ ∅ ∅ ∅
              omega) n1 up3 so1
  have hr : InRange env l b := by
    intro w hw
    simp only [blockTrace, t1, after, List.mem_append, u1] at hw
    exact hw.elim (r1 w) (r2 v2 u1 w)
  refine ⟨hr, ?_⟩
  have hno : NoUndo l.base (chain b.id) := by
    refine ⟨?_, ?_, ?_, ?_⟩
    · simp [Ledger.base, utxoOfStore, hf.utxoUndo]
    · simp [Ledger.base, ofStore, hf.posUndo]
    · simp [Ledger.base, ofStore, hf.tokensUndo]
    · simp [Ledger.base, ofStore, hf.ordersUndo]
  obtain ⟨s', us', a1, a2, a3, -⟩ := connectBlock_spec h1 hr hno hl.new
    ⟨UURep.empty hno.utxo, URep.empty hno.pos, URep.empty hno.tokens, URep.empty hno.orders⟩
    (fun tx ht => ⟨hf.utxo tx ht, rfl, rfl, rfl, rfl, hf.nft tx ht, fun _ _ hd => hd.elim⟩) hf.nodup hf.reward hf.inputs
  obtain ⟨l1, b1, b2, -⟩ := flush_spec hl a3 a1 a2
  rw [h2] at b1
  cases b1
  obtain rfl := a1.inj (V2.setBest b.id)
  have e : l'.st = s' := (b2.wf.rep.new).inj b2.new
  rw [e]
  exact ⟨c2, n2, B2⟩

/-- **a chain stays in range** -/
theorem chain_range {env : Env} {read : Nat → TxOutput} {cfgOf : Src → Accumulator.Config}
    {feeOf : Nat → Accumulator.Acc} {subsidy : Nat → Nat} (hg : ValueGuards env read cfgOf feeOf subsidy) :
    ∀ (bs : List Block) {l l' : Ledger} {B : Int}, l.WF → NewChain l bs → (∀ b ∈ bs, Described read b) →
    Pos.Coh l.st.pos → Bounded read l.st B → 2 * (B + (bs.map fun b => (subsidy b.height : Int)).sum) < I128 →
    NewPools l.st.pos (bs.flatMap Block.pools) → l.connects env bs = .ok l' →
    ChainInRange env l bs ∧ Pos.Coh l'.st.pos
  | [], l, l', B, _, _, _, hc, _, _, _, h => by cases h; exact ⟨trivial, hc⟩
  | b :: bs, l, l', B, hw, hn, hd, hc, hB, hlt, hp, h => by
    simp only [Ledger.connects, bind_eq_ok] at h
    obtain ⟨l1, h1, h2⟩ := h
    rw [List.map_cons, List.sum_cons] at hlt
    have hs : 0 ≤ (bs.map fun b => (subsidy b.height : Int)).sum := sums_nonneg fun _ _ => Int.natCast_nonneg _
    obtain ⟨r, c1, p1, B1⟩ := block_range hg hw hn.fresh (hd b (by simp)) hc hB (by omega) hp h1
    obtain ⟨w1, n1, -⟩ := connect_step hw hn r h1
    obtain ⟨r2, c2⟩ := chain_range hg bs w1 n1 (fun c hc => hd c (by simp [hc])) c1 B1 (by omega) p1 h2
    refine ⟨⟨r, fun l2 h => ?_⟩, c2⟩
    rw [h1] at h
    cases h
    exact r2

end Verif.Verifier
