import Verif.Slots.Spec
import Verif.Verifier.RangeProps

set_option maxRecDepth 100000

/-!
# C89: pools of a chain have lifetimes without gaps

`Lifetimes`, which the statements about the search assume of what is read of the chainstate, holds of every chain the ledger of
C49-C57 accepts.
-/

namespace Verif.Verifier
open Verif Verif.Accounting
open Verif.Utxo (OutPoint Coin Output txOut rewardOut LInv)
open Verif.Accumulator (TxOutput)

/-- only the operation that creates a pool makes it exist -/
theorem chain_gone {p : Nat} {s s' : Pos.Sv} {ops : List Pos.Op} (h : Chain posM s ops s') (ht : ∃ t, Pos.Rep t s)
    (hp : p ∉ ops.flatMap opPools) (hn : s.poolData p = none) : s'.poolData p = none := by
  induction h with
  | nil => exact hn
  | @cons s s1 s2 op ops hm _ ih =>
    rw [List.flatMap_cons, List.mem_append, not_or] at hp
    refine ih (posM_rep hm ht) hp.2 ?_
    have hd := posM_did hm ht
    cases op with
    | createPool q d =>
      have hq : p ≠ q := by simpa [opPools] using hp.1
      rw [hd.2.1, Function.update_of_ne hq]; exact hn
    | decommissionPool q =>
      rw [hd.2.1]
      by_cases hq : p = q
      · subst hq; simp
      · rw [Function.update_of_ne hq]; exact hn
    | increaseStakerRewards q a =>
      obtain ⟨d, h1, h2, -⟩ := hd
      have hq : p ≠ q := by rintro rfl; rw [hn] at h1; cases h1
      rw [h2, Function.update_of_ne hq]; exact hn
    | createDelegationId => rw [hd.1]; exact hn
    | deleteDelegationId => rw [show s1.poolData = s.poolData from hd]; exact hn
    | delegateStaking => rw [hd.1]; exact hn
    | spendShare => rw [hd.2.1]; exact hn

theorem posIn_pools (env : Env) (U : OutPoint → Option Coin) (is : List Input) :
    (is.flatMap (posInOps env U)).flatMap opPools = [] := by
  rw [List.flatMap_eq_nil_iff]
  intro op h
  obtain ⟨i, -, h⟩ := List.mem_flatMap.1 h
  cases i <;> simp only [posInOps, List.mem_singleton, List.not_mem_nil] at h
  · split at h
    · cases h
    · split at h
      · cases h
      · rw [List.mem_singleton] at h; subst h; rfl
  · subst h; rfl

section
variable {env : Env} {read : Nat → TxOutput} {cfgOf : Src → Accumulator.Config} {feeOf : Nat → Accumulator.Acc} {subsidy : Nat → Nat}
  {p : Nat}

theorem connectTx_gone {src : Src} {v v' : TxVerifier} {tx : Tx} {fee : Nat} {s s' : St}
    (h : connectTx env src v tx = .ok (v', fee)) (hr : ∀ w ∈ txTrace env src v tx, Readable w) (hV : VRep v s)
    (hV' : VRep v' s') (hp : p ∉ tx.pools) (hn : s.pos.poolData p = none) : s'.pos.poolData p = none := by
  simp only [connectTx, bind_eq_ok, okOr_eq_ok, ensure_eq_ok, pure_eq_ok, Prod.mk.injEq] at h
  obtain ⟨_, hck, v1, h1, f, hf, v2, h2, v3, h3, v4, h4, v5, h5, rfl, rfl⟩ := h
  have hrP : ∀ w ∈ posTrace env v1 tx, Readable w := fun w hw => hr w (by simp [txTrace, after, h1, hw])
  have hrT : ∀ w ∈ tokTrace v2 tx, Readable w := fun w hw => hr w (by simp [txTrace, after, h1, h2, hw])
  have hrO : ∀ w ∈ ordTrace v3 tx, Readable w := fun w hw => hr w (by simp [txTrace, after, h1, h2, h3, hw])
  obtain ⟨na, nb, rfl, r1, hnft⟩ := register_spec h1 hV
  have ep : (s.register tx src.block).pos = s.pos := by unfold St.register; split <;> rfl
  generalize s.register tx src.block = s1 at r1 ep
  obtain ⟨q, n2, pu, sp1, sp, nx2, rfl, r2, cp1, cp2, rp1, hsp⟩ := connectPos_run h2 hrP r1
  obtain ⟨t, n3, tu, st, nx3, tops, rfl, r3, ct1, ct2⟩ := connectTokens_run h3 hrT r2
  obtain ⟨o, n4, ou, so1, so, nx4, rfl, r4, co1, co2, ro1, hso⟩ := connectOrders_run h4 hrO r3
  simp only [connectUtxo, bind_eq_ok, mapErr_ok, pure_eq_ok, Prod.exists] at h5
  obtain ⟨l, u, h5, cu, -, rfl⟩ := h5
  rw [hV'.pos.inj r2.pos]
  refine chain_gone cp2 rp1 hp (chain_gone cp1 ⟨_, r1.pos⟩ ?_ (by rw [ep]; exact hn))
  rw [posIn_pools]; exact List.not_mem_nil

theorem connectTxs_gone (hg : ValueGuards env read cfgOf feeOf subsidy) {src : Src} : ∀ (txs : List Tx) {v v' : TxVerifier}
    {fees : List Nat} {s s' : St}, connectTxs env src v txs = .ok (v', fees) → (∀ w ∈ txsTrace env src v txs, Readable w) →
    VRep v s → (∀ tx ∈ txs, ∀ j, s.utxo (txOut tx.id j) = none) → (txs.map Tx.id).Nodup →
    (∀ t ∈ txs, ∀ o ∈ t.outputs, Fits o.effect (read o.out.content) o.out.inUtxoSet) → VRep v' s' →
    p ∉ txs.flatMap Tx.pools → s.pos.poolData p = none → s'.pos.poolData p = none
  | [], v, v', fees, s, s', h, _, hV, _, _, _, hV', _, h0 => by
    cases h
    rw [← hV.inj hV']; exact h0
  | tx :: txs, v, v', fees, s, s', h, hr, hV, hp, hn, hd, hV', hq, h0 => by
    simp only [connectTxs, bind_eq_ok, pure_eq_ok, Prod.exists, Prod.mk.injEq] at h
    obtain ⟨v1, fee, h1, v2, fs, h2, rfl, rfl⟩ := h
    simp only [txsTrace, h1, after, List.mem_append] at hr
    rw [List.map_cons, List.nodup_cons] at hn
    rw [List.flatMap_cons, List.mem_append, not_or] at hq
    obtain ⟨s1, r1, k1, -⟩ := connectTx_value hg h1 (fun w hw => hr w (.inl hw)) hV (hp tx (by simp)) (hd tx (by simp))
    refine connectTxs_gone hg txs h2 (fun w hw => hr w (.inr hw)) r1 (fun t ht j => ?_) hn.2 (fun t ht => hd t (by simp [ht]))
      hV' hq.2 (connectTx_gone h1 (fun w hw => hr w (.inl hw)) hV r1 hq.1 h0)
    refine k1 _ (fun j' e => ?_) (hp t (by simp [ht]) j)
    exact hn.1 (List.mem_map.2 ⟨t, ht, (Utxo.txOut_inj.1 e).1⟩)

theorem reward_gone {v v' : TxVerifier} {b : Block} {fees : List Nat} {s s' : St} (h : connectReward env v b fees = .ok v')
    (hr : ∀ v1, rewardUtxo v b = .ok v1 → ∀ w ∈ rewardTrace env v1 b fees, Readable w) (hV : VRep v s)
    (hf : ∀ j, s.utxo (rewardOut b.id j) = none) (hV' : VRep v' s') (h0 : s.pos.poolData p = none) :
    s'.pos.poolData p = none := by
  simp only [connectReward, bind_eq_ok, ensure_eq_ok] at h
  obtain ⟨_, hck, v1, h1, h2⟩ := h
  have hr := hr v1 h1
  obtain ⟨l, cu, u, rfl, hu⟩ := rewardUtxo_eq h1
  have hfr : Utxo.RewardFresh (v.utxo.view v.base.utxo) b.id := by
    intro j; rw [hV.utxo]; exact hf j
  obtain ⟨g1, -⟩ := Utxo.connectReward_set hV.uinv hfr hu
  have hV1 : VRep { v with utxo := l, utxoUndo := cu } { s with utxo := (l.view v.base.utxo).utxo } :=
    (hV.withUtxo g1 rfl).withUndo cu v.posUndo v.tokensUndo v.ordersUndo
  cases hb : b.pos with
  | true =>
    simp only [rewardPos, hb, if_true, bind_eq_ok, okOr_eq_ok, mapErr_ok, pure_eq_ok, Prod.exists] at h2
    obtain ⟨q, hq, v2, us, h2, c, -, rfl⟩ := h2
    simp only [rewardTrace, hb, if_true, hq] at hr
    obtain ⟨q', s1, rfl, r2, ch⟩ := posSteps_run h2 hr hV1
    rw [hV'.pos.inj r2.pos]
    exact chain_gone ch ⟨_, hV1.pos⟩ (by rw [plan_pools]; exact List.not_mem_nil) h0
  | false =>
    simp only [rewardPos, hb] at h2
    cases h2
    rw [hV'.pos.inj hV1.pos]; exact h0

theorem block_gone (hg : ValueGuards env read cfgOf feeOf subsidy) {l l' : Ledger} {b : Block} (hw : l.WF) (hf : Fresh l b)
    (hd : Described read b) (hr : InRange env l b) (h : l.connect env b = .ok l') (hp : p ∉ b.newPools)
    (h0 : l.pos.poolData.get p = none) : l'.pos.poolData.get p = none := by
  simp only [Ledger.connect, bind_eq_ok] at h
  obtain ⟨v, h1, h2⟩ := h
  have hl := hw.rep
  have hno : NoUndo l.base (chain b.id) := by
    refine ⟨?_, ?_, ?_, ?_⟩
    · simp [Ledger.base, utxoOfStore, hf.utxoUndo]
    · simp [Ledger.base, ofStore, hf.posUndo]
    · simp [Ledger.base, ofStore, hf.tokensUndo]
    · simp [Ledger.base, ofStore, hf.ordersUndo]
  obtain ⟨s', us', a1, a2, a3, -⟩ := connectBlock_spec h1 hr hno hl.new
    ⟨UURep.empty hno.utxo, URep.empty hno.pos, URep.empty hno.tokens, URep.empty hno.orders⟩
    (fun tx ht => ⟨hf.utxo tx ht, rfl, rfl, rfl, rfl, hf.nft tx ht, fun _ _ hd => hd.elim⟩) hf.nodup hf.reward hf.inputs
  obtain ⟨l1, b1, b2, -⟩ := flush_spec hl a3 a1 a2
  rw [h2] at b1
  cases b1
  have e : l'.st = s' := (b2.wf.rep.new).inj b2.new
  suffices hs : s'.pos.poolData p = none by
    rw [← e] at hs; exact hs
  simp only [connectBlock, bind_eq_ok, pure_eq_ok, Prod.exists] at h1
  obtain ⟨v1, fees, t1, v3, t2, rfl⟩ := h1
  have hr' : ∀ w ∈ blockTrace env (TxVerifier.new l.base) b, Readable w := hr
  simp only [blockTrace, t1, after, List.mem_append] at hr'
  obtain ⟨s1, r1, k1, -⟩ := connectTxs_value hg b.txs t1 (fun w hw => hr' w (.inl hw)) hl.new hf.utxo hf.nodup hd
  have g1 := connectTxs_gone hg b.txs t1 (fun w hw => hr' w (.inl hw)) hl.new hf.utxo hf.nodup hd r1
    (by rw [← pools_eq] at hp; exact hp) h0
  have hf' : ∀ j, s1.utxo (rewardOut b.id j) = none :=
    fun j => k1 _ (fun tx _ j' => Utxo.txOut_ne_rewardOut.symm) (hf.reward j)
  have hrr : ∀ v4, rewardUtxo v1 b = .ok v4 → ∀ w ∈ rewardTrace env v4 b fees, Readable w :=
    fun v4 h4 w hw => hr' w (.inr (by rw [h4]; exact hw))
  obtain ⟨s2, r2, -⟩ := connectReward_value hg t2 hrr r1 hf'
  obtain rfl := a1.inj (r2.setBest b.id)
  exact reward_gone t2 hrr r1 hf' r2 g1

/-- a part of a chain, with more to come -/
theorem chain_part (hg : ValueGuards env read cfgOf feeOf subsidy) : ∀ (bs cs : List Block) {l l' : Ledger}, l.WF →
    NewChain l (bs ++ cs) → ChainInRange env l (bs ++ cs) → (∀ b ∈ bs, Described read b) → l.connects env bs = .ok l' →
    l'.WF ∧ NewChain l' cs ∧ ChainInRange env l' cs ∧
      ∀ p, p ∉ bs.flatMap Block.newPools → l.pos.poolData.get p = none → l'.pos.poolData.get p = none
  | [], cs, l, l', hw, hn, hr, _, h => by cases h; exact ⟨hw, hn, hr, fun _ _ h => h⟩
  | b :: bs, cs, l, l', hw, hn, hr, hd, h => by
    simp only [Ledger.connects, bind_eq_ok] at h
    obtain ⟨l1, h1, h2⟩ := h
    obtain ⟨w1, n1, -⟩ := connect_step hw hn hr.1 h1
    obtain ⟨i1, i2, i3, i4⟩ := chain_part hg bs cs w1 n1 (hr.2 l1 h1) (fun b hb => hd b (by simp [hb])) h2
    refine ⟨i1, i2, i3, fun p hp h0 => ?_⟩
    rw [List.flatMap_cons, List.mem_append, not_or] at hp
    exact i4 p hp.2 (block_gone hg hw hn.fresh (hd b (by simp)) hr.1 h1 hp.1 h0)

theorem pools_end (hg : ValueGuards env read cfgOf feeOf subsidy) {b₁ b₂ b₃ b₄ : List Block} {l l₁ l₂ l₃ : Ledger} (hw : l.WF)
    (hn : NewChain l (b₁ ++ (b₂ ++ (b₃ ++ b₄)))) (hr : ChainInRange env l (b₁ ++ (b₂ ++ (b₃ ++ b₄))))
    (hd : ∀ b ∈ b₁ ++ (b₂ ++ (b₃ ++ b₄)), Described read b) (hfp : FreshPools l (b₁ ++ (b₂ ++ (b₃ ++ b₄))))
    (h₁ : l.connects env b₁ = .ok l₁) (h₂ : l₁.connects env b₂ = .ok l₂) (h₃ : l₂.connects env b₃ = .ok l₃) (p : Nat)
    (e₁ : (l₁.pos.poolData.get p).isSome) (e₃ : (l₃.pos.poolData.get p).isSome) : (l₂.pos.poolData.get p).isSome := by
  obtain ⟨w1, n1, r1, g1⟩ := chain_part hg b₁ _ hw hn hr (fun b hb => hd b (by simp [hb])) h₁
  obtain ⟨w2, n2, r2, -⟩ := chain_part hg b₂ _ w1 n1 r1 (fun b hb => hd b (by simp [hb])) h₂
  obtain ⟨-, -, -, g3⟩ := chain_part hg b₃ b₄ w2 n2 r2 (fun b hb => hd b (by simp [hb])) h₃
  cases h0 : l₂.pos.poolData.get p with
  | some x => rfl
  | none =>
    exfalso
    have hp : p ∉ b₃.flatMap Block.newPools := by
      intro hm
      have hm' : p ∈ (b₂ ++ (b₃ ++ b₄)).flatMap Block.newPools := by
        rw [List.flatMap_append, List.flatMap_append]
        exact List.mem_append_right _ (List.mem_append_left _ hm)
      by_cases hm1 : p ∈ b₁.flatMap Block.newPools
      · have nd := hfp.nodup
        rw [List.flatMap_append, List.nodup_append] at nd
        exact nd.2.2 p hm1 p hm' rfl
      · have := g1 p hm1 (hfp.pool p (by rw [List.flatMap_append]; exact List.mem_append_right _ hm'))
        rw [this] at e₁; cases e₁
    rw [g3 p hp h0] at e₃
    cases e₃

/-- **C89** (pools).  A pool that exists at two points of a chain exists at every point between them: one that was
decommissioned does not come back. -/
theorem C89_pools_end (hg : ValueGuards env read cfgOf feeOf subsidy) {b₁ b₂ b₃ : List Block} {l l₁ l₂ l₃ : Ledger} (hw : l.WF)
    (hk : l.StakingOk) (hs : Sound read subsidy l (b₁ ++ (b₂ ++ b₃))) (h₁ : l.connects env b₁ = .ok l₁)
    (h₂ : l₁.connects env b₂ = .ok l₂) (h₃ : l₂.connects env b₃ = .ok l₃) (p : Nat)
    (e₁ : (l₁.pos.poolData.get p).isSome) (e₃ : (l₃.pos.poolData.get p).isSome) : (l₂.pos.poolData.get p).isSome := by
  have hc : l.connects env (b₁ ++ (b₂ ++ b₃)) = .ok l₃ := by
    rw [connects_append, h₁]
    show l₁.connects env (b₂ ++ b₃) = _
    rw [connects_append, h₂]
    exact h₃
  have hr := (C57_in_range hg hw hk hs hc).1
  have e : b₁ ++ (b₂ ++ b₃) = b₁ ++ (b₂ ++ (b₃ ++ [])) := by simp
  obtain ⟨hn, hd, hp, -⟩ := hs
  rw [e] at hn hr hd hp
  exact pools_end hg hw hn hr hd hp h₁ h₂ h₃ p e₁ e₃

/-- the checks of the balances of a pool that fail -/
inductive BalErr
  | stakerBalance
  | totalLessThanStakers
  | balanceWithoutData
  | dataWithoutBalance
deriving DecidableEq

/-- `NonZeroPoolBalances::obtain` on a stored state – chainstate/src/detail/chainstateref/mod.rs 1586-1625, with `new`
(1572-1583), whose assertion the check before it makes hold.  A balance that is not stored is zero. -/
def obtainBal (l : Ledger) (p : Nat) : Except BalErr (Option Slots.Bal) :=
  let total := (l.pos.poolBalances.get p).getD 0
  match (if 0 < total then some total else none), l.pos.poolData.get p with
  | some total, some d =>
    match d.stakerBalance with
    | .error _ => .error .stakerBalance
    | .ok staker =>
      if staker ≤ total then .ok (if staker ≠ 0 then some ⟨total, staker⟩ else none) else .error .totalLessThanStakers
  | none, none => .ok none
  | some _, none => .error .balanceWithoutData
  | none, some _ => .error .dataWithoutBalance

/-- **C89** (balances).  Where the tables of staking agree (C57), the balances of a pool whose owner pledged something are obtained,
and they are all the pool has and what its owner has in it.  For a pool that does not exist nothing is obtained, but this is an
error if coins were delegated to it after it was decommissioned. -/
theorem C89_obtain {l : Ledger} (hk : l.StakingOk) (p : Nat) :
    (∀ d, l.pos.poolData.get p = some d → 0 < d.pledge → d.pledge + d.rewards < 2 ^ 128 →
      obtainBal l p = .ok (some ⟨d.pledge + d.rewards + l.delegated p, d.pledge + d.rewards⟩)) ∧
    (l.pos.poolData.get p = none →
      obtainBal l p = if (l.pos.poolBalances.get p).getD 0 = 0 then .ok none else .error .balanceWithoutData) := by
  refine ⟨fun d hd hp hlt => ?_, fun hd => ?_⟩
  · have hb : (l.pos.poolBalances.get p).getD 0 = d.pledge + d.rewards + l.delegated p := hk.pools p d hd
    have hs : d.stakerBalance = .ok (d.pledge + d.rewards) := by
      simp only [Pos.PoolData.stakerBalance, okOr_eq_ok, Amt.add]
      rw [if_pos (by unfold U128; omega)]
    unfold obtainBal
    simp only [hb, hd]
    rw [if_pos (show 0 < d.pledge + d.rewards + l.delegated p by omega)]
    simp only [hs]
    rw [if_pos (show d.pledge + d.rewards ≤ d.pledge + d.rewards + l.delegated p by omega),
      if_pos (show d.pledge + d.rewards ≠ 0 by omega)]
  · unfold obtainBal
    simp only [hd]
    generalize (l.pos.poolBalances.get p).getD 0 = total
    by_cases ht : 0 < total
    · rw [if_pos ht, if_neg (show ¬ total = 0 by omega)]
    · rw [if_neg ht, if_pos (show total = 0 by omega)]

/-- balances are obtained only for pools that exist -/
theorem obtainBal_some {l : Ledger} {p : Nat} {b : Slots.Bal} (h : obtainBal l p = .ok (some b)) :
    (l.pos.poolData.get p).isSome := by
  unfold obtainBal at h
  simp only at h
  cases hd : l.pos.poolData.get p with
  | some d => rfl
  | none =>
    rw [hd] at h
    generalize (l.pos.poolBalances.get p).getD 0 = total at h
    by_cases ht : 0 < total
    · rw [if_pos ht] at h; cases h
    · rw [if_neg ht] at h; cases h

/-- **C89** (pools).  If the balances of a pool at a height are the ones obtained from the state after the block of the height, where
they are obtained for the pools that exist (see `C89_obtain`), what is read of the chainstate in the search has `Lifetimes`. -/
theorem C89_lifetimes (hg : ValueGuards env read cfgOf feeOf subsidy) {bs : List Block} {l : Ledger} {st : Nat → Ledger}
    (hw : l.WF) (hk : l.StakingOk) (hs : Sound read subsidy l bs) (hst : ∀ h ≤ bs.length, l.connects env (bs.take h) = .ok (st h))
    (hpl : ∀ h ≤ bs.length, ∀ p, ((st h).pos.poolData.get p).isSome → ∃ b, obtainBal (st h) p = .ok (some b))
    (c : Slots.Chain) (hb : c.best = bs.length) (hob : ∀ h ≤ c.best, ∀ p, c.bal h p = (obtainBal (st h) p).toOption.join) :
    Slots.Lifetimes c := by
  have hc : ∀ h ≤ c.best, ∀ p, (c.bal h p).isSome ↔ ((st h).pos.poolData.get p).isSome := by
    intro h hh p
    rw [hob h hh p]
    constructor
    · intro hi
      cases e : obtainBal (st h) p with
      | error x => rw [e] at hi; cases hi
      | ok o =>
        cases o with
        | none => rw [e] at hi; cases hi
        | some b => exact obtainBal_some e
    · intro hi
      obtain ⟨b, e⟩ := hpl h (by omega) p hi
      rw [e]; rfl
  intro p i j k hij hjk hkb e1 e3
  have cut : ∀ {i j}, i ≤ j → bs.take i ++ (bs.take j).drop i = bs.take j := by
    intro i j h
    conv_rhs => rw [← List.take_append_drop i (bs.take j), List.take_take, Nat.min_eq_left h]
  have part : ∀ {i j}, i ≤ j → j ≤ bs.length → (st i).connects env ((bs.take j).drop i) = .ok (st j) := by
    intro i j h1 h2
    have a := hst j h2
    rw [← cut h1, connects_append, hst i (by omega)] at a
    exact a
  have e : bs = bs.take i ++ ((bs.take j).drop i ++ ((bs.take k).drop j ++ bs.drop k)) := by
    rw [← List.append_assoc, cut hij, ← List.append_assoc, cut hjk, List.take_append_drop]
  have hr := (C57_in_range hg hw hk hs (by have := hst bs.length (le_refl _); rwa [List.take_length] at this)).1
  obtain ⟨hn, hd, hp, -⟩ := hs
  rw [e] at hn hr hd hp
  refine (hc j (by omega) p).2 (pools_end hg hw hn hr hd hp (hst i (by omega)) (part hij (by omega)) (part hjk (by omega)) p
    ((hc i (by omega) p).1 e1) ((hc k hkb p).1 e3))
end

section Example

/-- the owner of pool 7 of the chain of C52 takes the 1082 coins they have in it -/
def vlTx8 : Tx := ⟨8, [.utxo (rewardOut 102 0), .utxo (txOut 0 4)], [⟨coin (100100 + 1082), .none⟩, ⟨coin 1990, .none⟩]⟩
def vlBlock3 : Block := ⟨103, 102, 3, [vlTx8], ⟨none, some []⟩, false⟩
/-- and then somebody delegates 100 coins to it -/
def vlTx9 : Tx := ⟨9, [.utxo (txOut 0 5)], [⟨⟨false, 100003⟩, .delegate 8 100⟩, ⟨coin 1890, .none⟩]⟩
def vlBlock4 : Block := ⟨104, 103, 4, [vlTx9], ⟨none, some []⟩, false⟩
def vlLong : List Block := [vlBlock1, vlBlock2, vlBlock3, vlBlock4]

/-- the states after the blocks of a chain -/
def vlState (h : Nat) : Ledger := ((vlGenesis.connects vlEnv (vlLong.take h)).toOption).getD vlGenesis

theorem vlLong_new : NewChain vlGenesis vlLong where
  linked := ⟨rfl, rfl, rfl, rfl, trivial⟩
  ids := by decide +kernel
  txs := by decide +kernel
  inputs := by
    intro b hb
    simp only [vlLong, List.mem_cons, List.not_mem_nil, or_false] at hb
    rcases hb with rfl | rfl | rfl | rfl <;> simp [vlBlock1, vlBlock2, vlBlock3, vlBlock4, Utxo.Reward.utxoInputs]
  utxo := by
    intro id hi j
    refine vlGenesis_none ?_
    have : id ≠ 0 := by
      revert id
      decide +kernel
    simp [txOut, this]
  reward := by
    intro b hb j
    refine vlGenesis_none ?_
    simp [rewardOut]
  nft := fun _ _ => rfl
  undo := fun _ _ => ⟨rfl, rfl, rfl, rfl⟩

theorem vlLong_described : ∀ b ∈ vlLong, Described vlRead b := by
  intro b hb
  simp only [vlLong, List.mem_cons, List.not_mem_nil, or_false] at hb
  rcases hb with rfl | rfl | rfl | rfl
  · exact vlChain_described _ (by simp [vlChain])
  · exact vlChain_described _ (by simp [vlChain])
  · intro t ht o ho
    simp only [vlBlock3, List.mem_singleton] at ht
    subst ht
    simp only [vlTx8, List.mem_cons, List.not_mem_nil, or_false] at ho
    rcases ho with rfl | rfl <;> simp [Fits, vlRead, coin]
  · intro t ht o ho
    simp only [vlBlock4, List.mem_singleton] at ht
    subst ht
    simp only [vlTx9, List.mem_cons, List.not_mem_nil, or_false] at ho
    rcases ho with rfl | rfl <;> simp [Fits, vlRead, coin]

theorem vlLong_sound : Sound vlRead vlSubsidy vlGenesis vlLong where
  new := vlLong_new
  described := vlLong_described
  pools := ⟨by decide +kernel, fun _ _ => rfl, fun _ _ _ _ h => by simp [vlGenesis, exGenesis] at h⟩
  coins := by
    have e2 : (vlLong.map fun b => (vlSubsidy b.height : Int)).sum = 210 := by decide +kernel
    have e3 : vlGenesis.holds vlRead 0 = 16000 := by decide +kernel
    unfold Affordable
    rw [e2, e3]
    norm_num

theorem vlLong_states : ∀ h ≤ vlLong.length, vlGenesis.connects vlEnv (vlLong.take h) = .ok (vlState h) := by
  have key : ∀ h ≤ vlLong.length, (vlGenesis.connects vlEnv (vlLong.take h)).toOption.isSome = true := by decide +kernel
  intro h hh
  have := key h hh
  unfold vlState
  cases e : vlGenesis.connects vlEnv (vlLong.take h) with
  | error x => rw [e] at this; cases this
  | ok l => rfl

-- pool 7 is made by the first block and has its pledge, then a reward and delegated coins; the third block decommissions it
example : (List.range 4).map (fun h => ((obtainBal (vlState h) 7).toOption)) =
    [some none, some (some ⟨1000, 1000⟩), some (some ⟨1147, 1082⟩), some none] := by decide +kernel

-- the state after two blocks meets the hypothesis of `C89_obtain`
example : (vlState 2).StakingOk ∧ obtainBal (vlState 2) 7 = .ok (some ⟨1000 + 82 + 65, 1000 + 82⟩) := by
  have hk := (C57_in_range guards_vlEnv vlGenesis_wf vlGenesis_staking vlChain_sound (vlLong_states 2 (by decide))).2
  refine ⟨hk, ?_⟩
  have e : (vlState 2).delegated 7 = 65 := by decide +kernel
  obtain ⟨d, hd, e1, e2⟩ : ∃ d, (vlState 2).pos.poolData.get 7 = some d ∧ d.pledge = 1000 ∧ d.rewards = 82 := by
    have : ((vlState 2).pos.poolData.get 7).map (fun d => (d.pledge, d.rewards)) = some (1000, 82) := by decide +kernel
    cases h : (vlState 2).pos.poolData.get 7 with
    | none => rw [h] at this; cases this
    | some d => rw [h] at this; cases d; cases this; exact ⟨_, rfl, rfl, rfl⟩
  have := (C89_obtain hk 7).1 d hd (by omega) (by omega)
  rw [e, e1, e2] at this
  exact this

/-- **C89** (finding).  The chain accepts a delegation to a pool that was decommissioned.  After that, asking for the balances of
the pool is an error, the one the code has for a broken invariant. -/
theorem C89_dead_pool_error : ∃ l', vlGenesis.connects vlEnv vlLong = .ok l' ∧ Sound vlRead vlSubsidy vlGenesis vlLong ∧
    l'.pos.poolData.get 7 = none ∧ obtainBal l' 7 = .error .balanceWithoutData := by
  refine ⟨vlState 4, vlLong_states 4 (le_refl _), vlLong_sound, ?_, ?_⟩ <;> decide +kernel

/-- what is read of this chain in the search -/
def vlSlots : Slots.Chain where
  best := 4
  time h := 100 * h
  target _ := .ok 3
  next := .ok 2
  rnd h := h / 2
  epoch h := h / 3
  version _ := .ok .v0
  supply := some 1000
  bal h p := (obtainBal (vlState h) p).toOption.join

theorem vlState_pools : ∀ h ≤ 4, ∀ e ∈ (vlState h).pos.poolData.entries, e.1 = 7 := by decide +kernel

example : Slots.Lifetimes vlSlots := by
  refine C89_lifetimes guards_vlEnv vlGenesis_wf vlGenesis_staking vlLong_sound vlLong_states ?_ vlSlots rfl (fun _ _ _ => rfl)
  intro h hh p hp
  have e : p = 7 := by
    obtain ⟨d, hd⟩ := Option.isSome_iff_exists.1 hp
    exact vlState_pools h hh _ (BMap.mem_entries.2 hd)
  subst e
  have key : ∀ h ≤ 4, ((vlState h).pos.poolData.get 7).isSome → (obtainBal (vlState h) 7).toOption.join.isSome := by decide +kernel
  have := key h hh hp
  cases e : obtainBal (vlState h) 7 with
  | error x => rw [e] at this; cases this
  | ok o =>
    cases o with
    | none => rw [e] at this; cases this
    | some b => exact ⟨b, rfl⟩

end Example

end Verif.Verifier
