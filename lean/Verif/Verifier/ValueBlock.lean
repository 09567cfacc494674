import Verif.Verifier.ValueTx
import Verif.Verifier.ChainLemmas

/-!
# What a block does to the totals
-/

namespace Verif.Utxo
open Verif

/-- the UTXO set after a block reward -/
theorem connectReward_set {parent : View OutPoint Coin} {l l1 : Layer OutPoint Coin} {r : Reward} {block height : Nat}
    {u : Option (List Coin)} (hi : LInv parent l) (hf : RewardFresh (l.view parent) block)
    (h : connectReward parent l r block height = .ok (l1, u)) :
    LInv parent l1 ∧ ((r.inputs.getD []).filterMap id).Nodup ∧
      (∀ k ∈ (r.inputs.getD []).filterMap id, (l.view parent).utxo k ≠ none) ∧
      (l1.view parent).utxo = setAll (remAll (l.view parent).utxo ((r.inputs.getD []).filterMap id))
        (outPairs (rewardOut block) height 0 (r.outputs.getD [])) ∧
      ∀ j, remAll (l.view parent).utxo ((r.inputs.getD []).filterMap id) (rewardOut block j) = none := by
  obtain ⟨inputs, outputs⟩ := r
  have hmk : ∀ i j, rewardOut block i = rewardOut block j → i = j := fun i j e => (rewardOut_inj.1 e).2
  have houts : ∀ {l0 : Layer OutPoint Coin}, LInv parent l0 → RewardFresh (l0.view parent) block →
      (match outputs with
        | some os => addRewardOutputs l0 block height 0 os
        | none => pure l0) = .ok l1 →
      LInv parent l1 ∧ (l1.view parent).utxo =
        setAll (l0.view parent).utxo (outPairs (rewardOut block) height 0 (outputs.getD [])) := by
    intro l0 hi0 hf0 h
    cases outputs with
    | none => cases h; exact ⟨hi0, rfl⟩
    | some os =>
      simp only at h
      obtain ⟨m1, m2⟩ := addRewardOutputs_eq (parent := parent) os 0 hi0 (fun j _ => hf0 j) h
      obtain ⟨l1', k1, k2, k3, k4⟩ := addOutputs_spec (parent := parent) hmk (source := height) false os 0 hi0
        (fun j _ => hf0 j)
      rw [m2] at k1
      cases k1
      exact ⟨k2, k4⟩
  have habs : ∀ ks : List OutPoint, ∀ j, remAll (l.view parent).utxo ks (rewardOut block j) = none := by
    intro ks j
    rw [remAll_apply]
    split
    · rfl
    · exact hf j
  have split : ∃ l0, (match inputs with
        | some is => ∃ us, spendInputs parent l is = .ok (l0, us)
        | none => l0 = l) ∧
      (match outputs with
        | some os => addRewardOutputs l0 block height 0 os
        | none => pure l0) = .ok l1 := by
    unfold connectReward at h
    cases inputs <;> cases outputs <;>
      simp only [bind_eq_ok, pure_eq_ok, Prod.exists, Prod.mk.injEq] at h
    · obtain ⟨l0, u0, ⟨rfl, rfl⟩, l2, rfl, rfl, rfl⟩ := h
      exact ⟨_, rfl, rfl⟩
    · obtain ⟨l0, u0, ⟨rfl, rfl⟩, l2, h2, rfl, rfl⟩ := h
      exact ⟨l, rfl, h2⟩
    · obtain ⟨l0, us, h1, l00, u0, ⟨rfl, rfl⟩, l2, rfl, rfl, rfl⟩ := h
      exact ⟨l0, ⟨us, h1⟩, rfl⟩
    · obtain ⟨l0, us, h1, l00, u0, ⟨rfl, rfl⟩, l2, h2, rfl, rfl⟩ := h
      exact ⟨l0, ⟨us, h1⟩, h2⟩
  obtain ⟨l0, h1, h2⟩ := split
  cases inputs with
  | none =>
    simp only at h1
    subst h1
    obtain ⟨g1, g2⟩ := houts hi hf h2
    exact ⟨g1, by simp, by simp, g2, habs _⟩
  | some is =>
    simp only at h1
    obtain ⟨us, h1⟩ := h1
    obtain ⟨g1, g2, g3, g4, g5, g6⟩ := spendInputs_spec _ hi h1
    obtain ⟨k1, k2⟩ := houts g1 (by intro j; rw [g6]; exact habs _ j) h2
    refine ⟨k1, g4, ?_, by rw [k2, g6]; rfl, habs _⟩
    intro k hk
    have hk : k ∈ is.filterMap id := hk
    rw [← pairs_fst g3, List.mem_map] at hk
    obtain ⟨q, hq, rfl⟩ := hk
    rw [g5 q hq]; simp

end Verif.Utxo

namespace Verif.Verifier
open Verif
open Verif.Utxo (OutPoint Coin Output txOut rewardOut setAll remAll outPairs)
open Verif.Accumulator (Cur TxOutput val)

/-! ### Fees -/

theorem fees_fold {feeOf : Nat → Accumulator.Acc} : ∀ {fees : List Nat} {a r : Accumulator.Acc},
    fees.foldlM (fun a f => a.combine (feeOf f)) a = .ok r →
    ∀ c, r.total c = a.total c + (fees.map fun f => (feeOf f).total c).sum
  | [], a, r, h, c => by cases h; simp
  | f :: fees, a, r, h, c => by
    rw [List.foldlM_cons, bind_eq_ok] at h
    obtain ⟨a1, h1, h2⟩ := h
    rw [fees_fold h2 c, (Accumulator.C20_fees_combine _ _ _ h1).1 c]
    simp only [List.map_cons, List.sum_cons]
    omega

theorem upTo_le (a : Accumulator.Acc) (d : Nat) : a.upTo d ≤ a.total 0 := by
  unfold Accumulator.Acc.upTo Accumulator.Acc.total
  have : a.locked.sumV (fun k v => if k ≤ d then v else 0) ≤ a.locked.sumV (fun _ v => v) := by
    unfold BMap.sumV
    generalize a.locked.entries = es
    induction es with
    | nil => simp
    | cons e es ih =>
      simp only [List.map_cons, List.sum_cons] at ih ⊢
      split <;> omega
  simp only [if_true]
  omega

theorem feesOf_le {feeOf : Nat → Accumulator.Acc} {maturity n : Nat} {fees : List Nat}
    (h : feesOf feeOf maturity fees = .ok n) : n ≤ (fees.map fun f => (feeOf f).total 0).sum := by
  simp only [feesOf, bind_eq_ok] at h
  obtain ⟨acc, h1, h2⟩ := h
  have e := fees_fold h1 0
  have z : Accumulator.Acc.total Accumulator.Acc.empty 0 = 0 := by simp [Accumulator.Acc.total, Accumulator.Acc.empty]
  rw [Accumulator.C20_block_fees _ _ _ h2]
  have := upTo_le acc maturity
  omega

/-! ### The reward -/

theorem plan_isOut (p : Plan) : ∀ op ∈ p.ops, isPosOut op = true := by
  intro op h
  simp only [Plan.ops, List.mem_append, List.mem_map, List.mem_singleton] at h
  rcases h with ⟨e, -, rfl⟩ | rfl <;> rfl

theorem plan_gain (p : Plan) :
    (p.ops.map (poolGain fun _ => Option.none)).sum + (p.ops.map delGain).sum = (p.total : Int) := by
  simp only [Plan.ops, Plan.total, BMap.sumV, List.map_append, List.sum_append, List.map_map]
  generalize p.delegations.entries = es
  induction es with
  | nil => simp [poolGain, delGain]
  | cons e es ih =>
    simp only [List.map_cons, List.sum_cons, Function.comp_def, poolGain, delGain] at ih ⊢
    push_cast at ih ⊢
    linarith

theorem worth_pool {o : TxOutput} (h : (poolIn o).isSome) (c : Cur) : worth c o = 0 := by
  cases o <;> first | rfl | cases h

theorem sum_eq_zero {A : Type} {f : A → Int} : ∀ {l : List A}, (∀ a ∈ l, f a = 0) → (l.map f).sum = 0
  | [], _ => rfl
  | x :: l, h => by
    rw [List.map_cons, List.sum_cons, h x (by simp), sum_eq_zero fun a ha => h a (by simp [ha])]
    rfl

theorem sum_le {A : Type} {f g : A → Int} : ∀ {l : List A}, (∀ a ∈ l, f a ≤ g a) → (l.map f).sum ≤ (l.map g).sum
  | [], _ => by simp
  | x :: l, h => by
    rw [List.map_cons, List.sum_cons, List.map_cons, List.sum_cons]
    have := sum_le fun a ha => h a (List.mem_cons_of_mem x ha)
    have := h x (by simp)
    omega

theorem connectReward_value {env : Env} {read : Nat → TxOutput} {cfgOf : Src → Accumulator.Config}
    {feeOf : Nat → Accumulator.Acc} {subsidy : Nat → Nat} (hg : ValueGuards env read cfgOf feeOf subsidy)
    {v v' : TxVerifier} {b : Block} {fees : List Nat} {s : St} (h : connectReward env v b fees = .ok v')
    (hr : ∀ v1, rewardUtxo v b = .ok v1 → ∀ w ∈ rewardTrace env v1 b fees, Readable w) (hV : VRep v s)
    (hf : ∀ j, s.utxo (rewardOut b.id j) = none) :
    ∃ s', VRep v' s' ∧ s'.tokens = s.tokens ∧ s'.nft = s.nft ∧
      ∃ maturity n, feesOf feeOf maturity fees = .ok n ∧ ∀ c, ∃ δ : Int, Moved read c s s' δ ∧
        (δ ≤ if c = 0 then ((n + subsidy b.height : Nat) : Int) else 0) ∧
        (b.pos = true → δ = if c = 0 then ((n + subsidy b.height : Nat) : Int) else 0) := by
  simp only [connectReward, bind_eq_ok, ensure_eq_ok] at h
  obtain ⟨_, hck, v1, h1, h2⟩ := h
  have hr := hr v1 h1
  obtain ⟨maturity, n, hn, hin, hpos, hpow⟩ := hg.reward _ _ _ hck
  -- outputs
  have hu : ∃ l c, v1 = { v with utxo := l, utxoUndo := c } ∧
      ∃ u, Utxo.connectReward v.base.utxo v.utxo b.reward b.id b.height = .ok (l, u) := by
    simp only [rewardUtxo, bind_eq_ok, mapErr_ok, Prod.exists] at h1
    obtain ⟨l, u, h1, h3⟩ := h1
    cases u with
    | none => cases h3; exact ⟨l, v.utxoUndo, rfl, _, h1⟩
    | some u =>
      simp only [bind_eq_ok, pure_eq_ok] at h3
      obtain ⟨c, -, rfl⟩ := h3
      exact ⟨l, c, rfl, _, h1⟩
  obtain ⟨l, cu, rfl, u, hu⟩ := hu
  have hfr : Utxo.RewardFresh (v.utxo.view v.base.utxo) b.id := by
    intro j; rw [hV.utxo]; exact hf j
  obtain ⟨g1, g2, g3, g4, g5⟩ := Utxo.connectReward_set hV.uinv hfr hu
  rw [hV.utxo] at g3 g4 g5
  have hV1 : VRep { v with utxo := l, utxoUndo := cu } { s with utxo := (l.view v.base.utxo).utxo } :=
    (hV.withUtxo g1 rfl).withUndo cu v.posUndo v.tokensUndo v.ordersUndo
  have shU : ∀ c, Shift (utxoPart read c s.utxo) (utxoPart read c (l.view v.base.utxo).utxo)
      ((b.reward.outputs.getD []).map (outWorth read c)).sum := by
    intro c
    rw [g4]
    refine ((utxo_rem read c _ s.utxo g2).trans ((utxo_set read c _ _ ?_ ?_).cast (outPairs_worth ..))).cast ?_
    · exact Utxo.outPairs_nodup (fun i j e => (Utxo.rewardOut_inj.1 e).2) _ _
    · intro q hq
      obtain ⟨j, -, hj⟩ := Utxo.outPairs_mem hq
      rw [hj]; exact g5 j
    · rw [sum_eq_zero]
      · simp
      · intro k hk
        unfold utxoPart
        cases hx : s.utxo k with
        | none => rfl
        | some x =>
          have hk' : ∃ is ∈ b.reward.inputs, some k ∈ is := by
            cases hi : b.reward.inputs with
            | none => rw [hi] at hk; cases hk
            | some is =>
              rw [hi] at hk
              have hk : k ∈ is.filterMap id := hk
              rw [List.mem_filterMap] at hk
              obtain ⟨o, ho, rfl⟩ := hk
              exact ⟨is, rfl, ho⟩
          obtain ⟨is, his, hk'⟩ := hk'
          have := hin is his k x hk' (by show (v.utxo.view v.base.utxo).utxo k = _; rw [hV.utxo, hx])
          simp [worth_pool this]
  cases hb : b.pos with
  | true =>
    simp only [rewardPos, hb, if_true, bind_eq_ok, okOr_eq_ok, mapErr_ok, pure_eq_ok, Prod.exists] at h2
    obtain ⟨p, hp, v2, us, h2, c, -, rfl⟩ := h2
    simp only [rewardTrace, hb, if_true, hp] at hr
    obtain ⟨q, s1, rfl, r2, ch⟩ := posSteps_run h2 hr hV1
    obtain ⟨ho, htot⟩ := hpos hb
    obtain ⟨shP, shD⟩ := pos_out ch ⟨_, hV1.pos⟩ (plan_isOut p)
    refine ⟨_, r2.withUndo cu c v.tokensUndo v.ordersUndo, rfl, rfl, maturity, n, hn, fun c => ?_⟩
    refine ⟨_, ⟨_, _, _, _, shU c, shP, shD, Shift.refl _, rfl⟩, ?_⟩
    have e1 : ((b.reward.outputs.getD []).map (outWorth read c)).sum = 0 := by
      apply sum_eq_zero
      intro o hoo
      cases hos : b.reward.outputs with
      | none => rw [hos] at hoo; cases hoo
      | some os =>
        rw [hos] at hoo
        unfold outWorth
        simp [worth_pool (ho os hos o hoo)]
    rw [e1, plan_gain, htot _ _ hp]
    have e2 : (0 + (if c = 0 then ((n + subsidy b.height : Nat) : Int) else 0) + 0) =
        if c = 0 then ((n + subsidy b.height : Nat) : Int) else 0 := by omega
    rw [e2]
    exact ⟨le_refl _, fun _ => rfl⟩
  | false =>
    simp only [rewardPos, hb] at h2
    cases h2
    obtain ⟨cfg, i, o, r, q1, q2, q3, q4⟩ := hpow hb
    refine ⟨_, hV1, rfl, rfl, maturity, n, hn, fun c => ?_⟩
    refine ⟨_, ⟨_, _, _, _, shU c, Shift.refl _, Shift.refl _, Shift.refl _, rfl⟩, ?_, by simp [hb]⟩
    have e1 := Accumulator.C20_satisfy_conserves _ _ _ q3 c
    have e2 := (Accumulator.outputs_ok q2).1 c
    have z : Accumulator.Acc.total Accumulator.Acc.empty c = 0 := by simp [Accumulator.Acc.total, Accumulator.Acc.empty]
    have e3 : i.total c = if c = 0 then n + subsidy b.height else 0 := by
      unfold Accumulator.fromBlockReward at q1
      simp only [Option.bind_eq_bind, Option.bind_eq_some_iff, Option.pure_def, Option.some.injEq] at q1
      obtain ⟨x, hx, rfl⟩ := q1
      have : x = n + subsidy b.height := by
        unfold Amt.add at hx
        split at hx
        · exact (Option.some.inj hx).symm
        · cases hx
      subst this
      by_cases hc : c = 0
      · simp [Accumulator.Acc.total, hc, Accumulator.coin]
      · simp [Accumulator.Acc.total, hc, Accumulator.coin, BMap.get_insert_ne]
    have e4 : ((b.reward.outputs.getD []).map (outWorth read c)).sum ≤
        (((b.reward.outputs.getD []).map fun o => read o.content).map (Accumulator.placed cfg c)).sum := by
      rw [List.map_map, sum_nat]
      apply sum_le
      intro x hx
      cases hos : b.reward.outputs with
      | none => rw [hos] at hx; cases hx
      | some os =>
        rw [hos] at hx
        obtain ⟨w, lk, hw⟩ := q4 os hos x hx
        unfold outWorth
        simp only [Function.comp_def, hw, worth, Accumulator.placed]
        split <;> simp
    generalize ((((b.reward.outputs.getD []).map fun o => read o.content).map (Accumulator.placed cfg c)).sum) = P at e2 e4
    generalize (((b.reward.outputs.getD []).map (outWorth read c)).sum) = W at e4 ⊢
    split at e3
    · rename_i hc
      simp only [hc, if_true] at *
      omega
    · rename_i hc
      simp only [hc, if_false] at *
      omega

/-! ### Transactions of a block -/

/-- tokens minted by a transaction -/
def Tx.minted (c : Cur) (t : Tx) : Int := (t.inputs.map fun i => (mintedBy c i : Int)).sum

/-- NFTs issued by a transaction -/
def Tx.nfts (read : Nat → TxOutput) (c : Cur) (t : Tx) : Int :=
  (t.outputs.map fun o => (nftBy c (read o.out.content) : Int)).sum

/-- what a transaction burns -/
def Tx.burns (read : Nat → TxOutput) (cfg : Accumulator.Config) (c : Cur) (t : Tx) : Int :=
  (t.outputs.map fun o => (lostBy cfg c (read o.out.content) : Int)).sum

/-- the fees a transaction is charged for its commands -/
def Tx.charged (cfg : Accumulator.Config) (c : Cur) (t : Tx) : Int :=
  (t.inputs.map fun i => (Accumulator.commandFee cfg c i.toAcc : Int)).sum

theorem connectTxs_value {env : Env} {read : Nat → TxOutput} {cfgOf : Src → Accumulator.Config}
    {feeOf : Nat → Accumulator.Acc} {subsidy : Nat → Nat} (hg : ValueGuards env read cfgOf feeOf subsidy)
    {src : Src} : ∀ (txs : List Tx) {v v' : TxVerifier} {fees : List Nat} {s : St},
    connectTxs env src v txs = .ok (v', fees) → (∀ w ∈ txsTrace env src v txs, Readable w) → VRep v s →
    (∀ tx ∈ txs, ∀ j, s.utxo (txOut tx.id j) = none) → (txs.map Tx.id).Nodup →
    (∀ t ∈ txs, ∀ o ∈ t.outputs, Fits o.effect (read o.out.content) o.out.inUtxoSet) →
    ∃ s', VRep v' s' ∧ (∀ k, (∀ tx ∈ txs, ∀ j, k ≠ txOut tx.id j) → s.utxo k = none → s'.utxo k = none) ∧
      (∀ c, Moved read c s s' ((txs.map (Tx.minted c)).sum + (txs.map (Tx.nfts read c)).sum -
        (txs.map (Tx.burns read (cfgOf src) c)).sum - (txs.map (Tx.charged (cfgOf src) c)).sum -
        (fees.map fun f => ((feeOf f).total c : Int)).sum)) ∧
      (∀ id, (s.tokens.supply id : Int) + (txs.map (Tx.minted (id + 1))).sum ≤
        s'.tokens.supply id + (txs.map (Tx.burns read (cfgOf src) (id + 1))).sum) ∧
      (CapOk s.tokens → CapOk s'.tokens) ∧
      ∀ id, (nftCount s' id : Int) = nftCount s id + (txs.map (Tx.nfts read (id + 1))).sum
  | [], v, v', fees, s, h, _, hV, _, _, _ => by
    cases h
    exact ⟨s, hV, fun _ _ h => h, fun c => (Moved.refl read c s).cast (by simp), fun _ => by simp, fun h => h, fun _ => by simp⟩
  | tx :: txs, v, v', fees, s, h, hr, hV, hp, hn, hd => by
    simp only [connectTxs, bind_eq_ok, pure_eq_ok, Prod.exists, Prod.mk.injEq] at h
    obtain ⟨v1, fee, h1, v2, fs, h2, rfl, rfl⟩ := h
    simp only [txsTrace, h1, after, List.mem_append] at hr
    rw [List.map_cons, List.nodup_cons] at hn
    obtain ⟨s1, r1, k1, m1, t1, p1, n1⟩ := connectTx_value hg h1 (fun w hw => hr w (.inl hw)) hV (hp tx (by simp))
      (hd tx (by simp))
    obtain ⟨s2, r2, k2, m2, t2, p2, n2⟩ := connectTxs_value hg txs h2 (fun w hw => hr w (.inr hw)) r1 (by
        intro t ht j
        refine k1 _ (fun j' e => ?_) (hp t (by simp [ht]) j)
        exact hn.1 (List.mem_map.2 ⟨t, ht, (Utxo.txOut_inj.1 e).1⟩)) hn.2 (fun t ht => hd t (by simp [ht]))
    refine ⟨s2, r2, ?_, ?_, ?_, fun h => p2 (p1 h), ?_⟩
    · intro k hk hs
      exact k2 k (fun t ht => hk t (by simp [ht])) (k1 k (hk tx (by simp)) hs)
    · intro c
      refine ((m1 c).trans (m2 c)).cast ?_
      simp only [List.map_cons, List.sum_cons, Tx.minted, Tx.nfts, Tx.burns, Tx.charged]
      omega
    · intro id
      have a := t1 id
      have b := t2 id
      simp only [List.map_cons, List.sum_cons]
      simp only [Tx.minted, Tx.burns] at a b ⊢
      omega
    · intro id
      have a := n1 id
      have b := n2 id
      simp only [List.map_cons, List.sum_cons]
      simp only [Tx.nfts] at a b ⊢
      omega

/-- **one block** -/
theorem connectBlock_value {env : Env} {read : Nat → TxOutput} {cfgOf : Src → Accumulator.Config}
    {feeOf : Nat → Accumulator.Acc} {subsidy : Nat → Nat} (hg : ValueGuards env read cfgOf feeOf subsidy)
    {v v' : TxVerifier} {b : Block} {s : St} (h : connectBlock env v b = .ok v')
    (hr : ∀ w ∈ blockTrace env v b, Readable w) (hV : VRep v s)
    (hp : ∀ tx ∈ b.txs, ∀ j, s.utxo (txOut tx.id j) = none) (hnd : (b.txs.map Tx.id).Nodup)
    (hf : ∀ j, s.utxo (rewardOut b.id j) = none) (hd : Described read b) :
    ∃ s', VRep v' s' ∧
      (∃ v1 fees maturity n, connectTxs env b.src v b.txs = .ok (v1, fees) ∧ feesOf feeOf maturity fees = .ok n ∧
        ∀ c, ∃ δ reward, Moved read c s s' δ ∧ δ + (b.txs.map (Tx.burns read (cfgOf b.src) c)).sum +
            (b.txs.map (Tx.charged (cfgOf b.src) c)).sum + (fees.map fun f => ((feeOf f).total c : Int)).sum =
          (b.txs.map (Tx.minted c)).sum + (b.txs.map (Tx.nfts read c)).sum + reward ∧
          (reward ≤ if c = 0 then ((n + subsidy b.height : Nat) : Int) else 0) ∧
          (b.pos = true → reward = if c = 0 then ((n + subsidy b.height : Nat) : Int) else 0)) ∧
      (∀ id, (s.tokens.supply id : Int) + (b.txs.map (Tx.minted (id + 1))).sum ≤
        s'.tokens.supply id + (b.txs.map (Tx.burns read (cfgOf b.src) (id + 1))).sum) ∧
      (CapOk s.tokens → CapOk s'.tokens) ∧
      ∀ id, (nftCount s' id : Int) = nftCount s id + (b.txs.map (Tx.nfts read (id + 1))).sum := by
  simp only [connectBlock, bind_eq_ok, pure_eq_ok, Prod.exists] at h
  obtain ⟨v1, fees, h1, v3, h2, rfl⟩ := h
  simp only [blockTrace, h1, after, List.mem_append] at hr
  obtain ⟨s1, r1, k1, m1, t1, p1, n1⟩ := connectTxs_value hg b.txs h1 (fun w hw => hr w (.inl hw)) hV hp hnd hd
  obtain ⟨s2, r2, e1, e2, maturity, n, hn, m2⟩ := connectReward_value hg h2 (fun v4 h4 w hw => hr w (.inr (by rw [h4]; exact hw))) r1
    (fun j => k1 _ (fun tx _ j' => Utxo.txOut_ne_rewardOut.symm) (hf j))
  refine ⟨s2, r2.setBest b.id, ?_, by rw [e1]; exact t1, by rw [e1]; exact p1, ?_⟩
  · refine ⟨v1, fees, maturity, n, h1, hn, fun c => ?_⟩
    obtain ⟨δ, m3, hδ⟩ := m2 c
    exact ⟨_, δ, (m1 c).trans m3, by omega, hδ⟩
  · intro id
    rw [← n1 id]
    unfold nftCount
    rw [e2]

theorem VRep.inj {v : TxVerifier} {s s' : St} (h : VRep v s) (h' : VRep v s') : s = s' := by
  obtain ⟨a1, a2, a3, a4, a5, a6, a7⟩ := s
  obtain ⟨b1, b2, b3, b4, b5, b6, b7⟩ := s'
  have e1 := h.utxo.symm.trans h'.utxo
  have e2 := h.pos.inj h'.pos
  have e3 := h.tokens.inj h'.tokens
  have e4 := h.orders.inj h'.orders
  have e5 : a5 = b5 := funext fun a => (h.next a).symm.trans (h'.next a)
  have e6 : a6 = b6 := funext fun a => (h.nft a).symm.trans (h'.nft a)
  have e7 : a7 = b7 := funext fun a => (h.nftByTx a).symm.trans (h'.nftByTx a)
  simp only at e1 e2 e3 e4
  subst e1 e2 e3 e4 e5 e6 e7
  rfl

/-! ### Stored states -/

theorem LRep.holds {read : Nat → TxOutput} {c : Cur} {l l' : Ledger} {s s' : St} {δ : Int} (h : LRep l s) (h' : LRep l' s')
    (hm : Moved read c s s' δ) : l'.holds read c = l.holds read c + δ := by
  obtain ⟨a, p, d, o, m1, m2, m3, m4, rfl⟩ := hm
  have e1 := Shift.sumV (m := l.utxo.utxos) (m' := l'.utxo.utxos)
    (g := fun _ (x : Coin) => (worth c (read x.output.content) : Int))
    (g' := fun _ (x : Coin) => (worth c (read x.output.content) : Int)) (δ := a) (by
      unfold utxoPart at m1
      rw [← h.utxo, ← h'.utxo] at m1
      exact m1)
  have e2 := Shift.sumV (m := l.pos.poolData) (m' := l'.pos.poolData)
    (g := fun _ (d : Pos.PoolData) => ((d.pledge + d.rewards : Nat) : Int))
    (g' := fun _ (d : Pos.PoolData) => ((d.pledge + d.rewards : Nat) : Int)) (δ := p) (by
      have x := funext h.pos.poolData
      have y := funext h'.pos.poolData
      unfold ownPart at m2
      rw [← x, ← y] at m2
      exact m2)
  have e3 := Shift.sumV (m := l.pos.delegationBalances) (m' := l'.pos.delegationBalances)
    (g := fun _ (n : Nat) => (n : Int)) (g' := fun _ (n : Nat) => (n : Int)) (δ := d) (by
      have x : (fun k => ((l.pos.delegationBalances.get k).map fun (n : Nat) => (n : Int)).getD 0) = delPart s.pos.delBal := by
        funext k
        unfold delPart
        rw [← h.pos.delBal k]
        unfold Accounting.bal
        cases l.pos.delegationBalances.get k <;> rfl
      have y : (fun k => ((l'.pos.delegationBalances.get k).map fun (n : Nat) => (n : Int)).getD 0) = delPart s'.pos.delBal := by
        funext k
        unfold delPart
        rw [← h'.pos.delBal k]
        unfold Accounting.bal
        cases l'.pos.delegationBalances.get k <;> rfl
      rw [x, y]
      exact m3)
  have ord : ∀ {l : Ledger} {s : St}, LRep l s → (fun k => ((l.orders.data.get k).map (fun d =>
      orderHolds c d ((l.orders.ask.get k).getD 0) ((l.orders.give.get k).getD 0))).getD 0) = ordPart c s.orders := by
    intro l s h
    funext k
    unfold ordPart
    rw [← h.orders.data k, ← h.orders.ask k, ← h.orders.give k]
    rfl
  have e4 := Shift.sumV (m := l.orders.data) (m' := l'.orders.data)
    (g := fun id (d : Orders.OrderData) => orderHolds c d ((l.orders.ask.get id).getD 0) ((l.orders.give.get id).getD 0))
    (g' := fun id (d : Orders.OrderData) => orderHolds c d ((l'.orders.ask.get id).getD 0) ((l'.orders.give.get id).getD 0))
    (δ := o) (by
      have x := ord h
      have y := ord h'
      rw [← x, ← y] at m4
      exact m4)
  unfold Ledger.holds
  rw [e1, e2, e3, e4]
  split <;> omega

end Verif.Verifier
