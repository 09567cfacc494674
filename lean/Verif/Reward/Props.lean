import Verif.Reward.Lemmas
import Verif.Pos.Props

/-!
# Properties of block reward distribution (C22)
-/

set_option maxRecDepth 100000

namespace Verif.Reward
open Verif Verif.Pos Verif.Accounting Verif.History

/-- **C22 (who gets what).**  When a reward is paid to a pool, the pool's balance grows by exactly the reward; every
delegation's balance and share grow by its rounded-down pro-rata part of what the owner's cut leaves; the owner's reward
counter grows by all the rest; nothing else changes.  `hsrc`: delegations with a share in the pool belong to the pool
(`C06_consistent`). -/
theorem C22_distribution (c c' : Cache) (p total : Nat) (ver : Version) (us : List Undo)
    (h : distribute c p total ver = .ok (c', us))
    (d : PoolData) (b : Nat) (o : Option (BMap Nat Nat))
    (hd : c.view.poolData p = .ok (some d)) (hb : c.view.poolBalance p = .ok b) (ho : c.view.shares p = .ok o)
    (hsrc : ∀ e, shareOf o e ≠ 0 → ∃ k, c.view.delegationData e = .ok (some ⟨k, p⟩)) :
    ∃ cut rest, cut = ownerCut ver total d.costPerBlock d.margin (d.pledge + d.rewards) b ∧ cut + rest = total ∧
      c'.view.poolData p = .ok (some { d with rewards := d.rewards + (total - parts o rest) }) ∧
      (∀ b', c'.view.poolBalance p = .ok b' → b' = b + total) ∧
      (∀ e x x', c.view.delegationBalance e = .ok x → c'.view.delegationBalance e = .ok x' → x' = x + part o rest e) ∧
      (∀ e x x', c.view.share (key p e) = .ok x → c'.view.share (key p e) = .ok x' → x' = x + part o rest e) ∧
      (∀ q, q ≠ p → c'.view.poolData q = c.view.poolData q) ∧
      (∀ q x x', q ≠ p → c.view.poolBalance q = .ok x → c'.view.poolBalance q = .ok x' → x' = x) ∧
      (∀ q e x x', q ≠ p → c.view.share (key q e) = .ok x → c'.view.share (key q e) = .ok x' → x' = x) ∧
      (∀ e, c'.view.delegationData e = c.view.delegationData e) := by
  obtain ⟨d', b', s, c1, us1, u, h1, h2, h3, h4, h5, h6, rfl⟩ := distribute_ok ho h
  rw [hd] at h1; cases h1
  rw [hb] at h2; cases h2
  obtain ⟨hs, -⟩ := stakerReward_ok h3
  obtain ⟨i1, i2, i3, i4, i5, i6⟩ := delegateAll_ok h5 p (fun x hx => hsrc _ (payouts_share hx))
  obtain ⟨d2, bs, pd, du, j1, j2, j3, j4, rfl, -⟩ := increaseStakerRewards_ok.1 h6
  have hd2 : d2 = d := by
    have : c1.view.poolData p = c.view.poolData p := by
      simp only [Cache.view]; rw [i1, i2]
    rw [this, hd] at j1; cases j1; rfl
  subst hd2
  have hle := parts_le o (total - s)
  refine ⟨s, total - s, hs, by omega, ?_, ?_, ?_, ?_, ?_, ?_, ?_, ?_⟩
  · simp only [Cache.view]
    rw [getVal_merged j4, if_pos rfl]
  · intro b' hb'
    simp only [Cache.view] at hb hb'
    rw [i1] at hb'
    refine getBal_shift ?_ hb hb'
    rw [dval_add j2, i4, if_pos rfl, if_pos rfl, payouts_sum]
    omega
  · intro e x x' hx hx'
    simp only [Cache.view] at hx hx'
    rw [i1] at hx'
    refine getBal_shift ?_ hx hx'
    rw [i5, payouts_part]
  · intro e x x' hx hx'
    simp only [Cache.view] at hx hx'
    rw [i1] at hx'
    refine getBal_shift ?_ hx hx'
    rw [i6]
    simp only [key_eq, true_and]
    rw [payouts_part]
  · intro q hq
    simp only [Cache.view]
    rw [getVal_merged j4, if_neg hq, i1, i2]
  · intro q x x' hq hx hx'
    simp only [Cache.view] at hx hx'
    rw [i1] at hx'
    refine getBal_shift (a := 0) ?_ hx hx'
    rw [dval_add j2, i4, if_neg hq, if_neg hq]; simp
  · intro q e x x' hq hx hx'
    simp only [Cache.view] at hx hx'
    rw [i1] at hx'
    refine getBal_shift (a := 0) ?_ hx hx'
    rw [i6]
    simp only [key_eq, hq, false_and, if_false]
    simp
  · intro e
    simp only [Cache.view]
    rw [i1, i3]

/-- **C22 (nothing created, nothing lost).**  The owner's part and the delegations' parts add up to the reward; the owner
gets at least the fixed cost (or everything, if the reward is smaller); the part of a delegation is at most its exact
pro-rata part; less than one unit per delegation is lost to rounding, and it goes to the owner. -/
theorem C22_split (ver : Version) (total cost mpt owner pool : Nat) (hm : mpt ≤ 1000) (hp : owner ≤ pool)
    (o : Option (BMap Nat Nat)) :
    ∃ cut rest, cut = ownerCut ver total cost mpt owner pool ∧ cut + rest = total ∧ min cost total ≤ cut ∧
      parts o rest ≤ rest ∧
      (∀ d, part o rest d * sharesTotal o ≤ rest * shareOf o d ∧
        (sharesTotal o ≠ 0 → rest * shareOf o d < (part o rest d + 1) * sharesTotal o)) ∧
      (∀ m, o = some m → sharesTotal o ≠ 0 → rest - parts o rest < max 1 m.entries.length) := by
  have hc := ownerCut_le (ver := ver) (total := total) (cost := cost) hm hp
  refine ⟨_, total - ownerCut ver total cost mpt owner pool, rfl, by omega, ownerCut_ge, parts_le _ _, fun d => ?_, ?_⟩
  · generalize total - ownerCut ver total cost mpt owner pool = rest
    unfold part
    split
    · simp_all
    · rename_i h0
      refine ⟨Nat.div_mul_le_self _ _, fun _ => ?_⟩
      rw [Nat.mul_comm (_ + 1)]
      exact Nat.lt_mul_div_succ _ (Nat.pos_of_ne_zero h0)
  · rintro m rfl h0
    have h1 := parts_le (some m) (total - ownerCut ver total cost mpt owner pool)
    have h2 := parts_remainder m (total - ownerCut ver total cost mpt owner pool) h0
    have h3 : 1 ≤ max 1 m.entries.length := le_max_left _ _
    have h4 : m.entries.length ≤ max 1 m.entries.length := le_max_right _ _
    rcases h2 with h2 | h2 <;> omega

/-- a larger share never gets a smaller part -/
theorem C22_fair (o : Option (BMap Nat Nat)) (rest d e : Nat) (h : shareOf o d ≤ shareOf o e) :
    part o rest d ≤ part o rest e := by
  unfold part
  split
  · exact le_refl _
  · exact Nat.div_le_div_right (Nat.mul_le_mul_left _ h)

/-- **C22 (undo).**  Distribution performs ordinary staking operations; undoing what it returned restores every query. -/
theorem C22_undo (c c' : Cache) (hi : Inv c) (p total : Nat) (ver : Version) (us : List Undo)
    (o : Option (BMap Nat Nat)) (ho : c.view.shares p = .ok o)
    (h : distribute c p total ver = .ok (c', us)) : ∃ t, undoAll undo c' us = .ok t ∧ t.view = c.view := by
  obtain ⟨d', b', s, c1, us1, u, h1, h2, h3, h4, h5, h6, rfl⟩ := distribute_ok ho h
  have r1 := delegateAll_run h5
  have r2 : run step c1 [Op.increaseStakerRewards p (total - parts o (total - s))] = .ok (c', [u]) := by
    simp only [run, bind_eq_ok, pure_eq_ok]
    exact ⟨(c', u), h6, (c', []), rfl, rfl⟩
  exact C04_undo_history c hi _ c' _ (run_append r1 r2)

/-- **C22 (totality).**  For a pool with sound numbers (owner's balance within the pool balance, margin at most 1000
per mille, amounts of 128 bits) no arithmetic step of the distribution panics or fails: version 1 can only fail in the
staking operations themselves; version 0 also when reward × margin exceeds 128 bits. -/
theorem C22_no_arithmetic_failure (c : Cache) (p total : Nat) (ver : Version)
    (d : PoolData) (b : Nat) (o : Option (BMap Nat Nat))
    (hd : c.view.poolData p = .ok (some d)) (hb : c.view.poolBalance p = .ok b) (ho : c.view.shares p = .ok o)
    (hm : d.margin ≤ 1000) (h0 : 0 < b) (hpb : d.pledge + d.rewards ≤ b) (hbb : b < U128) (hT : sharesTotal o < U128)
    (ht : total < U128) (e : Err) (h : distribute c p total ver = .error e) :
    (∃ x, e = .pos x) ∨ (ver = .v0 ∧ e = .stakerRewardCalculationFailed ∧
      (total - d.costPerBlock) * d.margin ≥ U128) := by
  have hcut := ownerCut_le (ver := ver) (total := total) (cost := d.costPerBlock) hm hpb
  have hsr : stakerReward ver total b d = .ok (ownerCut ver total d.costPerBlock d.margin (d.pledge + d.rewards) b) ∨
      (ver = .v0 ∧ stakerReward ver total b d = .error .stakerRewardCalculationFailed ∧
        (total - d.costPerBlock) * d.margin ≥ U128) := by
    cases ver with
    | v1 =>
      left
      simp only [stakerReward, PoolData.stakerBalance]
      rw [Amt_add_some.2 ⟨by omega, rfl⟩]
      exact stakerRewardV1_isOk ht hbb hm hpb h0
    | v0 =>
      cases hv : stakerRewardV0 total d.costPerBlock d.margin with
      | some r =>
        left
        simp only [stakerReward, hv]
        rw [← stakerRewardV0_some hv]; rfl
      | none =>
        right
        refine ⟨rfl, by simp only [stakerReward, hv]; rfl, ?_⟩
        by_contra hlt
        rw [not_le] at hlt
        unfold stakerRewardV0 at hv
        cases hs : Amt.sub total d.costPerBlock with
        | none => rw [hs] at hv; cases hv
        | some t =>
          obtain ⟨h3, rfl⟩ := sub_some.1 hs
          have hml := margin_le (t := total - d.costPerBlock) hm
          rw [hs] at hv
          simp only [Option.bind_eq_bind, mul_some.2 ⟨hlt, rfl⟩, Option.bind_some,
            div_some.2 ⟨(by decide : (1000 : Nat) ≠ 0), rfl⟩] at hv
          rw [Amt_add_some.2 ⟨by omega, rfl⟩] at hv
          cases hv
  simp only [distribute, hd, hb, Except.mapError, okOr, bind, Except.bind] at h
  rcases hsr with hsr | ⟨rfl, hsr, hbig⟩
  · left
    rw [hsr] at h
    generalize ownerCut ver total d.costPerBlock d.margin (d.pledge + d.rewards) b = cut at h hcut
    simp only [sub_some.2 ⟨hcut, rfl⟩] at h
    cases hr : distributeRest c p (total - cut) with
    | error y => rw [hr] at h; cases h; exact distributeRest_error ho hT (by omega) hr
    | ok y =>
      obtain ⟨c1, us, rem⟩ := y
      rw [hr] at h
      obtain ⟨-, hrem⟩ := distributeRest_ok ho hr
      have hlt : cut + rem < U128 := by omega
      simp only [Amt_add_some.2 ⟨hlt, rfl⟩] at h
      cases hi : increaseStakerRewards c1 p (cut + rem) with
      | error z => rw [hi] at h; cases h; exact ⟨z, rfl⟩
      | ok z => rw [hi] at h; cases h
  · right
    rw [hsr] at h
    cases h
    exact ⟨rfl, rfl, hbig⟩

/-- the sample pool: pledge 100, margin 10 %, cost 5 -/
def rewPool : PoolData := ⟨1, 100, 0, 2, 100, 5⟩

/-- sample state: delegations of 60 and 40 next to the owner's 100 -/
def rewOps : List Op :=
  [.createPool 7 rewPool, .createDelegationId 7 20 5, .createDelegationId 7 21 5, .delegateStaking 20 60,
   .delegateStaking 21 40]

/-- non-vacuity: a reward of 105; version 1: cost 5 + pro-rata 50 + margin 5 to the owner, 27 and 18 to the delegations -/
example : ∃ x y, run step (Cache.new emptyDB.view) rewOps = .ok x ∧ distribute x.1 7 105 .v1 = .ok y ∧
    y.1.view.poolData 7 = .ok (some { rewPool with rewards := 60 }) ∧ y.1.view.poolBalance 7 = .ok 305 ∧
    y.1.view.delegationBalance 20 = .ok 87 ∧ y.1.view.delegationBalance 21 = .ok 58 := by
  obtain ⟨x, h1, h2⟩ := okAnd_spec (x := run step (Cache.new emptyDB.view) rewOps) (P := fun x =>
    okAnd (distribute x.1 7 105 .v1) (fun y =>
      decide (y.1.view.poolData 7 = .ok (some { rewPool with rewards := 60 }) ∧ y.1.view.poolBalance 7 = .ok 305 ∧
        y.1.view.delegationBalance 20 = .ok 87 ∧ y.1.view.delegationBalance 21 = .ok 58))) (by decide +kernel)
  obtain ⟨y, h3, h4⟩ := okAnd_spec h2
  exact ⟨x, y, h1, h3, of_decide_eq_true h4⟩

/-- version 0 on the same pool, reward 107: cost 5 + margin 10 + rounding 1 to the owner, 55 and 36 to the delegations -/
example : ∃ x y, run step (Cache.new emptyDB.view) rewOps = .ok x ∧ distribute x.1 7 107 .v0 = .ok y ∧
    y.1.view.poolData 7 = .ok (some { rewPool with rewards := 16 }) ∧ y.1.view.poolBalance 7 = .ok 307 ∧
    y.1.view.delegationBalance 20 = .ok 115 ∧ y.1.view.delegationBalance 21 = .ok 76 := by
  obtain ⟨x, h1, h2⟩ := okAnd_spec (x := run step (Cache.new emptyDB.view) rewOps) (P := fun x =>
    okAnd (distribute x.1 7 107 .v0) (fun y =>
      decide (y.1.view.poolData 7 = .ok (some { rewPool with rewards := 16 }) ∧ y.1.view.poolBalance 7 = .ok 307 ∧
        y.1.view.delegationBalance 20 = .ok 115 ∧ y.1.view.delegationBalance 21 = .ok 76))) (by decide +kernel)
  obtain ⟨y, h3, h4⟩ := okAnd_spec h2
  exact ⟨x, y, h1, h3, of_decide_eq_true h4⟩

/-- a reward below the cost goes to the owner alone -/
example : ∃ x y, run step (Cache.new emptyDB.view) rewOps = .ok x ∧ distribute x.1 7 4 .v1 = .ok y ∧
    y.1.view.poolData 7 = .ok (some { rewPool with rewards := 4 }) ∧ y.1.view.delegationBalance 20 = .ok 60 := by
  obtain ⟨x, h1, h2⟩ := okAnd_spec (x := run step (Cache.new emptyDB.view) rewOps) (P := fun x =>
    okAnd (distribute x.1 7 4 .v1) (fun y =>
      decide (y.1.view.poolData 7 = .ok (some { rewPool with rewards := 4 }) ∧
        y.1.view.delegationBalance 20 = .ok 60))) (by decide +kernel)
  obtain ⟨y, h3, h4⟩ := okAnd_spec h2
  exact ⟨x, y, h1, h3, of_decide_eq_true h4⟩

/-- the version 0 overflow: a reward × margin beyond 128 bits is refused, although the result would fit -/
example : (stakerRewardV0 (2 ^ 127) 0 1000).isNone = true ∧ (stakerRewardV0 (2 ^ 127) 0 1).isSome = true := by
  decide +kernel

end Verif.Reward
