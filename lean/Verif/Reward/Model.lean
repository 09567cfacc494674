import Verif.Pos.Model

/-!
# Model of `chainstate/tx-verifier/src/transaction_verifier/reward_distribution.rs`
-/

namespace Verif.Reward
open Verif Verif.Pos

/-- `RewardDistributionError` – reward_distribution.rs 30-62 (payloads dropped), and failed `expect`s -/
inductive Err
  | pos (e : Pos.Err)
  | poolBalanceIsZero
  | stakerBalanceGreaterThanPoolBalance
  | rewardAddition
  | totalDelegationBalanceZero
  | poolDataNotFound
  | stakerRewardCalculationFailed
  | stakerRewardCannotExceedTotalReward
  | distributedExceedTotal
  | delegationRewardOverflow
  | delegationsRewardSumFailed
  | stakerRewardOverflow
  | panicked
  deriving DecidableEq, Repr

/-- `RewardDistributionVersion` – common/src/chain/upgrades/chainstate_upgrade/mod.rs 29-36 -/
inductive Version
  | v0
  | v1
  deriving DecidableEq, Repr

/-- `2^256` -/
def U256 : Nat := U128 * U128

/-- checked multiplication of 256-bit numbers with `expect` -/
def mul256 (a b : Nat) : Except Err Nat := if a * b < U256 then .ok (a * b) else .error .panicked

/-- conversion of a 256-bit number to 128 bits with `expect` -/
def to128 (a : Nat) : Except Err Nat := if a < U128 then .ok a else .error .panicked

/-- `calculate_staker_reward_v0` – reward_distribution.rs 153-167 -/
def stakerRewardV0 (total cost mpt : Nat) : Option Nat :=
  match Amt.sub total cost with
  | some t => do
    let a ← Amt.mul t mpt
    let b ← Amt.div a 1000
    Amt.add b cost
  | none => some total

/-- `calculate_staker_reward_v1` – reward_distribution.rs 169-231 -/
def stakerRewardV1 (total poolBalance stakerBalance cost mpt : Nat) : Except Err Nat := do
  ensure (stakerBalance ≤ poolBalance) .stakerBalanceGreaterThanPoolBalance
  ensure (poolBalance > 0) .poolBalanceIsZero
  match Amt.sub total cost with
  | some t => do
    let numer ← mul256 t stakerBalance
    let proRata ← okOr (Amt.div numer poolBalance) .panicked
    let proRata ← to128 proRata
    let delegators ← okOr (Amt.sub t proRata) .panicked
    let m ← mul256 delegators mpt
    let margin ← okOr (Amt.div m 1000) .panicked
    let margin ← to128 margin
    let s ← okOr (Amt.add margin proRata) .stakerRewardOverflow
    okOr (Amt.add s cost) .stakerRewardOverflow
  | none => pure total

/-- one delegation of `calculate_rewards_per_delegation` – reward_distribution.rs 299-313 -/
def delegationReward (totalBalance totalReward balance : Nat) : Except Err Nat := do
  let numer ← mul256 totalReward balance
  let r ← okOr (Amt.div numer totalBalance) .totalDelegationBalanceZero
  if r < U128 then pure r else .error .delegationRewardOverflow

/-- `calculate_rewards_per_delegation` – reward_distribution.rs 279-316 -/
def rewardsPerDelegation (shares : BMap Nat Nat) (totalBalance totalReward : Nat) : Except Err (List (Nat × Nat)) := do
  ensure (totalBalance ≠ 0) .totalDelegationBalanceZero
  shares.entries.mapM (fun kv => do
    let r ← delegationReward totalBalance totalReward kv.2
    pure (kv.1, r))

/-- the loop of `delegate_staking` calls – reward_distribution.rs 250-259 -/
def delegateAll (c : Cache) : List (Nat × Nat) → Except Err (Cache × List Undo)
  | [] => pure (c, [])
  | (d, r) :: l => do
    let (c1, u) ← (delegateStaking c d r).mapError Err.pos
    let (c2, us) ← delegateAll c1 l
    pure (c2, u :: us)

/-- `distribute_delegations_pos_reward` – reward_distribution.rs 234-277 -/
def distributeDelegations (c : Cache) (shares : BMap Nat Nat) (totalBalance totalReward : Nat) :
    Except Err (Cache × List Undo × Nat) := do
  let rewards ← rewardsPerDelegation shares totalBalance totalReward
  let (c, us) ← delegateAll c (rewards.filter (fun x => x.2 > 0))
  let distributed ← okOr (Amt.sum (rewards.map Prod.snd)) .delegationsRewardSumFailed
  let remainder ← okOr (Amt.sub totalReward distributed) .distributedExceedTotal
  pure (c, us, remainder)

/-- reward for delegations and what is left of it – reward_distribution.rs 107-137 -/
def distributeRest (c : Cache) (p reward : Nat) : Except Err (Cache × List Undo × Nat) :=
  if reward > 0 then do
    let o ← (c.view.shares p).mapError Err.pos
    match o with
    | some shares => do
      let b ← okOr (Amt.sum (shares.entries.map Prod.snd)) .delegationsRewardSumFailed
      if b > 0 then distributeDelegations c shares b reward else pure (c, [], reward)
    | none => pure (c, [], reward)
  else pure (c, [], 0)

/-- the reward of the pool owner before the remainder – reward_distribution.rs 80-98 -/
def stakerReward (ver : Version) (total poolBalance : Nat) (d : PoolData) : Except Err Nat :=
  match ver with
  | .v0 => okOr (stakerRewardV0 total d.costPerBlock d.margin) .stakerRewardCalculationFailed
  | .v1 => do
    let s ← d.stakerBalance.mapError Err.pos
    stakerRewardV1 total poolBalance s d.costPerBlock d.margin

/-- `distribute_pos_reward` – reward_distribution.rs 64-151 -/
def distribute (c : Cache) (p total : Nat) (ver : Version) : Except Err (Cache × List Undo) := do
  let od ← (c.view.poolData p).mapError Err.pos
  let d ← okOr od .poolDataNotFound
  let b ← (c.view.poolBalance p).mapError Err.pos
  let s ← stakerReward ver total b d
  let rest ← okOr (Amt.sub total s) .stakerRewardCannotExceedTotalReward
  let (c, us, unallocated) ← distributeRest c p rest
  let ts ← okOr (Amt.add s unallocated) .rewardAddition
  let (c, u) ← (increaseStakerRewards c p ts).mapError Err.pos
  pure (c, us ++ [u])

end Verif.Reward
