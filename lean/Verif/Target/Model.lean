import Verif.BlockTree.Model
import Verif.Compact.Model

/-!
# Required targets: proof of stake and proof of work

Model of consensus/src/pos/target.rs, consensus/src/pow/{work,helpers,mod}.rs, consensus/src/validator.rs and
common/src/chain/upgrades/{netupgrade,consensus_upgrade}.rs on top of the block index tree of `Verif.BlockTree`.

The checked operations of `Uint256`/`Uint512` are modelled by their exact meaning on numbers, which is what `C39_*` prove about the word-level
code.  Compact targets are those of `Verif.Compact`.  Block heights are assumed below 2^63 only in theorems, the model has the error cases.
Not modelled: stake kernel, signature, VRF and stake hash checks of a proof of stake block (they only reject more blocks).
-/

namespace Verif.Target
open Verif

/-! ### integers -/

/-- `Uint512 * Uint512` – common/src/uint/impls.rs `Mul` (exact, see `C39_mul`) -/
def mul512 (a b : Nat) : Option Nat := if a * b < 2 ^ 512 then some (a * b) else none
/-- `Uint256 * Uint256` -/
def mul256 (a b : Nat) : Option Nat := if a * b < 2 ^ 256 then some (a * b) else none
/-- `Uint512 + Uint512` -/
def add512 (a b : Nat) : Option Nat := if a + b < 2 ^ 512 then some (a + b) else none
/-- `Uint512 - Uint512` -/
def sub512 (a b : Nat) : Option Nat := if b ≤ a then some (a - b) else none
/-- `Uint256 / Uint256`, `Uint512 / Uint512` -/
def divU (a b : Nat) : Option Nat := if b = 0 then none else some (a / b)

/-- `num::clamp` -/
def clamp (v lo hi : Nat) : Nat := if v < lo then lo else if v > hi then hi else v

/-- `BlockHeight - BlockDistance` – common/src/primitives/height.rs 82-101 (the distance is not negative here) -/
def heightSub (h d : Nat) : Option Nat := if 2 ^ 63 ≤ h then none else if h < d then none else some (h - d)

/-! ### upgrades -/

/-- `PoSChainConfig` – common/src/chain/pos/config.rs 24-35; the maturity and the consensus version play no role for targets -/
structure PosCfg where
  targetLimit : Nat
  countToAverage : Nat
  changeLimit : Nat
  deriving DecidableEq, Repr

/-- `ConsensusUpgrade` – consensus_upgrade.rs 31-43 -/
inductive Upgrade
  | pow (initial : Nat)
  | pos (initial : Option Nat) (cfg : PosCfg)
  | ignore
  deriving DecidableEq, Repr

/-- `RequiredConsensus`, `PoWStatus`, `PoSStatus` – consensus_upgrade.rs 45-76 -/
inductive Required
  | powOngoing
  | powThreshold (initial : Nat)
  | posOngoing (cfg : PosCfg)
  | posThreshold (initial : Option Nat) (cfg : PosCfg)
  | ignore
  deriving DecidableEq, Repr

/-- errors and panics -/
inductive Err
  | decodingBits | emptyTimespan | notMonotonic | prevNotFound | invalidTargetBlockTime | ancestor
  | invalidTarget | strictOrder | typeMismatch | noPowData | invalidPow
  | panicMul | panicDiv | panicSub | panicAdd | panicHeight | panicPrevNotPosStatus | panicPrevNotPosData | panicNoUpgrade
  | panicTimespan | panicZeroInterval | panicStalled
  deriving DecidableEq, Repr

/-- the panics -/
def Err.isPanic : Err → Bool
  | .panicMul | .panicDiv | .panicSub | .panicAdd | .panicHeight | .panicPrevNotPosStatus | .panicPrevNotPosData | .panicNoUpgrade
  | .panicTimespan | .panicZeroInterval | .panicStalled => true
  | _ => false

/-- `NetUpgrades::initialize` – netupgrade.rs 32-41.  Upgrades at the same height are ordered by the upgrade in the code and by position here. -/
def netInit {α : Type} (l : List (Nat × α)) : Option (List (Nat × α)) :=
  let sorted := l.insertionSort (fun a b => a.1 ≤ b.1)
  match sorted.head? with
  | some (0, _) => some sorted
  | _ => none

/-- `NetUpgrades::version_at_height` – netupgrade.rs 66-72 -/
def versionAt {α : Type} (l : List (Nat × α)) (h : Nat) : Option (Nat × α) :=
  l.reverse.find? (fun u => u.1 ≤ h)

/-- `consensus_status` – consensus_upgrade.rs 135-165 -/
def status (l : List (Nat × Upgrade)) (h : Nat) : Except Err Required :=
  match versionAt l h with
  | none => .error .panicNoUpgrade
  | some (uh, .pow d) => .ok (if uh < h then .powOngoing else .powThreshold d)
  | some (uh, .pos d cfg) => .ok (if uh < h then .posOngoing cfg else .posThreshold d cfg)
  | some (_, .ignore) => .ok .ignore

/-! ### the chain -/

/-- the consensus data in a block header, as far as it concerns targets -/
inductive Cons
  | none
  | pow (bits : Nat)
  | pos (target : Nat)
  deriving DecidableEq, Repr

/-- `PoWChainConfig` – common/src/chain/pow.rs 25-33 -/
structure PowCfg where
  noRetargeting : Bool
  allowMinDifficulty : Bool
  limit : Nat
  deriving DecidableEq, Repr

/-- chain configuration; consensus data and hash of blocks by id -/
structure Params where
  tree : BlockTree.Cfg
  upgrades : List (Nat × Upgrade)
  cons : Nat → Cons
  hash : Nat → Nat
  spacing : Nat
  pow : PowCfg

/-! ### proof of stake -/

/-- `get_ancestor_from_block_index_handle` – consensus/src/lib.rs -/
def ancestorAt (p : Params) (s : BlockTree.Store) (b : BlockTree.Idx) (h : Nat) : Except Err BlockTree.Gen :=
  match BlockTree.getAncestor p.tree s (.block b) h with
  | .ok a => .ok a
  | .error _ => .error .ancestor

/-- `calculate_average_block_time` – target.rs 31-68 -/
def averageBlockTime (p : Params) (s : BlockTree.Store) (cfg : PosCfg) (b : BlockTree.Idx) : Except Err Nat := do
  let start := (heightSub b.height (cfg.countToAverage - 1)).getD 0
  ensure (start < b.height) .emptyTimespan
  let a ← ancestorAt p s b start
  let startTime := a.timestamp p.tree
  ensure (startTime ≤ b.timestamp) .notMonotonic
  let dist ← okOr (heightSub b.height start) .panicHeight
  pure ((b.timestamp - startTime) / dist)

/-- the value computed before rounding – target.rs 76-105 -/
def newTargetValue (cfg : PosCfg) (prev actual target : Nat) : Except Err Nat := do
  let actual' := if actual = 0 then 1 else actual
  let n1 ← okOr (mul512 prev actual') .panicMul
  let nt ← okOr (divU n1 target) .panicDiv
  let n2 ← okOr (mul512 prev cfg.changeLimit) .panicMul
  let lim ← okOr (divU n2 1000) .panicDiv
  let lower ← okOr (sub512 prev lim) .panicSub
  let upper ← okOr (add512 prev lim) .panicAdd
  let v := clamp nt lower upper
  let v' := if v < 2 ^ 256 then v else cfg.targetLimit
  pure (min v' cfg.targetLimit)

/-- `calculate_new_target` – target.rs 70-108 -/
def newTarget (cfg : PosCfg) (prev actual target : Nat) : Except Err Nat := do
  let v ← newTargetValue cfg prev actual target
  pure (Compact.encode v)

/-- is the previous block the first of an upgrade that sets the difficulty – target.rs 182-203 -/
def prevThreshold : Required → Except Err (Option Nat)
  | .posThreshold (some d) _ => .ok (some d)
  | .posThreshold none _ => .ok none
  | .posOngoing _ => .ok none
  | .powOngoing => .error .panicPrevNotPosStatus
  | .powThreshold _ => .error .panicPrevNotPosStatus
  | .ignore => .error .panicPrevNotPosStatus

/-- the previous block's target – target.rs 205-217 -/
def prevPosTarget (p : Params) (b : BlockTree.Idx) : Except Err Nat :=
  match p.cons b.id with
  | .none => .error .panicPrevNotPosData
  | .pow _ => .error .panicPrevNotPosData
  | .pos t => match Compact.decode t with
    | .ok v => .ok v
    | .error _ => .error .decodingBits

/-- the adjusted target – target.rs 205-229 -/
def adjusted (p : Params) (s : BlockTree.Store) (cfg : PosCfg) (b : BlockTree.Idx) : Except Err Nat := do
  let prev ← prevPosTarget p b
  let avg ← averageBlockTime p s cfg b
  ensure (p.spacing ≠ 0) .invalidTargetBlockTime
  newTarget cfg prev avg p.spacing

/-- `calculate_target_required_internal` – target.rs 171-229 -/
def posTargetInternal (p : Params) (s : BlockTree.Store) (cfg : PosCfg) (b : BlockTree.Idx) : Except Err Nat := do
  let st ← status p.upgrades b.height
  let d ← prevThreshold st
  match d with
  | some d => pure d
  | none => adjusted p s cfg b

/-- the part of `calculate_target_required` after the status – target.rs 155-169 -/
def posTargetFrom (p : Params) (s : BlockTree.Store) (cfg : PosCfg) (prevId : Nat) : Except Err Nat :=
  if prevId = p.tree.genesisId then .ok (Compact.encode cfg.targetLimit)
  else match s.get prevId with
    | none => .error .prevNotFound
    | some b => posTargetInternal p s cfg b

/-- `calculate_target_required` – target.rs 138-169 -/
def posTarget (p : Params) (s : BlockTree.Store) (initial : Option Nat) (cfg : PosCfg) (prevId : Nat) : Except Err Nat :=
  match initial with
  | some d => .ok d
  | none => posTargetFrom p s cfg prevId

/-- `enforce_timestamp_ordering` – consensus/src/pos/mod.rs 111-123 -/
def strictOrder (p : Params) (s : BlockTree.Store) (id : Nat) : Except Err Unit := do
  let prev ← okOr (BlockTree.getGen p.tree s (p.tree.body id).prev) .prevNotFound
  ensure (prev.timestamp p.tree < (p.tree.body id).timestamp) .strictOrder

/-- `check_proof_of_stake` – consensus/src/pos/mod.rs 126-155; what follows (epoch randomness, pool, kernel, signature, hash) is not modelled -/
def checkPos (p : Params) (s : BlockTree.Store) (initial : Option Nat) (cfg : PosCfg) (id t : Nat) : Except Err Unit := do
  let target ← posTarget p s initial cfg (p.tree.body id).prev
  ensure (target = t) .invalidTarget
  strictOrder p s id

/-! ### proof of work -/

/-- `target_timespan`, seconds – common/src/chain/pow.rs 58-60 -/
def timespan : Nat := 14 * 24 * 60 * 60
/-- `target_spacing`, seconds – pow.rs 63-65 -/
def powSpacing : Nat := 10 * 60
/-- `max_retarget_factor` – pow.rs 69-71 -/
def factor : Nat := 4
/-- `difficulty_adjustment_interval` – consensus/src/pow/mod.rs 76-79 -/
def interval : Nat := timespan / powSpacing

/-- `actual_timespan` – work.rs 137-146; the subtraction is checked (release profile has `overflow-checks = true`) -/
def actualTimespan (prevTime retargetTime : Nat) : Except Err Nat :=
  if prevTime < retargetTime then .error .panicTimespan
  else .ok (clamp (prevTime - retargetTime) (timespan / factor) (timespan * factor))

/-- the value before rounding in `calculate_new_target` – helpers.rs 74-88 -/
def powValue (limit old actual : Nat) : Nat :=
  let v := (mul256 old actual).getD (2 ^ 256 - 1) / timespan
  if v > limit then limit else v

/-- `calculate_new_target` – helpers.rs 63-89 -/
def powNewTarget (limit oldBits actual : Nat) : Except Err Nat :=
  match Compact.decode oldBits with
  | .error _ => .error .decodingBits
  | .ok old => .ok (Compact.encode (powValue limit old actual))

/-- `get_starting_block_time` – helpers.rs 35-53 -/
def startingBlockTime (p : Params) (s : BlockTree.Store) (b : BlockTree.Idx) : Except Err Nat := do
  ensure (interval - 1 ≤ b.height) .panicHeight
  let a ← ancestorAt p s b (b.height - (interval - 1))
  pure (a.timestamp p.tree)

/-- `block_production_stalled` – helpers.rs 94-100, with checked addition -/
def stalled (newTime prevTime : Nat) : Except Err Bool :=
  if prevTime + powSpacing * 2 < 2 ^ 64 then .ok (decide (newTime > prevTime + powSpacing * 2)) else .error .panicStalled

/-- `next_work_required_for_min_difficulty` – work.rs 220-237 -/
def minDifficultyTarget (p : Params) (newTime : Nat) (b : BlockTree.Idx) (bits : Nat) : Except Err Nat := do
  let st ← stalled newTime b.timestamp
  pure (if st then Compact.encode p.pow.limit else bits)

/-- `next_work_required` – work.rs 200-218 -/
def retarget (p : Params) (s : BlockTree.Store) (b : BlockTree.Idx) (bits : Nat) : Except Err Nat := do
  let t ← startingBlockTime p s b
  let actual ← actualTimespan b.timestamp t
  powNewTarget p.pow.limit bits actual

/-- `get_work_required` – work.rs 148-197 -/
def workRequired (p : Params) (s : BlockTree.Store) (b : BlockTree.Idx) (newTime : Nat) : Except Err Nat :=
  match p.cons b.id with
  | .none => .error .noPowData
  | .pos _ => .error .noPowData
  | .pow bits =>
    if p.pow.noRetargeting then .ok bits
    else if (b.height + 1) % interval = 0 then retarget p s b bits
    else if p.pow.allowMinDifficulty then minDifficultyTarget p newTime b bits
    else .ok bits

/-- the required target – work.rs 66-88 (also `calculate_work_required` 112-132) -/
def powTarget (p : Params) (s : BlockTree.Store) (initial : Option Nat) (id : Nat) : Except Err Nat :=
  match initial with
  | some d => .ok d
  | none =>
    if (p.tree.body id).prev = p.tree.genesisId then .ok (Compact.encode p.pow.limit)
    else match s.get (p.tree.body id).prev with
      | none => .error .prevNotFound
      | some b => workRequired p s b (p.tree.body id).timestamp

/-- `check_proof_of_work` – work.rs 42-53 -/
def checkHash (hash bits : Nat) : Except Err Bool :=
  match Compact.decode bits with
  | .error _ => .error .decodingBits
  | .ok t => .ok (decide (hash ≤ t))

/-- `check_pow_consensus` – work.rs 55-96 -/
def checkPow (p : Params) (s : BlockTree.Store) (initial : Option Nat) (id bits : Nat) : Except Err Unit := do
  let w ← powTarget p s initial id
  ensure (w = bits) .invalidTarget
  let r ← checkHash (p.hash id) w
  ensure (r = true) .invalidPow

/-! ### validation -/

/-- dispatch on required consensus and consensus data – consensus/src/validator.rs 63-80, 81-141 -/
def checkCons (p : Params) (s : BlockTree.Store) (id : Nat) : Required → Cons → Except Err Unit
  | .powOngoing, .pow bits => checkPow p s none id bits
  | .powThreshold d, .pow bits => checkPow p s (some d) id bits
  | .posOngoing cfg, .pos t => checkPos p s none cfg id t
  | .posThreshold d cfg, .pos t => checkPos p s d cfg id t
  | .ignore, .none => .ok ()
  | _, _ => .error .typeMismatch

/-- `validate_consensus` – consensus/src/validator.rs 33-79 -/
def validateConsensus (p : Params) (s : BlockTree.Store) (id : Nat) : Except Err Unit := do
  let prev ← okOr (BlockTree.getGen p.tree s (p.tree.body id).prev) .prevNotFound
  let st ← status p.upgrades (prev.height + 1)
  checkCons p s id st (p.cons id)

end Verif.Target
