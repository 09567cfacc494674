import Verif.Target.Model
import Verif.BlockTree.Spec

/-!
# What is expected of targets
-/

namespace Verif.Target.Spec
open Verif

/-- Trees of accepted blocks: new blocks pass the index checks and the consensus check; blocks without children may be deleted.
The indices of blocks that failed their checks are left out: no accepted block descends from one. -/
inductive Accepted (p : Params) : BlockTree.Store → Prop
  | init : Accepted p BMap.empty
  | add {s s' id} : Accepted p s → id ≠ p.tree.genesisId → s.get id = none → validateConsensus p s id = .ok () →
      BlockTree.addBlock p.tree s id = .ok s' → Accepted p s'
  | del {s id} : Accepted p s → BlockTree.Spec.Leaf s id → Accepted p (BlockTree.delBlock s id)

/-- a compact target that can be expanded -/
def Decodable (c : Nat) : Prop := ∃ t, Compact.decode c = .ok t

/-- proof of stake parameters of a sensible size -/
structure PosWF (c : PosCfg) : Prop where
  limit : c.targetLimit < 2 ^ 256
  change : c.changeLimit ≤ 1000
  count : 2 ≤ c.countToAverage ∧ c.countToAverage < 2 ^ 63

/-- the proof of stake parameters in force -/
def Required.posCfg? : Required → Option PosCfg
  | .posOngoing c => some c
  | .posThreshold _ c => some c
  | _ => none

/-- A sensible configuration: there is an upgrade at height zero, initial difficulties can be expanded, and proof of stake upgrades after height one
without an initial difficulty follow proof of stake. -/
structure WF (p : Params) : Prop where
  zero : ∃ u, (0, u) ∈ p.upgrades
  pos : ∀ h i c, (h, Upgrade.pos i c) ∈ p.upgrades → PosWF c ∧ ∀ d, i = some d → Decodable d
  cont : ∀ h c, status p.upgrades (h + 1) = .ok (.posThreshold none c) → h ≠ 0 →
    ∃ st c', status p.upgrades h = .ok st ∧ Required.posCfg? st = some c'
  spacing : p.spacing ≠ 0 ∧ p.spacing < 2 ^ 64
  times : p.tree.genesisTime < 2 ^ 64 ∧ ∀ id, (p.tree.body id).timestamp < 2 ^ 64

/-- all blocks above genesis are proof of stake -/
def AllPos (p : Params) : Prop := ∀ h, h ≠ 0 → ∃ st c, status p.upgrades h = .ok st ∧ Required.posCfg? st = some c

end Verif.Target.Spec
