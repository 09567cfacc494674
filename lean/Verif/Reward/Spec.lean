import Verif.Reward.Model
import Verif.Pos.Spec

/-!
# What reward distribution should do
-/

namespace Verif.Reward
open Verif Verif.Pos

/-- the pool owner's cut of a reward, per published rules.  Both versions: the fixed cost first (everything, if the
reward does not cover it).  Version 0: then the margin ratio of the rest.  Version 1: then the owner's pro-rata part of the
rest by stake, and the margin ratio of what remains. -/
def ownerCut (ver : Version) (total cost mpt owner pool : Nat) : Nat :=
  if total < cost then total
  else match ver with
    | .v0 => cost + (total - cost) * mpt / 1000
    | .v1 => cost + (total - cost) * owner / pool + (total - cost - (total - cost) * owner / pool) * mpt / 1000

/-- a delegation's part of what is left for delegations: proportional to its share, rounded down -/
def part (o : Option (BMap Nat Nat)) (rest d : Nat) : Nat :=
  if sharesTotal o = 0 then 0 else rest * shareOf o d / sharesTotal o

/-- all parts together -/
def parts (o : Option (BMap Nat Nat)) (rest : Nat) : Nat :=
  match o with
  | none => 0
  | some m => (m.entries.map (fun kv => part o rest kv.1)).sum

end Verif.Reward
