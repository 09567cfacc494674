import Verif.Epoch.Randomness

/-!
# Specification of the randomness of epochs

A chain is the list of its blocks, the genesis first.
-/

namespace Verif.Epoch.Rnd
open Verif
open Verif.Stake (Net)

variable {B : Type}

/-- the height of the last block of the epoch `e` -/
def lastOf (n : Net) (e : Nat) : Nat := e * n.epochLength + (n.epochLength - 1)

/-- what the last block of an epoch contributes: nothing without proof of stake, and nothing if it is the genesis -/
def contribution (w : World B) (chain : List B) (h given : Nat) : Option Nat :=
  if w.posAt h = true ∧ h ≠ 0 then w.fresh (chain.take (h + 1)) given else none

/-- the randomness of the epoch `e` of a chain: that of its last block, which is given the randomness of the epoch `sealDistance` before it, or that of the genesis where there
is none.  The first argument bounds the recursion. -/
def rndF (w : World B) (chain : List B) : Nat → Nat → Option Nat
  | 0, _ => none
  | f + 1, e => contribution w chain (lastOf w.net e)
      (if w.net.sealDistance ≤ e then (rndF w chain f (e - w.net.sealDistance)).getD w.net.initialRandomness else w.net.initialRandomness)

def rnd (w : World B) (chain : List B) (e : Nat) : Option Nat := rndF w chain (e + 1) e

/-- the randomness given to the block at the height `h`: that of the newest epoch that is finished at least `sealDistance` epochs before the end of the epoch finished last,
where a block that is the last of its epoch finishes it -/
def given (w : World B) (chain : List B) (h : Nat) : Nat :=
  let finished := (h + 1) / w.net.epochLength
  if w.net.sealDistance < finished then (rnd w chain (finished - 1 - w.net.sealDistance)).getD w.net.initialRandomness else w.net.initialRandomness

/-- the chains a node can be on with what it then has stored -/
inductive Reach (w : World B) (g : B) : List B → Store → Prop
  | genesis : Reach w g [g] BMap.empty
  | connect {c s s' b} : Reach w g c s → w.isPos b = w.posAt c.length → connect w s c b = some s' → Reach w g (c ++ [b]) s'
  | disconnect {c s b} : Reach w g (c ++ [b]) s → c ≠ [] → Reach w g c (disconnect w s c)

end Verif.Epoch.Rnd
