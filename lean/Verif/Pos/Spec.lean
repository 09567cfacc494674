import Verif.Pos.Model

/-!
# Staking accounting: what the properties talk about

Only queries of the `View` interface occur here.
-/

namespace Verif.Pos
open Verif Verif.Accounting Verif.History

/-- start of a history: a fresh layer over a parent, nothing to undo -/
def start (p : View) : Cache × List Undo := (Cache.new p, [])

/-- the empty database -/
def emptyDB : DB := ⟨BMap.empty, BMap.empty, BMap.empty, BMap.empty, BMap.empty⟩

/-- total of all shares returned by the "shares of a pool" query -/
def sharesTotal : Option (BMap Nat Nat) → Nat
  | none => 0
  | some m => m.sumV (fun _ v => v)

/-- share of one delegation in the answer of the "shares of a pool" query; absent counts as 0 -/
def shareOf (o : Option (BMap Nat Nat)) (d : DelegationId) : Nat := (o.bind (fun m => m.get d)).getD 0

/-- every live pool's balance is pledge + rewards + all its delegation shares -/
def PoolsBalanced (v : View) : Prop := ∀ p d b o,
  v.poolData p = .ok (some d) → v.poolBalance p = .ok b → v.shares p = .ok o →
    b = d.pledge + d.rewards + sharesTotal o

/-- a delegation's balance is its share in its pool; it has no share in other pools; without delegation data there is
neither balance nor share -/
def DelegationsMatch (v : View) : Prop := ∀ d o b,
  v.delegationData d = .ok o → v.delegationBalance d = .ok b →
    (o = none → b = 0) ∧
    ∀ q s, v.share (key q d) = .ok s → s = if o.map (·.sourcePool) = some q then b else 0

/-- the query for one share agrees with the query for all shares of a pool -/
def Coherent (v : View) : Prop := ∀ p o, v.shares p = .ok o → ∀ d, v.share (key p d) = .ok (shareOf o d)

/-- no pool, no delegation and no share refers to pool id `p` -/
def Unused (v : View) (p : PoolId) : Prop :=
  (∀ x, v.poolData p ≠ .ok (some x)) ∧ (∀ o, v.shares p = .ok o → sharesTotal o = 0) ∧
  ∀ d data, v.delegationData d = .ok (some data) → data.sourcePool ≠ p

/-- pool ids created by the operations in an undo stack -/
def createdPools (st : List Undo) : List PoolId :=
  st.filterMap (fun | .createPool p _ _ => some p | _ => none)

/-- total an input list withdraws from delegation `d` -/
def withdrawn (d : DelegationId) (l : List (DelegationId × Nat)) : Nat :=
  ((l.filter (fun x => x.1 = d)).map (·.2)).sum

end Verif.Pos
