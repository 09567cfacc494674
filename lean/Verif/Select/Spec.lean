import Verif.Select.Model

/-!
# What a selection of outputs has to be
-/

namespace Verif.Select
open Verif

variable {O : Type}

/-- what a group contributes to the amount to be paid: its value, less the fee for spending it if fees are paid with this currency -/
def worth (pay : Bool) (g : Group O) : Nat := if pay then g.value - g.fee else g.value

/-- every group is worth the fee for spending it; the wallet leaves out others (account/mod.rs 561-565) -/
def Payable (pay : Bool) (pool : List (Group O)) : Prop := ∀ g ∈ pool, pay = true → g.fee ≤ g.value

/-- the heap returns the groups put into it, one with the greatest worth first -/
def IsHeap (pay : Bool) (pop : Pop O) : Prop :=
  ∀ l, (l = [] → pop l = none) ∧ (l ≠ [] → ∃ g h, pop l = some (g, h) ∧ l.Perm (g :: h) ∧ ∀ x ∈ l, worth pay x ≤ worth pay g)

/-- shuffles are permutations, the heap is one; nothing is assumed of the random bits -/
structure Rand.Fair (rand : Rand O) (pay : Bool) : Prop where
  first : ∀ l, (rand.first l).Perm l
  second : ∀ l, (rand.second l).Perm l
  pop : IsHeap pay rand.pop

/-- the sum of an attribute of groups -/
def total (f : Group O → Nat) (l : List (Group O)) : Nat := (l.map f).sum

/-- a selection `sel` of groups of the pool, each at most once, that pays for the target, and the report `r` about it:
the outputs, weight and fees are those of the selection; what exceeds the target is change, except for the cost of the change, or too little to be worth a change -/
structure Pays (pay : Bool) (pool : List (Group O)) (target cost : Nat) (sel : List (Group O)) (r : Result O) : Prop where
  some_of : sel.Subperm pool
  outputs : r.outputs = sel.flatMap (·.outputs)
  weight : r.weight = total (·.weight) sel
  fees : r.fees = total (·.fee) sel
  covers : target ≤ total (worth pay) sel
  change : 0 < r.change → total (worth pay) sel = target + r.change + (if pay then cost else 0) ∧ cost ≤ r.change
  exact : r.change = 0 → total (worth pay) sel = target ∨ total (worth pay) sel < target + (if pay then 2 * cost else cost)

/-- all amounts together are below 2^127 -/
def Small (pay : Bool) (pool : List (Group O)) (target cost : Nat) : Prop :=
  ((target + cost + total (worth pay) pool + total (·.fee) pool + total (·.longFee) pool : Nat) : Int) < I128

/-- spending now is not cheaper than later; groups with the same worth and fee have the same weight and later fee -/
structure Regular (pay : Bool) (pool : List (Group O)) : Prop where
  costly : ∀ g ∈ pool, g.longFee ≤ g.fee
  same : ∀ g ∈ pool, ∀ p ∈ pool, worth pay g = worth pay p → g.fee = p.fee → g.weight = p.weight ∧ g.longFee = p.longFee

end Verif.Select
