import Verif.Base.BMap
import Verif.Accounting.Model

/-!
# Specification vocabulary for accounting deltas (independent of the merging code)
-/

namespace Verif.Accounting

/-- `Changes base d after`: recording `d` is a correct description of how the store `base` turns into `after`:
each mentioned key goes from its recorded old value to its recorded new value, all others are untouched. -/
def Changes {K T : Type} [LinearOrder K] (base : K → Option T) (d : BMap K (DataDelta T))
    (after : K → Option T) : Prop :=
  ∀ k, match d.get k with
    | none => after k = base k
    | some c => base k = c.old ∧ after k = c.new

/-- integer value of a signed balance delta at a key: an absent key means no change -/
def deltaAt {K : Type} [LinearOrder K] (d : BMap K Int) (k : K) : Int :=
  match d.get k with
  | none => 0
  | some x => x

/-- all entries are 128-bit signed integers -/
def AllInRange {K : Type} [LinearOrder K] (d : BMap K Int) : Prop :=
  ∀ k x, d.get k = some x → -(2:Int)^127 ≤ x ∧ x < (2:Int)^127

end Verif.Accounting
