import Verif.Emission.Model
import Mathlib.Algebra.BigOperators.Group.Finset.Basic
import Mathlib.Algebra.BigOperators.Intervals

/-!
# What an emission table means

Block `i` is paid the subsidy of the latest period that started at a height below `i`, or the initial subsidy before the
first period; the supply at height `h` is the initial supply plus what blocks 1 to `h` were paid.
-/

namespace Verif.Emission.Spec
open Verif

/-- `r` is what block `i` is paid according to the table -/
def Pays (t : Table) (i r : Nat) : Prop :=
  (∃ s, t.periods.get s = some r ∧ s < i ∧ ∀ s' r', t.periods.get s' = some r' → s' < i → s' ≤ s) ∨
  (r = t.initialSubsidy ∧ ∀ s' r', t.periods.get s' = some r' → i ≤ s')

/-- the supply at height `h` when block `i` is paid `pay i` -/
def supply (t : Table) (pay : Nat → Nat) (h : Nat) : Nat := t.initialSupply + ∑ i ∈ Finset.range h, pay (i + 1)

/-- all periods have started -/
def AllStarted (t : Table) (h : Nat) : Prop := ∀ s r, t.periods.get s = some r → s ≤ h

end Verif.Emission.Spec
