import Mathlib.Data.Rat.Cast.Order
import Mathlib.Data.Rat.Defs

/-!
# The weight of a staking pool, as a formula

The formula of the comment in effective_pool_balance.rs 108-145, in rational numbers.
-/

namespace Verif.Stake

/-- the influence of the pledge: 0.075375728 -/
def influence : ℚ := 75375728 / 1000000000

/-- the weight of a pool with stake `sigma` of which `s` is pledged, where `z` is the stake of a saturated pool -/
def weight (a z s sigma : ℚ) : ℚ := (sigma + s * a * ((sigma - s * ((z - sigma) / z)) / z)) / (a + 1)

/-- the least integer that is at least `x` -/
def IsCeil (n : Nat) (x : ℚ) : Prop := x ≤ n ∧ (n : ℚ) < x + 1

end Verif.Stake
