import Verif.Base.Amount

/-!
# The weight of a staking pool and the check of its hash

Model of consensus/src/pos/effective_pool_balance.rs 25-237 and hash_check.rs 27-116.  `Uint256` and `Uint512` are numbers with checked
operations; that the code's words compute these is C39.
-/

namespace Verif.Stake
open Verif

/-- `EffectivePoolBalanceError` – effective_pool_balance.rs 35-47, `StakeKernelHashTooHigh` and `UnsupportedConsensusVersion` of
`ConsensusPoSError`, and a panic -/
inductive Err
  | arithmetic
  | finalSupplyZero
  | balanceGreaterThanSupply
  | pledgeGreaterThanBalance
  | adjustmentMustFit
  | hashTooHigh
  | panic
  deriving DecidableEq, Repr

/-- `checked_mul` of a fixed width integer below `m` – common/src/uint/impls.rs 298-301 -/
def mulIn (m a b : Nat) : Option Nat := if a * b < m then some (a * b) else none
/-- `checked_sub` – impls.rs 262-264 -/
def subIn (a b : Nat) : Option Nat := if b ≤ a then some (a - b) else none
/-- `checked_div` – impls.rs 303-305 -/
def divIn (a b : Nat) : Option Nat := if b = 0 then none else some (a / b)

def U256 : Nat := 2 ^ 256
def U512 : Nat := 2 ^ 512

/-- `effective_pool_balance_impl` – effective_pool_balance.rs 65-224.  `satN / satD` is `pool_saturation_level`, `an / ad` is
`pledge_influence`.  The `assert!` at the end is kept; the log messages are left out. -/
def effectiveImpl (pledge balance supply satN satD an ad : Nat) : Except Err Nat := do
  ensure (0 < supply) .finalSupplyZero
  ensure (balance < supply) .balanceGreaterThanSupply
  ensure (pledge ≤ balance) .pledgeGreaterThanBalance
  let zn ← okOr (mulIn U128 supply satN) .arithmetic
  let z ← okOr (divIn zn satD) .arithmetic
  let sigma := min balance z
  let s := min pledge z
  let z2 ← okOr (mulIn U256 z z) .arithmetic
  let d ← okOr (subIn z sigma) .arithmetic
  let term1 ← okOr (mulIn U256 d s) .arithmetic
  let zs ← okOr (mulIn U256 z sigma) .arithmetic
  let r ← okOr (subIn zs term1) .arithmetic
  let term2 ← okOr (mulIn U256 r s) .arithmetic
  let sz2 ← okOr (mulIn U256 sigma z2) .arithmetic
  let m ← okOr (subIn sz2 term2) .arithmetic
  let num ← okOr (mulIn U256 m an) .arithmetic
  let anad ← okOr (if an + ad < U128 then some (an + ad) else none) .arithmetic
  let q ← okOr (divIn num anad) .arithmetic
  let adj ← okOr (divIn q z2) .arithmetic
  ensure (adj < U128) .adjustmentMustFit
  let e ← okOr (subIn sigma adj) .arithmetic
  ensure (e ≤ sigma) .panic
  pure e

/-- `effective_pool_balance` with `POOL_SATURATION_LEVEL` 1/1000 and `DEFAULT_PLEDGE_INFLUENCE_PARAMETER` – lines 25-33, 52-64 -/
def effective (pledge balance supply : Nat) : Except Err Nat :=
  effectiveImpl pledge balance supply 1 1000 75375728 1000000000

/-- `PoSConsensusVersion` -/
inductive Version | v0 | v1
  deriving DecidableEq, Repr

/-- the comparison of `check_pos_hash_v0` and `_v1`: the product is taken in 512 bits and its overflow would be a panic –
hash_check.rs 35-40, 58-63 -/
def compareHash (hash target weight : Nat) : Except Err Unit := do
  let p ← okOr (mulIn U512 weight target) .panic
  ensure (hash ≤ p) .hashTooHigh

/-- `check_pos_hash` – hash_check.rs 68-83 -/
def checkHash (v : Version) (hash target pledge balance supply : Nat) : Except Err Unit :=
  match v with
  | .v0 => compareHash hash target balance
  | .v1 => do
    let e ← effective pledge balance supply
    compareHash hash target e

end Verif.Stake
