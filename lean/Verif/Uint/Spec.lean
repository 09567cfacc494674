import Mathlib.Data.Nat.Digits.Defs
import Mathlib.Data.Nat.Size

/-!
# What the big integers are supposed to be

A value of the `n`-word type is a sequence of `n` digits in base 2^64, least significant first; the number it stands for is
Mathlib's `Nat.ofDigits`.  Nothing here refers to the model.
-/

namespace Verif.Uint.Spec

/-- a value of the type with `n` words -/
def IsWords (n : Nat) (a : List Nat) : Prop := a.length = n ∧ ∀ x ∈ a, x < 2 ^ 64

/-- the number it stands for -/
def num (a : List Nat) : Nat := Nat.ofDigits (2 ^ 64) a

/-- a string of bytes -/
def IsBytes (l : List Nat) : Prop := ∀ x ∈ l, x < 256

/-- a checked result: the value `v` exactly if it fits, otherwise nothing -/
def Exact (n : Nat) (res : Option (List Nat)) (v : Nat) : Prop :=
  (v < 2 ^ (64 * n) → ∃ r, res = some r ∧ IsWords n r ∧ num r = v) ∧ (2 ^ (64 * n) ≤ v → res = none)

/-- a total result that stands for `v` -/
def Is (n : Nat) (r : List Nat) (v : Nat) : Prop := IsWords n r ∧ num r = v

end Verif.Uint.Spec
