import Verif.Decimal.Model
import Mathlib.Data.Nat.Digits.Defs
import Mathlib.Algebra.Order.Field.Rat
import Mathlib.Data.Rat.Defs

/-!
# What a decimal string says
-/

namespace Verif.Decimal
open Verif

/-- number written by a list of digits, most significant first -/
def num (l : List Char) : Nat := Nat.ofDigits 10 (l.reverse.map (fun c => c.toNat - '0'.toNat))

/-- all characters are among 0-9 -/
def AllDigits (l : List Char) : Prop := ∀ c ∈ l, c ∈ ['0', '1', '2', '3', '4', '5', '6', '7', '8', '9']

/-- `s` is a plain decimal number with integer digits `i` and fractional digits `f`, surrounded by spaces and with
underscores anywhere inside -/
def Reads (s i f : List Char) : Prop :=
  ∃ pre mid post, s = pre ++ mid ++ post ∧ (∀ c ∈ pre, c = ' ') ∧ (∀ c ∈ post, c = ' ') ∧
    (mid.filter (· ≠ '_') = i ++ '.' :: f ∨ (mid.filter (· ≠ '_') = i ∧ f = [])) ∧ AllDigits i ∧ AllDigits f ∧
    i.length + f.length > 0

/-- value of digits `i.f` -/
def value (i f : List Char) : ℚ := num i + num f / 10 ^ f.length

/-- value of a decimal amount -/
def Dec.value (d : Dec) : ℚ := d.mantissa / 10 ^ d.decimals

end Verif.Decimal
