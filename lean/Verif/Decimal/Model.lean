import Verif.Base.Amount

/-!
# Decimal amounts and per-thousand ratios

Model of `common/src/primitives/amount/decimal.rs`, the string conversions of `amount/mod.rs` and `amount/signed.rs`, and
`common/src/primitives/per_thousand.rs`.  A string is the list of its characters; its length in bytes is computed as UTF-8.
-/

namespace Verif.Decimal
open Verif

/-- `DecimalAmount` – decimal.rs 38-41 (`u128` mantissa, `u8` decimals) -/
structure Dec where
  mantissa : Nat
  decimals : Nat
  deriving DecidableEq, Repr

/-- `ParseError` – decimal.rs 216-235; the payload of `IntParse` is left out.  `panicked` stands for the `expect`
of decimal.rs 156. -/
inductive PErr
  | outOfRange | stringTooLong | emptyString | illegalChar | noDigits | intParse | panicked
  deriving DecidableEq, Repr

/-- `TEN.checked_pow(e)` – used at decimal.rs 76 and 161 -/
def powTen (e : Nat) : Option Nat := if 10 ^ e < U128 then some (10 ^ e) else none

/-- the loop of `without_padding` – decimal.rs 82-85 -/
def strip : Nat → Nat → Dec
  | m, 0 => ⟨m, 0⟩
  | m, k + 1 => if m % 10 = 0 then strip (m / 10) k else ⟨m, k + 1⟩

/-- `without_padding` – decimal.rs 81-87 -/
def Dec.withoutPadding (d : Dec) : Dec := strip d.mantissa d.decimals

/-- `with_decimals` – decimal.rs 74-78 -/
def Dec.withDecimals (d : Dec) (k : Nat) : Option Dec := do
  let extra ← Amt.sub k d.decimals
  let ten ← powTen extra
  let m ← Amt.mul d.mantissa ten
  some ⟨m, k⟩

/-- `to_amount` – decimal.rs 67-71 -/
def Dec.toAmount (d : Dec) (k : Nat) : Option Nat := (d.withoutPadding.withDecimals k).map Dec.mantissa

/-- `from_amount_full_padding` – decimal.rs 57-59 -/
def fromAmountFull (a k : Nat) : Dec := ⟨a, k⟩

/-- `from_amount_no_padding` – decimal.rs 62-64 -/
def fromAmountNoPadding (a k : Nat) : Dec := (fromAmountFull a k).withoutPadding

/-- `subtract_decimal_amounts_of_same_currency` – decimal.rs 111-128 -/
def subtract (l r : Dec) : Option Dec := do
  let r := r.withoutPadding
  let k := max l.decimals r.decimals
  let l ← l.withDecimals k
  let r ← r.withDecimals k
  let diff ← Amt.sub l.mantissa r.mantissa
  some (Dec.withoutPadding ⟨diff, k⟩)

/-- `str::len`: bytes of the UTF-8 encoding -/
def byteLen (s : List Char) : Nat := (s.map Char.utf8Size).sum

/-- `trim_matches(' ')` – used at decimal.rs 143 -/
def trimSpaces (s : List Char) : List Char :=
  ((s.dropWhile (· = ' ')).reverse.dropWhile (· = ' ')).reverse

/-- `split_once('.').unwrap_or((s, ""))` – decimal.rs 147 -/
def splitDot (s : List Char) : List Char × List Char :=
  match s.dropWhile (· ≠ '.') with
  | [] => (s, [])
  | _ :: f => (s.takeWhile (· ≠ '.'), f)

/-- `is_ascii_digit` -/
def isDigit (c : Char) : Bool := '0' ≤ c ∧ c ≤ '9'

/-- value of a digit character -/
def digitVal (c : Char) : Nat := c.toNat - 48

/-- `empty_to_zero` – decimal.rs 130-135 -/
def emptyToZero (s : List Char) : List Char := if s = [] then ['0'] else s

/-- one step of `u128::from_str`: checked multiplication, then checked addition -/
def u128Step (a : Nat) (c : Char) : Option Nat := (Amt.mul a 10).bind (fun b => Amt.add b (digitVal c))

/-- `str::parse::<u128>` on a string of digits (the only inputs it gets here, decimal.rs 150, 153, 154) -/
def parseU128 (s : List Char) : Option Nat := if s = [] then none else s.foldlM u128Step 0

/-- `impl FromStr for DecimalAmount` – decimal.rs 137-168 -/
def parse (s : List Char) : Except PErr Dec := do
  ensure (byteLen s ≤ 255 + 2) .stringTooLong
  let s := (trimSpaces s).filter (· ≠ '_')
  ensure (s ≠ []) .emptyString
  let i := (splitDot s).1
  let f := (splitDot s).2
  ensure ((i ++ f).all isDigit) .illegalChar
  ensure (i.length + f.length > 0) .noDigits
  let int ← okOr (parseU128 (emptyToZero i)) .intParse
  let frac ← okOr (parseU128 (emptyToZero f)) .intParse
  ensure (f.length < 256) .panicked
  let shifted ← okOr (if int = 0 then some 0 else (powTen f.length).bind (fun t => Amt.mul int t)) .outOfRange
  let m ← okOr (Amt.add shifted frac) .outOfRange
  pure ⟨m, f.length⟩

/-- digit character of a number below ten -/
def digitChar (n : Nat) : Char := Char.ofNat (48 + n)

/-- decimal digits of a number, most significant first; the first argument bounds the recursion -/
def showAux : Nat → Nat → List Char
  | 0, _ => []
  | f + 1, n => if n < 10 then [digitChar n] else showAux f (n / 10) ++ [digitChar (n % 10)]

/-- `impl Display for u128` -/
def showNat (n : Nat) : List Char := showAux (n + 1) n

/-- `impl Display for DecimalAmount` without width or alignment options – decimal.rs 170-187; `{:0>width$}` pads with
zeros on the left.  The assertion (line 180) is about the padded length and holds by construction. -/
def Dec.show (d : Dec) : List Char :=
  if d.decimals > 0 then
    let digits := showNat d.mantissa
    let buffer := List.replicate (d.decimals + 1 - digits.length) '0' ++ digits
    buffer.take (buffer.length - d.decimals) ++ '.' :: buffer.drop (buffer.length - d.decimals)
  else showNat d.mantissa

/-- `Amount::into_fixedpoint_str` – amount/mod.rs 84-86 -/
def intoFixed (a k : Nat) : List Char := (fromAmountNoPadding a k).show

/-- `Result::ok` -/
def toOpt {E A : Type} : Except E A → Option A
  | .ok a => some a
  | .error _ => none

/-- `Amount::from_fixedpoint_str` – amount/mod.rs 88-90 (a panic of the parser is not an answer; it is tracked at
`parse`) -/
def fromFixed (s : List Char) (k : Nat) : Option Nat := (toOpt (parse s)).bind (fun d => d.toAmount k)

/-- `SignedAmount::into_fixedpoint_str` – signed.rs 59-69 -/
def intoFixedSigned (x : Int) (k : Nat) : List Char :=
  if x < 0 then '-' :: intoFixed x.natAbs k else intoFixed x.natAbs k

/-- applying the sign, with the corner case of the smallest value – signed.rs 77-90 -/
def applySign (negative : Bool) (u : Nat) : Option Int :=
  if negative = true ∧ u = (U128 - 1) / 2 + 1 then some (-I128)
  else (Amt.intoSigned u).map (fun x => if negative then -x else x)

/-- `SignedAmount::from_fixedpoint_str` – signed.rs 71-91 -/
def fromFixedSigned (s : List Char) (k : Nat) : Option Int :=
  match s with
  | '-' :: body => (fromFixed body k).bind (applySign true)
  | body => (fromFixed body k).bind (applySign false)

/-! ### per-thousand ratios -/

/-- `PerThousand::new` on a `u16` – per_thousand.rs 32-38 -/
def perThousand (v : Nat) : Option Nat := if v ≤ 1000 then some v else none

/-- `char::is_whitespace`: the Unicode White_Space property -/
def isWhite (c : Char) : Bool :=
  let n := c.toNat
  (9 ≤ n ∧ n ≤ 13) ∨ n = 32 ∨ n = 0x85 ∨ n = 0xA0 ∨ n = 0x1680 ∨ (0x2000 ≤ n ∧ n ≤ 0x200A) ∨ n = 0x2028 ∨ n = 0x2029 ∨
    n = 0x202F ∨ n = 0x205F ∨ n = 0x3000

/-- `s.trim().ends_with('%')` – per_thousand.rs 62 -/
def endsPercent (s : List Char) : Bool :=
  (((s.dropWhile isWhite).reverse.dropWhile isWhite).head? = some '%')

/-- `PerThousand::from_decimal_str` – per_thousand.rs 59-77 -/
def perThousandParse (s : List Char) : Option Nat :=
  (if endsPercent s then fromFixed (s.reverse.dropWhile (· = '%')).reverse 1 else fromFixed s 3).bind
    (fun a => if a < 65536 then perThousand a else none)

/-- `to_percentage_str` – per_thousand.rs 79-84, 94-100 -/
def percentStr (v : Nat) : List Char := intoFixed v 1 ++ ['%']

/-- `to_decimal_str` – per_thousand.rs 86-88 -/
def decimalStr (v : Nat) : List Char := intoFixed v 3

/-- `impl Decode for PerThousand` – per_thousand.rs 116-124: two little-endian bytes (`u16`), then `new` -/
def perThousandDecode (input : List Nat) : Option (Nat × List Nat) :=
  match input with
  | lo :: hi :: rest => (perThousand (lo + 256 * hi)).map (fun v => (v, rest))
  | _ => none

/-- derived `Encode` – per_thousand.rs 28-29 -/
def perThousandEncode (v : Nat) : List Nat := [v % 256, v / 256]

end Verif.Decimal
