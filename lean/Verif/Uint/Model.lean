import Verif.Base.Amount
import Mathlib.Data.Nat.Size

/-!
# Multi-word unsigned integers

Model of `common/src/uint/impls.rs` (`construct_uint!`, used for `Uint128`, `Uint256`, `Uint512`) and the byte conversions of
`common/src/uint/endian.rs`.  A value is the list of its 64-bit words, least significant first, as in the code; the number
of words is the length of the list.  Failing assertions and overflowing `+=` are explicit errors.
-/

namespace Verif.Uint
open Verif

/-- 2^64 -/
def W : Nat := 2 ^ 64

/-- ways to panic -/
inductive Panic
  | assertion | overflow | divisionByZero
  deriving DecidableEq, Repr

/-- word `i` (indices used by the code are in range) -/
def word (a : List Nat) (i : Nat) : Nat := a.getD i 0

/-- `u64::leading_zeros` -/
def leadingZeros (x : Nat) : Nat := if x = 0 then 64 else 63 - Nat.log2 x

/-- `bits`, words from `k` downwards – impls.rs 55-61 -/
def bitsFrom (a : List Nat) : Nat → Nat
  | 0 => 64 - leadingZeros (word a 0)
  | k + 1 => if word a (k + 1) > 0 then 64 * (k + 2) - leadingZeros (word a (k + 1)) else bitsFrom a k

/-- `bits` – impls.rs 52-61 -/
def bits (a : List Nat) : Nat := bitsFrom a (a.length - 1)

/-- loop of `widening_mul_u64` – impls.rs 73-81 -/
def mulLoop (rhs : Nat) : List Nat → Nat → Except Panic (List Nat × Nat)
  | [], carry => pure ([], carry)
  | x :: xs, carry => do
    ensure (carry < W - 1) .assertion
    let prod := x * rhs
    ensure (prod ≤ (W - 1) * (W - 1)) .assertion
    let prod := prod + carry
    ensure (prod < (W - 1) * (W - 1) + (W - 1)) .assertion
    let (res, c) ← mulLoop rhs xs (prod / W % W)
    pure (prod % W :: res, c)

/-- `widening_mul_u64` – impls.rs 68-83 -/
def mulWord (a : List Nat) (rhs : Nat) : Except Panic (List Nat × Nat) := mulLoop rhs a 0

/-- `mul_u32` – impls.rs 64-66 -/
def mulU32 (a : List Nat) (other : Nat) : Except Panic (List Nat) := do
  let (r, _) ← mulWord a other
  pure r

/-- `from_u64` – impls.rs 87-91, for `n` words -/
def fromU64 (n init : Nat) : List Nat := (List.replicate n 0).set 0 init

/-- `from_u128` – impls.rs 95-100 -/
def fromU128 (n init : Nat) : List Nat := ((List.replicate n 0).set 0 (init % W)).set 1 (init >>> 64 % W)

/-- `overflowing_add_with_carry` – impls.rs 226-237 -/
def addCarry : List Nat → List Nat → Bool → List Nat × Bool
  | x :: xs, y :: ys, carry =>
    let ab := (x + y) % W
    let abC := decide (x + y ≥ W)
    let abc := (ab + carry.toNat) % W
    let abcC := decide (ab + carry.toNat ≥ W)
    let (r, c) := addCarry xs ys (abC || abcC)
    (abc :: r, c)
  | _, _, carry => ([], carry)

/-- `overflowing_add` – impls.rs 239-241 -/
def overflowingAdd (a b : List Nat) : List Nat × Bool := addCarry a b false

/-- `Not` – impls.rs 519-531 -/
def not (a : List Nat) : List Nat := a.map (fun x => W - 1 - x)

/-- `BitArray::one` – impls.rs 465-471 -/
def one (n : Nat) : List Nat := (List.replicate n 0).set 0 1

/-- `BitArray::zero`, `Default` – impls.rs 462-464 -/
def zero (n : Nat) : List Nat := List.replicate n 0

/-- `unchecked_sub` – impls.rs 243-247 -/
def uncheckedSub (a b : List Nat) : List Nat :=
  (overflowingAdd (overflowingAdd a (not b)).1 (one a.length)).1

/-- `Ord::cmp`, words below `k` – impls.rs 371-380 -/
def cmpFrom (a b : List Nat) : Nat → Ordering
  | 0 => .eq
  | k + 1 => if word a k < word b k then .lt else if word a k > word b k then .gt else cmpFrom a b k

/-- `Ord::cmp` – impls.rs 367-380 -/
def cmp (a b : List Nat) : Ordering := cmpFrom a b a.length

/-- `r[i] += x` -/
def addAt (r : List Nat) (i x : Nat) : Except Panic (List Nat) :=
  if word r i + x < W then pure (r.set i (word r i + x)) else .error .overflow

/-- body of the loop of `Shl::shl` – impls.rs 542-549; `<<` on `u64` drops the bits shifted out -/
def shlStep (a : List Nat) (ws bs : Nat) (r : List Nat) (i : Nat) : Except Panic (List Nat) := do
  let r ← if bs < 64 ∧ i + ws < a.length then addAt r (i + ws) ((word a i <<< bs) % W) else pure r
  if bs > 0 ∧ i + ws + 1 < a.length then addAt r (i + ws + 1) (word a i >>> (64 - bs)) else pure r

/-- `Shl::shl` – impls.rs 536-552 -/
def shl (a : List Nat) (s : Nat) : Except Panic (List Nat) :=
  (List.range a.length).foldlM (shlStep a (s / 64) (s % 64)) (zero a.length)

/-- body of the loop of `Shr::shr` – impls.rs 564-570; `i = word_shift + k` -/
def shrStep (a : List Nat) (ws bs : Nat) (r : List Nat) (k : Nat) : Except Panic (List Nat) := do
  let r ← addAt r k (word a (ws + k) >>> bs)
  if bs > 0 ∧ ws + k < a.length - 1 then addAt r k ((word a (ws + k + 1) <<< (64 - bs)) % W) else pure r

/-- `Shr::shr` – impls.rs 558-572 -/
def shr (a : List Nat) (s : Nat) : Except Panic (List Nat) :=
  (List.range (a.length - s / 64)).foldlM (shrStep a (s / 64) (s % 64)) (zero a.length)

/-- `shr_words` – impls.rs 286-290 -/
def shrWords (a : List Nat) (n : Nat) : List Nat := a.drop n ++ List.replicate n 0

/-- `shl_words` – impls.rs 292-296 -/
def shlWords (a : List Nat) (n : Nat) : List Nat := List.replicate n 0 ++ a.take (a.length - n)

/-- body of the loop of `widening_mul` – impls.rs 269-281 -/
def wideStep (a : List Nat) (acc : List Nat × List Nat) (x : Nat × Nat) : Except Panic (List Nat × List Nat) := do
  let (lo, hi) := acc
  let (rhs, i) := x
  let (res, carry) ← mulWord a rhs
  let l := shlWords res i
  let h := (shrWords res (a.length - i)).set i carry
  let (lo', c0) := overflowingAdd lo l
  let (hi', c1) := addCarry hi h c0
  ensure (c1 = false) .assertion
  pure (lo', hi')

/-- `widening_mul` – impls.rs 266-284 -/
def wideningMul (a b : List Nat) : Except Panic (List Nat × List Nat) :=
  b.zipIdx.foldlM (wideStep a) (zero a.length, zero a.length)

/-- loop of `div_rem` – impls.rs 211-222: `ret[shift / 64] |= 1 << (shift % 64)` when the shifted divisor fits -/
def divLoop : Nat → List Nat → List Nat → List Nat → Except Panic (List Nat × List Nat)
  | shift, sub, sc, ret => do
    let fits := decide (cmp sub sc ≠ .lt)
    let ret := if fits then ret.set (shift / 64) (word ret (shift / 64) ||| ((1 <<< (shift % 64)) % W)) else ret
    let sub := if fits then uncheckedSub sub sc else sub
    let sc ← shr sc 1
    match shift with
    | 0 => pure (ret, sub)
    | s + 1 => divLoop s sub sc ret

/-- `div_rem` – impls.rs 192-224 -/
def divRem (a b : List Nat) : Except Panic (List Nat × List Nat) := do
  ensure (bits b ≠ 0) .divisionByZero
  if bits a < bits b then pure (zero a.length, a)
  else do
    let sc ← shl b (bits a - bits b)
    divLoop (bits a - bits b) a sc (zero a.length)

/-- `checked_add` – impls.rs 257-260 -/
def checkedAdd (a b : List Nat) : Option (List Nat) :=
  if (overflowingAdd a b).2 then none else some (overflowingAdd a b).1

/-- `checked_sub` – impls.rs 262-264 -/
def checkedSub (a b : List Nat) : Option (List Nat) := if cmp a b ≠ .lt then some (uncheckedSub a b) else none

/-- `checked_mul` – impls.rs 298-301 -/
def checkedMul (a b : List Nat) : Except Panic (Option (List Nat)) := do
  let (res, hi) ← wideningMul a b
  pure (if hi = zero a.length then some res else none)

/-- `checked_div` – impls.rs 303-305 -/
def checkedDiv (a b : List Nat) : Except Panic (Option (List Nat)) :=
  if b ≠ zero a.length then do
    let (q, _) ← divRem a b
    pure (some q)
  else pure none

/-- `checked_rem` – impls.rs 307-309 -/
def checkedRem (a b : List Nat) : Except Panic (Option (List Nat)) :=
  if b ≠ zero a.length then do
    let (_, r) ← divRem a b
    pure (some r)
  else pure none

/-- `u64_to_array_le` – endian.rs 59-70: byte `i` is `(val >> 8 i) & 0xff` -/
def wordToBytes (x : Nat) : List Nat := (List.range 8).map (fun i => (x >>> (8 * i)) &&& 0xff)

/-- `slice_to_u64_le` – endian.rs 30-40, on eight bytes -/
def bytesToWord (l : List Nat) : Nat := (List.range 8).foldl (fun r i => r ||| (word l i <<< (8 * i))) 0

/-- `to_bytes` – impls.rs 180-188 -/
def toBytes (a : List Nat) : List Nat := a.flatMap wordToBytes

/-- `inner_from_slice` – impls.rs 169-177, on `8 n` bytes -/
def fromBytes : Nat → List Nat → List Nat
  | 0, _ => []
  | n + 1, l => bytesToWord (l.take 8) :: fromBytes n (l.drop 8)

/-- `from_slice` – impls.rs 158-167 -/
def fromSlice (n : Nat) (l : List Nat) : Option (List Nat) := if l.length ≠ n * 8 then none else some (fromBytes n l)

/-- `u64_to_array_be` – endian.rs 43-54 -/
def wordToBytesBe (x : Nat) : List Nat := (List.range 8).map (fun i => (x >>> ((8 - i - 1) * 8)) &&& 0xff)

/-- `slice_to_u64_be` – endian.rs 17-28, on eight bytes -/
def bytesToWordBe (l : List Nat) : Nat := (List.range 8).foldl (fun r i => r ||| (word l i <<< ((8 - i - 1) * 8))) 0

/-- `to_be_bytes` – impls.rs 139-148: words from the last to the first -/
def toBeBytes (a : List Nat) : List Nat := a.reverse.flatMap wordToBytesBe

/-- the words of `_from_be_slice`, in the order the chunks are read – impls.rs 130-134 -/
def beWords : Nat → List Nat → List Nat
  | 0, _ => []
  | n + 1, l => bytesToWordBe (l.take 8) :: beWords n (l.drop 8)

/-- `_from_be_slice` – impls.rs 127-136: the words are filled from the last one -/
def fromBeBytes (n : Nat) (l : List Nat) : List Nat := (beWords n l).reverse

/-- `from_be_slice` – impls.rs 116-125 -/
def fromBeSlice (n : Nat) (l : List Nat) : Option (List Nat) := if l.length ≠ n * 8 then none else some (fromBeBytes n l)

/-- `Uint256::low_128` – impls.rs 643-646 -/
def low128 (a : List Nat) : List Nat := [word a 0, word a 1]

/-- `u128::try_from(Uint256)` – impls.rs 679-685; `From<Uint128> for u128` (650-654) goes through the little-endian bytes,
`u128::from_le_bytes` being the number they stand for -/
def toU128 (a : List Nat) : Option Nat :=
  if cmp a (fromU128 4 (2 ^ 128 - 1)) = .gt then none
  else some ((toBytes (low128 a)).foldr (fun x acc => x + 256 * acc) 0)

/-- `From<Uint256> for Uint512` – impls.rs 657-661 -/
def widen (a : List Nat) : List Nat := [word a 0, word a 1, word a 2, word a 3, 0, 0, 0, 0]

/-- `Uint256::MAX` – impls.rs, `const MAX` -/
def max256 : List Nat := List.replicate 4 (W - 1)

/-- `Uint256::try_from(Uint512)` – impls.rs 691-697 -/
def narrow (a : List Nat) : Option (List Nat) :=
  if cmp a (widen max256) = .gt then none else some [word a 0, word a 1, word a 2, word a 3]

end Verif.Uint
