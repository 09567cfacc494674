import Mathlib.Data.Nat.Size

/-!
# Compact difficulty targets

Model of `common/src/primitives/compact.rs`.  A `Uint256` is a natural number below 2^256 (that its operations compute on
numbers is shown in `Verif.Uint`); `u32` and `u64` values are natural numbers.
-/

namespace Verif.Compact

/-- 2^256 -/
def W256 : Nat := 2 ^ 256

/-- `Uint256::shl` – common/src/uint/impls.rs 536-552: bits moved beyond the width are lost -/
def shl256 (v s : Nat) : Nat := (v <<< s) % W256

/-- `TryFrom<Compact> for Uint256` – compact.rs 29-56.  The error value is `Some(value)`. -/
def decode (compact : Nat) : Except Nat Nat :=
  let size := compact >>> 24
  let word0 := compact &&& 0x007FFFFF
  let word := if size ≤ 3 then word0 >>> (8 * (3 - size)) else word0
  let value := if size ≤ 3 then word else shl256 word (8 * (size - 3))
  if (word ≠ 0 ∧ (compact &&& 0x00800000) ≠ 0) ∨
      (word ≠ 0 ∧ (size > 34 ∨ (word > 0xFF ∧ size > 33) ∨ (word > 0xFFFF ∧ size > 32))) then
    .error value
  else .ok value

/-- `Uint256::bits`: the number of bits without leading zeros – common/src/uint/impls.rs (see `C39_bits`) -/
def bitLen (value : Nat) : Nat := if value = 0 then 0 else value.log2 + 1

/-- `From<Uint256> for Compact` – compact.rs 59-80; `low_u64` is reduction modulo 2^64, `as u32` modulo 2^32 -/
def encode (value : Nat) : Nat :=
  let size := (bitLen value + 7) / 8
  let compact := if size ≤ 3 then (value % 2 ^ 64) <<< (8 * (3 - size)) else (value >>> (8 * (size - 3))) % 2 ^ 64
  let big := (compact &&& 0x00800000) ≠ 0
  let compact' := if big then compact >>> 8 else compact
  let size' := if big then size + 1 else size
  (compact' % 2 ^ 32) ||| ((size' <<< 24) % 2 ^ 32)

end Verif.Compact
