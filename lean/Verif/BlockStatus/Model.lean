import Mathlib.Data.Nat.Bitwise

/-! Model of the block status word.  Source: `chainstate/types/src/block_status.rs`.
`struct BlockStatus(u64)` (block_status.rs 32) is a natural number below `2^64`. -/

namespace Verif.BlockStatus

/-- `enum BlockValidationStage` (block_status.rs 25-29). -/
inductive Stage where
  | unchecked
  | checkBlockOk
  | fullyChecked
deriving DecidableEq, Repr

/-- `stage as u64`. -/
def Stage.toNat : Stage → Nat
  | .unchecked => 0
  | .checkBlockOk => 1
  | .fullyChecked => 2

/-- `BlockValidationStage::from_u64` (derived `FromPrimitive`). -/
def Stage.fromU64 : Nat → Option Stage
  | 0 => some .unchecked
  | 1 => some .checkBlockOk
  | 2 => some .fullyChecked
  | _ => none

/-- `Sequence::next` of the enum. -/
def Stage.next : Stage → Option Stage
  | .unchecked => some .checkBlockOk
  | .checkBlockOk => some .fullyChecked
  | .fullyChecked => none

/-- `get_bits` (block_status.rs 120-129) for the ranges in use, none of which is all 64 bits. -/
def getBits (w : Nat) (lo hi : Nat) : Nat :=
  (w >>> lo) &&& ((1 <<< (hi - lo)) - 1)

/-- `!x` on `u64`. -/
def not64 (x : Nat) : Nat := (2 ^ 64 - 1) ^^^ x

/-- `set_bits` (block_status.rs 131-142); `none` is the failed `assert!(val <= lsb_mask)`.
Shifts of values within the mask do not leave 64 bits. -/
def setBits (w : Nat) (lo hi : Nat) (v : Nat) : Option Nat :=
  let lsb := (1 <<< (hi - lo)) - 1
  if v ≤ lsb then some ((w &&& not64 (lsb <<< lo)) ||| (v <<< lo)) else none

/-- `BlockStatus::new` (block_status.rs 45-47). -/
def new : Nat := 0

/-- `last_valid_stage` (block_status.rs 56-59); bits 0-7.  `none` is the `expect` on a corrupted
word. -/
def lastValidStage (w : Nat) : Option Stage := Stage.fromU64 (getBits w 0 8)

/-- `set_last_valid_stage` (block_status.rs 62-64). -/
def setStage (w : Nat) (s : Stage) : Option Nat := setBits w 0 8 s.toNat

/-- `advance_validation_stage_to` (block_status.rs 51-54); `none` is a panic. -/
def advance (w : Nat) (s : Stage) : Option Nat :=
  match lastValidStage w with
  | none => none
  | some cur => if cur.next = some s then setStage w s else none

/-- `new_at_stage` (block_status.rs 35-39). -/
def newAtStage (s : Stage) : Option Nat := setStage new s

/-- `is_ok` (block_status.rs 67-69): bits 8 to 10 are zero. -/
def isOk (w : Nat) : Bool := getBits w 8 11 == 0

/-- `is_fully_valid` (block_status.rs 72-74). -/
def isFullyValid (w : Nat) : Option Bool :=
  match lastValidStage w with
  | none => none
  | some s => some (decide (s = .fullyChecked) && isOk w)

/-- `set_validation_failed` (block_status.rs 76-78). -/
def setValidationFailed (w : Nat) : Option Nat := setBits w 8 9 1
/-- `validation_failed` (block_status.rs 80-82). -/
def validationFailed (w : Nat) : Bool := getBits w 8 9 != 0
/-- `set_has_invalid_parent` (block_status.rs 84-86). -/
def setHasInvalidParent (w : Nat) : Option Nat := setBits w 9 10 1
/-- `has_invalid_parent` (block_status.rs 88-90). -/
def hasInvalidParent (w : Nat) : Bool := getBits w 9 10 != 0
/-- `set_explicitly_invalidated` (block_status.rs 92-94). -/
def setExplicitlyInvalidated (w : Nat) : Option Nat := setBits w 10 11 1
/-- `is_explicitly_invalidated` (block_status.rs 96-98). -/
def isExplicitlyInvalidated (w : Nat) : Bool := getBits w 10 11 != 0
/-- `with_cleared_fail_bits` (block_status.rs 100-104). -/
def withClearedFailBits (w : Nat) : Option Nat := setBits w 8 11 0

end Verif.BlockStatus
