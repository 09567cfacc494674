import Verif.Pos.Model
import Verif.Stake.Produce

/-!
# Epochs: the sealed staking state

Model of chainstate/src/detail/chainstateref/epoch_seal.rs 36-126, of `post_connect_tip` and `post_disconnect_tip` (chainstateref/mod.rs 1495-1550), and of the way the
changes of a block reach the delta of its epoch (flush.rs 92-97, tx_verifier_storage.rs 326-358).  The state of the staking accounting and its deltas are those of
`Verif.Pos`.  The randomness of the epochs is in `Epoch/Randomness.lean`.
-/

namespace Verif.Epoch
open Verif Verif.Pos
open Verif.Stake (Net epochOf lastInEpoch subIn)

/-- what is stored: the staking accounting at the tip and at the seal, and by epoch the delta and the undo of the seal – chainstate/storage/src/lib.rs 140-152, 259-275 -/
structure Store where
  tip : DB
  sealed : DB
  deltas : BMap Nat Delta
  undos : BMap Nat Delta

/-- `is_due_for_epoch_seal` – common/src/chain/config/mod.rs 567-572 -/
def due (n : Net) (h : Nat) : Bool := lastInEpoch n h && decide (n.sealDistance ≤ epochOf n h)

/-- `apply_accounting_delta` – tx_verifier_storage.rs 326-358 -/
def applyEpoch (st : Store) (e : Nat) (d : Delta) : Except Err Store := do
  let (m, _) ← ((st.deltas.get e).getD Delta.empty).mergeWithDelta d
  pure { st with deltas := st.deltas.insert e m }

/-- the changes of one block reach the tip and its epoch – flush.rs 89-97.  A verifier works on one block (`flush_to_storage` asserts this), so that the delta of the block is the
whole delta; there is none if the block does nothing to the staking accounting. -/
def flush (n : Net) (st : Store) (h : Nat) (d : Option Delta) : Except Err Store := do
  let (tip, _) ← st.tip.mergeWithDelta (d.getD Delta.empty)
  match d with
  | none => pure { st with tip := tip }
  | some d => applyEpoch { st with tip := tip } (epochOf n h) d

/-- `advance_epoch_seal` – epoch_seal.rs 71-97; the `expect` is an error here -/
def advance (n : Net) (st : Store) (h : Nat) : Except Err Store := do
  let e ← okOr (subIn (epochOf n h) n.sealDistance) (.accounting .panicked)
  match st.deltas.get e with
  | none => .ok st
  | some d => do
    let (s, u) ← st.sealed.mergeWithDelta d
    pure { st with sealed := s, undos := st.undos.insert e u }

/-- `rollback_epoch_seal` – epoch_seal.rs 102-126 -/
def rollback (n : Net) (st : Store) (h : Nat) : Except Err Store := do
  let e ← okOr (subIn (epochOf n h) n.sealDistance) (.accounting .panicked)
  match st.undos.get e with
  | none => .ok st
  | some u => do
    let s ← st.sealed.undoMergeWithDelta u
    pure { st with sealed := s, undos := st.undos.erase e }

/-- a block at height `h` is connected – `flush`, then `post_connect_tip` – mod.rs 1495-1501, epoch_seal.rs 52-57 -/
def connect (n : Net) (st : Store) (h : Nat) (d : Option Delta) : Except Err Store := do
  let st ← flush n st h d
  if due n h then advance n st h else pure st

/-- the delta of an epoch is removed with its first block – mod.rs 1526-1532 -/
def forget (n : Net) (st : Store) (h : Nat) : Store :=
  if lastInEpoch n (h - 1) then { st with deltas := st.deltas.erase (epochOf n h) } else st

/-- epoch_seal.rs 58-63 -/
def unsealAt (n : Net) (st : Store) (h : Nat) : Except Err Store := if due n h then rollback n st h else .ok st

/-- the block at height `h` is disconnected – `flush`, then `post_disconnect_tip` – mod.rs 1518-1532 -/
def disconnect (n : Net) (st : Store) (h : Nat) (d : Option Delta) : Except Err Store := do
  let st ← flush n st h d
  let st ← unsealAt n st h
  pure (forget n st h)

end Verif.Epoch
