import Verif.Script.Model

/-! What it means for a script to be satisfied, and for a time lock to have expired, stated without
reference to the evaluation loop. -/

namespace Verif.Script

variable {L E : Type}

mutual
/-- A leaf holds when its check passes; a threshold holds when exactly the required number of its
conditions is declared satisfied and every one of those holds. -/
def Scr.Holds (v : L → Except (Err E) Unit) : Scr L → Prop
  | .leaf l => v l = .ok ()
  | .threshold n c => c.sats.length = n ∧ c.AllHold v
/-- All conditions that are declared satisfied hold. -/
def Conds.AllHold (v : L → Except (Err E) Unit) : Conds L → Prop
  | .nil => True
  | .sat s r => s.Holds v ∧ r.AllHold v
  | .dissat r => r.AllHold v
end

mutual
/-- Every threshold requires at most as many conditions as it has. -/
def Scr.WF : Scr L → Prop
  | .leaf _ => True
  | .threshold n c => n ≤ c.length ∧ c.WF
def Conds.WF : Conds L → Prop
  | .nil => True
  | .sat s r => s.WF ∧ r.WF
  | .dissat r => r.WF
end

mutual
/-- Every threshold declares exactly the required number of conditions satisfied. -/
def Scr.Balanced : Scr L → Prop
  | .leaf _ => True
  | .threshold n c => c.sats.length = n ∧ c.Balanced
def Conds.Balanced : Conds L → Prop
  | .nil => True
  | .sat s r => s.Balanced ∧ r.Balanced
  | .dissat r => r.Balanced
end

mutual
/-- The leaves of a script in reading order. -/
def Scr.leaves : Scr L → List L
  | .leaf l => [l]
  | .threshold _ c => c.leaves
def Conds.leaves : Conds L → List L
  | .nil => []
  | .sat s r => s.leaves ++ r.leaves
  | .dissat r => r.leaves
end

/-- The result of checking a list of leaves one after another, stopping at the first failure. -/
def firstFailure (v : L → Except (Err E) Unit) : List L → Except (Err E) Unit
  | [] => .ok ()
  | l :: r => match v l with
    | .ok () => firstFailure v r
    | .error e => .error e

/-- Scripts the public constructors can build (script/mod.rs 146-195). -/
inductive Built : Scr L → Prop where
  | leaf (l : L) : Built (.leaf l)
  | threshold (n : Nat) (c : Conds L) (s : Scr L) : (∀ x ∈ c.sats, Built x) →
      mkThreshold n c = some s → Built s
  | conjunction (c : Conds L) : (∀ x ∈ c.sats, Built x) → Built (conjunction c)

/-- The moment at which a lock expires, in unbounded arithmetic: `some (Sum.inl h)` a height,
`Sum.inr t` a time; `none` when the place the output was created at is unknown. -/
def expiry (c : LockCtx) : TimeLock → Option (Nat ⊕ Nat)
  | .untilHeight h => some (.inl h)
  | .untilTime t => some (.inr t)
  | .forBlockCount d => c.srcHeight.toOption.map fun s => .inl (s + d)
  | .forSeconds d => c.srcTime.toOption.map fun s => .inr (s + d)

/-- A lock has expired when the spending block has reached its moment of expiry. -/
def Expired (c : LockCtx) (l : TimeLock) : Prop :=
  match expiry c l with
  | some (.inl h) => h ≤ c.spendHeight
  | some (.inr t) => t ≤ c.spendTime
  | none => False

instance (c : LockCtx) (l : TimeLock) : Decidable (Expired c l) := by
  unfold Expired; split <;> infer_instance

end Verif.Script
