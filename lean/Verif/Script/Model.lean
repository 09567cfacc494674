import Verif.Base.Amount

/-! Model of witness scripts and their evaluation, and of time locks.

Sources: `mintscript/src/script/mod.rs`, `mintscript/src/script/verify.rs`,
`mintscript/src/checker/timelock.rs`, `common/src/chain/transaction/output/timelock.rs`. -/

namespace Verif.Script

/-- Outcome of a step that can fail with an error or abort the process.  `panic` stands for a Rust
panic; the node is built with `panic = "abort"`. -/
inductive Err (E : Type) where
  | panic
  | err (e : E)
deriving DecidableEq, Repr

mutual
/-- `enum WitnessScript` (mintscript/src/script/mod.rs 136-144).  The three kinds of leaf
(signature, timelock, hashlock) are one constructor over a leaf type `L`. -/
inductive Scr (L : Type) where
  | leaf (l : L)
  | threshold (required : Nat) (conds : Conds L)

/-- `Vec<ScriptCondition>` where `enum ScriptCondition { Satisfied(WitnessScript),
Dissatisfied(DissatisfiedScript::False) }` (script/mod.rs 203-213). -/
inductive Conds (L : Type) where
  | nil
  | sat (s : Scr L) (rest : Conds L)
  | dissat (rest : Conds L)
end

namespace Conds
variable {L : Type}

/-- Length of the vector of conditions. -/
def length : Conds L → Nat
  | nil => 0
  | sat _ r => r.length + 1
  | dissat r => r.length + 1

/-- The scripts of the conditions that are declared satisfied, in order. -/
def sats : Conds L → List (Scr L)
  | nil => []
  | sat s r => s :: r.sats
  | dissat r => r.sats

/-- Build conditions out of satisfied scripts (`satisfied_conjunction`, script/mod.rs 193-195). -/
def ofSats : List (Scr L) → Conds L
  | [] => nil
  | s :: r => sat s (ofSats r)

end Conds

/-- `enum ThresholdError` (script/mod.rs 37-43). -/
inductive ThErr where
  | insufficient
  | excessive
deriving DecidableEq, Repr

/-- Errors of script evaluation: the visitor's own, or a threshold mismatch
(`enum ScriptError`, script/verify.rs 58-70). -/
inductive ScrErr (E : Type) where
  | visitor (e : E)
  | threshold (e : ThErr)
deriving DecidableEq, Repr

/-- The loop of `Threshold::collect_satisfied` (script/mod.rs 100-121) with its two counters. -/
def collectLoop {L E : Type} (ls ld : Nat) (acc : List (Scr L)) :
    Conds L → Except (Err (ScrErr E)) (List (Scr L))
  | .nil => if ls = 0 ∧ ld = 0 then .ok acc else .error .panic
  | .sat s r => if ls = 0 then .error (.err (.threshold .excessive))
      else collectLoop (ls - 1) ld (acc ++ [s]) r
  | .dissat r => if ld = 0 then .error (.err (.threshold .insufficient))
      else collectLoop ls (ld - 1) acc r

/-- `Threshold::collect_satisfied` (script/mod.rs 100-121), including the `expect` of
`required_dissat` (script/mod.rs 88-90) and the final assertions. -/
def collectSatisfied {L E : Type} (req : Nat) (c : Conds L) :
    Except (Err (ScrErr E)) (List (Scr L)) :=
  if c.length < req then .error .panic
  else collectLoop req (c.length - req) [] c

mutual
/-- Number of nodes of a script: an upper bound on the iterations of the evaluation loop. -/
def Scr.size {L : Type} : Scr L → Nat
  | .leaf _ => 1
  | .threshold _ c => c.size + 1
def Conds.size {L : Type} : Conds L → Nat
  | .nil => 0
  | .sat s r => s.size + r.size
  | .dissat r => r.size
end

/-- The `while let Some(expr) = eval_stack.pop()` loop of `WitnessScript::verify`
(script/verify.rs 95-118).  The head of the list is the top of the stack.  `fuel` bounds the number
of iterations, `none` means it ran out; `verify` supplies enough (`verifyLoop_fuel`).  The visitor
is a function of the leaf: the checkers in use keep no state between visits
(mintscript/src/checker/mod.rs 120-150). -/
def verifyLoop {L E : Type} (v : L → Except (Err E) Unit) :
    Nat → List (Scr L) → Option (Except (Err (ScrErr E)) Unit)
  | _, [] => some (.ok ())
  | 0, _ :: _ => none
  | n + 1, .leaf l :: st =>
    match v l with
    | .ok () => verifyLoop v n st
    | .error .panic => some (.error .panic)
    | .error (.err e) => some (.error (.err (.visitor e)))
  | n + 1, .threshold req c :: st =>
    match collectSatisfied req c with
    | .ok ss => verifyLoop v n (ss ++ st)
    | .error e => some (.error e)

/-- `WitnessScript::verify` (script/verify.rs 95-118). -/
def verify {L E : Type} (v : L → Except (Err E) Unit) (s : Scr L) :
    Option (Except (Err (ScrErr E)) Unit) :=
  verifyLoop v s.size [s]

/-- `Threshold::new` (script/mod.rs 61-70): the checked constructor. -/
def mkThreshold {L : Type} (req : Nat) (c : Conds L) : Option (Scr L) :=
  if req ≤ c.length then some (.threshold req c) else none

/-- `WitnessScript::conjunction` (script/mod.rs 188-190). -/
def conjunction {L : Type} (c : Conds L) : Scr L := .threshold c.length c

/-- `WitnessScript::disjunction` (script/mod.rs 183-185). -/
def disjunction {L : Type} (c : Conds L) : Option (Scr L) := mkThreshold 1 c

/-- `WitnessScript::satisfied_conjunction` (script/mod.rs 193-195). -/
def satisfiedConjunction {L : Type} (l : List (Scr L)) : Scr L := conjunction (.ofSats l)

/-- `WitnessScript::TRUE` (script/mod.rs 146-149). -/
def Scr.true {L : Type} : Scr L := .threshold 0 .nil

/-! ## Time locks -/

/-- `enum OutputTimeLock` (common/src/chain/transaction/output/timelock.rs 37-46).  The payloads are
`u64` numbers. -/
inductive TimeLock where
  | untilHeight (h : Nat)
  | untilTime (t : Nat)
  | forBlockCount (d : Nat)
  | forSeconds (s : Nat)
deriving DecidableEq, Repr

/-- `TimelockContextError` (tx-verifier/.../input_check/mod.rs 174-183). -/
inductive CtxErr where
  | timelockedAccount
  | missingUtxoSource
  | headerLoad
deriving DecidableEq, Repr

/-- `enum TimelockError` (mintscript/src/checker/timelock.rs 48-63). -/
inductive LockErr where
  | heightLocked (cur req : Nat)
  | timestampLocked (cur req : Nat)
  | heightArith
  | timestampArith
  | context (e : CtxErr)
deriving DecidableEq, Repr

/-- `trait TimelockContext` (mintscript/src/checker/timelock.rs 29-43): where the output was created
and where it is being spent. -/
structure LockCtx where
  spendHeight : Nat
  spendTime : Nat
  srcHeight : Except CtxErr Nat
  srcTime : Except CtxErr Nat

/-- `impl Add<BlockDistance> for BlockHeight` (common/src/primitives/height.rs 66-80): the height is
converted to `i64` (`None` when it does not fit), and the sum must fit in `i64` or the `expect`
panics.  The distance is non-negative here, it comes from a `u64`; the final `try_into` to `u64`
then succeeds. -/
def heightAdd (h d : Nat) : Except (Err LockErr) Nat :=
  if 2 ^ 63 ≤ h then .error (.err .heightArith)
  else if 2 ^ 63 ≤ h + d then .error .panic
  else .ok (h + d)

/-- A context value as seen by `?` in the checker. -/
def ofCtx (x : Except CtxErr Nat) : Except (Err LockErr) Nat :=
  match x with
  | .ok n => .ok n
  | .error e => .error (.err (.context e))

/-- `check_at_least` (mintscript/src/checker/timelock.rs 65-67). -/
def atLeast (cur req : Nat) (e : LockErr) : Except (Err LockErr) Unit :=
  if req ≤ cur then .ok () else .error (.err e)

/-- `StandardTimelockChecker::check_timelock` (mintscript/src/checker/timelock.rs 72-92). -/
def checkTimelock (c : LockCtx) : TimeLock → Except (Err LockErr) Unit
  | .untilHeight h => atLeast c.spendHeight h (.heightLocked c.spendHeight h)
  | .untilTime t => atLeast c.spendTime t (.timestampLocked c.spendTime t)
  | .forBlockCount d => do
    if 2 ^ 63 ≤ d then throw (.err .heightArith) else pure ()
    let s ← ofCtx c.srcHeight
    let req ← heightAdd s d
    atLeast c.spendHeight req (.heightLocked c.spendHeight req)
  | .forSeconds d => do
    let s ← ofCtx c.srcTime
    if 2 ^ 64 ≤ s + d then throw (.err .timestampArith) else pure ()
    atLeast c.spendTime (s + d) (.timestampLocked c.spendTime (s + d))

end Verif.Script
