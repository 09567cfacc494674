import Verif.Chainstate.Model
import Verif.BlockTree.Spec

/-!
# What is expected of block processing
-/

namespace Verif.Chainstate.Spec
open Verif BlockTree Chainstate
variable {L : Type}

/-- connecting the blocks of the chain that ends in the given block, one after the other from genesis, leads to this chain state -/
inductive Led (env : Env L) : Nat → L → Prop
  | genesis : Led env env.tree.genesisId env.genesis
  | block {id l l'} : id ≠ env.tree.genesisId → Led env (env.tree.body id).prev l → env.connect l id = some l' → Led env id l'

/-- every block of the chain that ends in the given block can be connected -/
def Valid (env : Env L) (id : Nat) : Prop := ∃ l, Led env id l

/-- disconnecting the block connected last restores the chain state (C49) -/
def Undoes (env : Env L) : Prop :=
  ∀ id l l', id ≠ env.tree.genesisId → Led env (env.tree.body id).prev l → env.connect l id = some l' → env.disconnect l' id = some l

/-- block `b` is block `a` or one of its ancestors -/
def Anc (env : Env L) (s : Db L) (a b : Nat) : Prop := BlockTree.Spec.Anc env.tree s.tree a b

/-- the block is genesis or has a stored index -/
def Known (env : Env L) (s : Db L) (id : Nat) : Prop := BlockTree.Spec.Known env.tree s.tree id

/-- height and chain trust of a block (0 for genesis and unknown blocks) -/
def height (env : Env L) (s : Db L) (id : Nat) : Nat := ((s.gen env id).map Gen.height).getD 0
/-- see `height` -/
def trust (env : Env L) (s : Db L) (id : Nat) : Nat := ((s.gen env id).map Gen.trust).getD 0

/-- the block is on the main chain: the best block or one of its ancestors -/
def Main (env : Env L) (s : Db L) (id : Nat) : Prop := Anc env s s.best id

/-- the block has an index without failure flag, or is genesis -/
def Ok (env : Env L) (s : Db L) (id : Nat) : Prop := s.genOk env id = true

/-- two blocks have a common ancestor at or above a height -/
def Shares (env : Env L) (s : Db L) (m a b : Nat) : Prop := ∃ c, Anc env s a c ∧ Anc env s b c ∧ m ≤ height env s c

/-- the reasons for which a block may be refused -/
inductive Reason (env : Env L) (now : Now) (s : Db L) (id : Nat) : Err → Prop
  | again : Known env s id → Ok env s id → Reason env now s id .alreadyProcessed
  | bad : Known env s id → ¬ Ok env s id → Reason env now s id .invalidAlreadyProcessed
  | orphan : ¬ Known env s (env.tree.body id).prev → Reason env now s id .prevNotFound
  | parent : Known env s (env.tree.body id).prev → ¬ Ok env s (env.tree.body id).prev → Reason env now s id .invalidParent
  | deep : ¬ Shares env s s.minHeight (env.tree.body id).prev s.best → Reason env now s id .beforeReorgLimit
  | check {c} : now.check id = some c → Reason env now s id (.checkFailed c)
  | fault {x} : now.fault x = true → Reason env now s id .storage
  | invalid : ¬ Valid env id → Reason env now s id .badBlock

/-- calls that change the chain state -/
inductive Op
  | process (id : Nat) (now : Now)
  | invalidate (id : Nat) (now : Now)
  | reset (id : Nat) (now : Now)

/-- the state after a call -/
def step (env : Env L) (s : Db L) : Op → Db L
  | .process id now => (s.process env now id).1
  | .invalidate id now => (s.invalidate env now id true).1
  | .reset id now => (s.reset env now id).1

/-- no block has the id of genesis; the failure flags of a block are reset only if its parent has none -/
def Proper (env : Env L) (s : Db L) : Op → Prop
  | .process id _ => id ≠ env.tree.genesisId
  | .invalidate _ _ => True
  | .reset id _ => Known env s id → Ok env s (env.tree.body id).prev

/-- states reached from `s0` by a sequence of proper calls of the given kind -/
inductive Later (env : Env L) (P : Op → Prop) (s0 : Db L) : Db L → Prop
  | refl : Later env P s0 s0
  | step {s} (op : Op) : Later env P s0 s → P op → Proper env s op → Later env P s0 (step env s op)

/-- any call -/
def AnyOp : Op → Prop := fun _ => True

/-- states reached by any sequence of proper calls -/
def Reach (env : Env L) (s : Db L) : Prop := Later env AnyOp (Db.init env) s

/-- no storage fault interrupts the search for the best chain after an invalidation or a reset; it may interrupt the processing of blocks -/
def NoFault : Op → Prop
  | .process _ _ => True
  | .invalidate _ now => ∀ x, now.fault x = false
  | .reset _ now => ∀ x, now.fault x = false

/-- new blocks only, which pass the checks not concerning the tree, without storage faults -/
def Honest : Op → Prop
  | .process id now => now.check id = none ∧ ∀ x, now.fault x = false
  | _ => False

/-- new blocks only -/
def IsProcess : Op → Prop
  | .process _ _ => True
  | _ => False

/-- no valid block within reach has more chain trust than the tip: within reach are the blocks that share with the main chain a block not below
the lowest height where reorganizations are allowed -/
def MaxTrust (env : Env L) (s : Db L) : Prop :=
  ∀ x, Known env s x → Ok env s x → Shares env s s.minHeight x s.best → trust env s x ≤ trust env s s.best

end Verif.Chainstate.Spec
