import Verif.Orphans.Model
import Verif.Chainstate.Spec

/-!
# What is expected of blocks that arrive before their parents
-/

namespace Verif.Orphans.Spec
open Verif Orphans Chainstate Chainstate.Spec
variable {L : Type}

/-- parents come before children: a block contains the hash of its parent, so no block can be its own ancestor -/
def Acyclic (env : Env L) (ids : List Nat) : Prop := ∃ rank : Nat → Nat, ∀ x ∈ ids, rank (parent env x) < rank x

/-- the number of blocks between genesis and a block, going by the contents of the blocks -/
inductive Depth (env : Env L) : Nat → Nat → Prop
  | genesis : Depth env env.tree.genesisId 0
  | block {id n} : id ≠ env.tree.genesisId → Depth env (parent env id) n → Depth env id (n + 1)

/-- a set of blocks with all their ancestors -/
def Closed (env : Env L) (ids : List Nat) : Prop := ∀ x ∈ ids, x ≠ env.tree.genesisId ∧ (parent env x = env.tree.genesisId ∨ parent env x ∈ ids)

/-- the calls hand over exactly these blocks, in some order, some of them possibly several times -/
def Delivers (calls : List Call) (ids : List Nat) : Prop := ∀ x, x ∈ ids ↔ ∃ c ∈ calls, c.id = x

/-- the checks that do not concern the tree pass, and no storage fault occurs -/
def Calm (calls : List Call) : Prop := ∀ c ∈ calls, ∀ x, (c.now x).check x = none ∧ ∀ y, (c.now x).fault y = false

/-! ### the pool as a list of blocks in order of arrival -/

/-- room for one more block: nothing is lost unless the pool is full; then one block is lost on which no other block of the pool depends -/
def Room (prev : Nat → Nat) (max : Nat) (l l' : List Nat) : Prop :=
  l.length < max ∧ l' = l ∨ l.length = max ∧ ∃ v ∈ l, (∀ x ∈ l, prev x ≠ v) ∧ l' = l.filter (· ≠ v)

/-- a block that descends from `b` through blocks of the list -/
inductive Descends (prev : Nat → Nat) (l : List Nat) (b : Nat) : Nat → Prop
  | child {x} : x ∈ l → prev x = b → Descends prev l b x
  | step {x} : x ∈ l → Descends prev l b (prev x) → Descends prev l b x

/-- what one call does to the list, and the blocks it returns -/
inductive Does (prev : Nat → Nat) (max : Nat) (l : List Nat) : PoolOp → List Nat → List Nat → Prop
  | add {pick id l'} : Room prev max l l' → id ∉ l' → Does prev max l (.add pick id) (l' ++ [id]) []
  | again {pick id l'} : Room prev max l l' → id ∈ l' → Does prev max l (.add pick id) l' []
  | take {q} : Does prev max l (.take q) (l.filter (fun x => prev x ≠ q)) (l.filter (fun x => prev x = q))
  | forget {b l'} : l'.Sublist l → (∀ x, x ∈ l' ↔ x ∈ l ∧ ¬ Descends prev l b x) → Does prev max l (.forget b) l' []

/-- what a sequence of calls does -/
inductive DoesAll (prev : Nat → Nat) (max : Nat) : List Nat → List PoolOp → List Nat → List (List Nat) → Prop
  | nil {l} : DoesAll prev max l [] l []
  | cons {l op l1 o ops l2 os} : Does prev max l op l1 o → DoesAll prev max l1 ops l2 os → DoesAll prev max l (op :: ops) l2 (o :: os)

/-- the blocks put into the pool -/
def added : List PoolOp → List Nat
  | [] => []
  | .add _ id :: ops => id :: added ops
  | _ :: ops => added ops

end Verif.Orphans.Spec
