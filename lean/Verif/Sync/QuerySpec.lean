import Verif.Sync.Query
import Verif.Chainstate.Spec

/-!
# Specification of locators and header lists
-/

namespace Verif.Sync
open Verif Verif.Chainstate Verif.Chainstate.Spec

variable {L : Type}

/-- 0 or a power of two -/
def Sparse (d : Nat) : Prop := d = 0 ∨ ∃ k, d = 2 ^ k

/-- the locator of a block: its ancestors at the distances 0, 1, 2, 4, ..., the highest first -/
structure IsLocator (env : Env L) (s : Db L) (x : Nat) (l : List Nat) : Prop where
  mem : ∀ y, y ∈ l ↔ Anc env s x y ∧ Sparse (height env s x - height env s y)
  sorted : l.Pairwise (fun a b => height env s b < height env s a)

/-- blocks of the main chain, one following the other, the first following `g` -/
inductive Run (env : Env L) (s : Db L) : Nat → List Nat → Prop
  | nil {g} : Main env s g → Run env s g []
  | cons {g b l} : Main env s g → b ≠ env.tree.genesisId → (env.tree.body b).prev = g → Run env s b l → Run env s g (b :: l)

/-- the first block of a list on the main chain, genesis if there is none -/
def FirstMain (env : Env L) (s : Db L) (loc : List Nat) (g : Nat) : Prop :=
  (∃ a b, loc = a ++ g :: b ∧ Main env s g ∧ ∀ x ∈ a, ¬ Main env s x) ∨ (g = env.tree.genesisId ∧ ∀ x ∈ loc, ¬ Main env s x)

/-- the highest block of the main chain of the second node among the ancestors of a block known to the first -/
def ForkOf (env : Env L) (s s' : Db L) (x f : Nat) : Prop :=
  Anc env s x f ∧ Main env s' f ∧ ∀ y, Anc env s x y → Main env s' y → height env s y ≤ height env s f

end Verif.Sync
