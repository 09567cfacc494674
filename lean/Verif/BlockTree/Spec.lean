import Verif.BlockTree.Model

/-!
# What ancestors are

`Up c s a k b`: going from block `a` to its parent `k` times leads to block `b`, using only the parent ids of stored blocks.
-/

namespace Verif.BlockTree.Spec
open Verif

/-- the block is known -/
def Known (c : Cfg) (s : Store) (id : Nat) : Prop := id = c.genesisId ∨ ∃ b, s.get id = some b

/-- `k` parent steps lead from the first block to the second -/
inductive Up (c : Cfg) (s : Store) : Nat → Nat → Nat → Prop
  | here {a} : Known c s a → Up c s a 0 a
  | step {a b k i} : a ≠ c.genesisId → s.get a = some i → Up c s (c.body a).prev k b → Up c s a (k + 1) b

/-- the second block is the first or one of its ancestors -/
def Anc (c : Cfg) (s : Store) (a b : Nat) : Prop := ∃ k, Up c s a k b

/-- no stored block has this one as its parent -/
def Leaf (s : Store) (id : Nat) : Prop := ∀ k i, s.get k = some i → i.prev ≠ id

/-- Stores the node can reach, with the list of the blocks that passed their checks.  A block with a new id whose parent passed the
checks is added if it passes them itself; the index of any other block with a known parent may be stored too (a block that failed its checks
keeps an index, see `attempt_to_process_block`, chainstate/src/detail/mod.rs 503-525); blocks without children are deleted. -/
inductive Reachable (c : Cfg) : Store → List Nat → Prop
  | init : Reachable c BMap.empty []
  | add {s s' ck id} : Reachable c s ck → id ≠ c.genesisId → s.get id = none → ((c.body id).prev = c.genesisId ∨ (c.body id).prev ∈ ck) →
      addBlock c s id = .ok s' → Reachable c s' (id :: ck)
  | failed {s ck id idx} : Reachable c s ck → id ≠ c.genesisId → s.get id = none → createIndex c s id = .ok idx →
      Reachable c (s.insert id idx) ck
  | del {s ck id} : Reachable c s ck → Leaf s id → Reachable c (delBlock s id) (ck.filter (· ≠ id))

/-- the blocks from the given one down to genesis (excluded), by contents -/
inductive Path (c : Cfg) : Nat → List Body → Prop
  | genesis : Path c c.genesisId []
  | block {id l} : id ≠ c.genesisId → Path c (c.body id).prev l → Path c id (c.body id :: l)

end Verif.BlockTree.Spec
