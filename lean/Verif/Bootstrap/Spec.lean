import Verif.Bootstrap.Model
import Verif.Chainstate.Spec

/-!
# What is expected of bootstrap files
-/

namespace Verif.Bootstrap.Spec
open Verif Codec Chainstate Chainstate.Spec

/-- the start of a file with `n` blocks: the letters MLBTSTRP, the four bytes of the chain, version 0 and the number of blocks -/
def start (chain : Bytes) (n : Nat) : Bytes := [77, 76, 66, 84, 83, 84, 82, 80] ++ chain ++ [0, 0, 0, 0] ++ leBytes 8 n

/-- the size of every block, then the block -/
def frames (blocks : List Bytes) : Bytes := blocks.flatMap (fun b => leBytes 4 b.length ++ b)

/-- the whole file -/
def file (chain : Bytes) (blocks : List Bytes) : Bytes := start chain blocks.length ++ frames blocks

/-- reading delivers these bytes without error, in pieces of any size -/
def Reads (r : Reader) (bs : Bytes) : Prop := ∃ pieces : List Bytes, [] ∉ pieces ∧ r = pieces.map some ∧ pieces.flatten = bs

variable {σ B : Type}

/-- blocks processed one after the other until an error or until told to stop -/
def feed (f : Handler σ B) : List B → σ → σ × Except Err Unit
  | [], s => (s, .ok ())
  | b :: bs, s =>
    match f s b with
    | (s, .error e) => (s, .error e)
    | (s, .ok false) => (s, .ok ())
    | (s, .ok true) => feed f bs s

/-- the processing never asks to stop early (it may fail) -/
def GoesOn (f : Handler σ B) : Prop := ∀ s b, (f s b).2 ≠ .ok false

/-- nothing stands in the way of the import of a block -/
structure Clear (ctx : Ctx) (x : Nat) : Prop where
  stop : ctx.stop x = false
  check : (ctx.now x x).check x = none
  fault : ∀ y, (ctx.now x x).fault y = false

variable {L : Type}

/-- parents come before their children -/
def ParentsFirst (env : Env L) : List Nat → Prop
  | [] => True
  | l => ∀ k (h : k < l.length), (env.tree.body l[k]).prev = env.tree.genesisId ∨ (env.tree.body l[k]).prev ∈ l.take k

/-- the blocks of a chain after genesis, each the parent of the next, up to the given one -/
inductive ChainTo (env : Env L) : Nat → List Nat → Prop
  | genesis : ChainTo env env.tree.genesisId []
  | block {id l} : id ≠ env.tree.genesisId → ChainTo env (env.tree.body id).prev l → ChainTo env id (l ++ [id])

end Verif.Bootstrap.Spec
