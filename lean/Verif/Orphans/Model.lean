import Verif.Chainstate.Model

/-!
# Blocks that arrive before their parents

Model of `OrphanBlocksPool` (chainstate/src/detail/orphan_blocks/pool.rs) and of its use while blocks are processed (chainstate/src/detail/mod.rs).  Blocks are their ids; the id fixes the contents, and
so the parent (`prev`).  The thread the pool lives in (`OrphansProxy`) executes the calls one by one and plays no role here.
-/

namespace Verif.Orphans
open Verif BlockTree Chainstate

/-- `OrphanBlocksPool` (pool.rs 24-29): the ids in the order of arrival, the blocks by id and by parent (the blocks themselves are fixed by their ids) -/
structure Pool where
  ids : List Nat
  byId : BMap Nat Unit
  byPrev : BMap Nat (List Nat)
  max : Nat

/-- the panics: `expect("Entry missing from the map")`, `panic!("Orphan pool parent map inconsistent")`, `expect("This list should never be empty …")`, `expect("As orphans can never be
empty …")`; `stack`: the recursion of `del_one_deepest_child` does not end -/
inductive Panic
  | missing | parentMap | emptyList | emptyPool | stack
  deriving DecidableEq, Repr

/-- `new` (pool.rs 37-44) -/
def Pool.new (max : Nat) : Pool := ⟨[], BMap.empty, BMap.empty, max⟩

/-- `len` (46-48) -/
def Pool.len (p : Pool) : Nat := p.ids.length

/-- `is_already_an_orphan` (117-119) -/
def Pool.has (p : Pool) (id : Nat) : Bool := (p.byId.get id).isSome

/-- the entry of a parent without one of its children (61-68) -/
def dropChild (m : BMap Nat (List Nat)) (q : Nat) (l : List Nat) : BMap Nat (List Nat) :=
  if l.isEmpty then m.erase q else m.insert q l

/-- `drop_block` (50-70) -/
def Pool.drop (prev : Nat → Nat) (p : Pool) (id : Nat) : Except Panic Pool :=
  match p.byId.get id with
  | none => .error .missing
  | some _ =>
    match p.byPrev.get (prev id) with
    | none => .error .parentMap
    | some l => .ok { p with
        byId := p.byId.erase id
        ids := p.ids.filter (· ≠ id)
        byPrev := dropChild p.byPrev (prev id) (l.filter (· ≠ id)) }

/-- `del_one_deepest_child` (73-85), with a bound for the depth of the recursion -/
def Pool.dropDeepest (prev : Nat → Nat) : Nat → Pool → Nat → Except Panic Pool
  | 0, _, _ => .error .stack
  | n + 1, p, id =>
    match p.byPrev.get id with
    | none => p.drop prev id
    | some [] => .error .emptyList
    | some (x :: _) => Pool.dropDeepest prev n p x

/-- `prune` (87-95); `pick` is the random number -/
def Pool.prune (prev : Nat → Nat) (p : Pool) (pick : Nat) : Except Panic Pool :=
  if p.len < p.max then .ok p
  else match p.ids[pick % p.len]? with
    | none => .error .emptyPool
    | some id => p.dropDeepest prev (p.len + 1) id

/-- the part of `add_block` after the check (106-113) -/
def Pool.push (prev : Nat → Nat) (p : Pool) (id : Nat) : Pool :=
  { p with
    byId := p.byId.insert id ()
    ids := p.ids ++ [id]
    byPrev := p.byPrev.insert (prev id) ((p.byPrev.get (prev id)).getD [] ++ [id]) }

/-- `add_block` (97-114); the second part of the result tells whether the block was added (`false`: `BlockAlreadyInOrphanList`) -/
def Pool.add (prev : Nat → Nat) (p : Pool) (pick id : Nat) : Except Panic (Pool × Bool) := do
  let p ← p.prune prev pick
  if p.has id then pure (p, false) else pure (p.push prev id, true)

/-- `take_all_children_of` (131-150) -/
def Pool.take (prev : Nat → Nat) (p : Pool) (q : Nat) : Except Panic (Pool × List Nat) :=
  match p.byPrev.get q with
  | none => .ok (p, [])
  | some l => do
    let p ← l.foldlM (Pool.drop prev) p
    pure (p, l)

/-- `clear` (122-126) -/
def Pool.clear (p : Pool) : Pool := Pool.new p.max

/-- `remove_orphans_of` (mod.rs 608-614): the children of the blocks in the queue are taken out one generation after the other; with a bound for the number of rounds -/
def Pool.removeBelow (prev : Nat → Nat) : Nat → List Nat → Pool → Except Panic Pool
  | _, [], p => .ok p
  | 0, _ :: _, _ => .error .stack
  | k + 1, q :: queue, p => do
    let r ← p.take prev q
    Pool.removeBelow prev k (queue ++ r.2) r.1

/-- the calls of the pool made by the chainstate -/
inductive PoolOp
  | add (pick id : Nat)
  | take (q : Nat)
  | forget (b : Nat)

/-- one call and the blocks it returns -/
def Pool.run1 (prev : Nat → Nat) (p : Pool) : PoolOp → Except Panic (Pool × List Nat)
  | .add pick id => do
    let r ← p.add prev pick id
    pure (r.1, [])
  | .take q => p.take prev q
  | .forget b => do
    let r ← p.removeBelow prev (p.len + 1) [b]
    pure (r, [])

/-- a sequence of calls and the blocks they return -/
def Pool.run (prev : Nat → Nat) : List PoolOp → Pool → Except Panic (Pool × List (List Nat))
  | [], p => .ok (p, [])
  | op :: ops, p => do
    let r ← p.run1 prev op
    let r' ← Pool.run prev ops r.1
    pure (r'.1, r.2 :: r'.2)

/-! ### Processing blocks -/

/-- the node: its database and the waiting blocks -/
structure Node (L : Type) where
  db : Db L
  pool : Pool

variable {L : Type}

/-- the parent of a block -/
def parent (env : Env L) (id : Nat) : Nat := (env.tree.body id).prev

/-- the block that `attempt_to_process_block` invalidates because it could not be connected (mod.rs 471-502), see `Db.finish` -/
def blamed (env : Env L) (now : Now) (s : Db L) (id : Nat) : Option Nat :=
  match s.index.get id, createIndex env.tree s.tree id with
  | none, .ok idx =>
    match s.integrate env now idx with
    | .error (.connect e _ bad) => if !s.inMain env bad && e.classify.shouldInvalidate then some bad else none
    | _ => none
  | _, _ => none

/-- `invalidate_stale_block` ends with `remove_orphans_of` (block_invalidation/mod.rs 115); that the marks of the branch can be written is part of C36 -/
def Pool.forget (prev : Nat → Nat) (p : Pool) : Option Nat → Except Panic Pool
  | none => .ok p
  | some b => p.removeBelow prev (p.len + 1) [b]

/-- `attempt_to_process_block` with `BlockSource::Local` (mod.rs 411-540, `check_legitimate_orphan` and `new_orphan_block` 864-896): a block whose parent is unknown goes to the pool; whether it was
there already makes no difference for the result (error.rs 268-274) -/
def Node.attempt (env : Env L) (now : Now) (pick : Nat) (n : Node L) (id : Nat) : Except Panic (Node L × Except Chainstate.Err (Option Entry)) :=
  match n.db.gen env (parent env id) with
  | none => do
    let r ← n.pool.add (parent env) pick id
    pure (⟨n.db, r.1⟩, .error .prevNotFound)
  | some _ => do
    let p ← n.pool.forget (parent env) (blamed env now n.db id)
    pure (⟨(n.db.process env now id).1, p⟩, (n.db.process env now id).2)

/-- the new tip after an attempt: errors are logged only (mod.rs 587-598) -/
def laterTip (old : Option Entry) : Except Chainstate.Err (Option Entry) → Option Entry
  | .ok (some e) => some e
  | _ => old

/-- one waiting block is processed (mod.rs 587-591) -/
def Node.attemptOrphan (env : Env L) (now : Nat → Now) (pick : Nat → Nat) (st : Node L × Option Entry) (id : Nat) : Except Panic (Node L × Option Entry) := do
  let r ← st.1.attempt env (now id) (pick id) id
  pure (r.1, laterTip st.2 r.2)

/-- the loop of `process_orphans_of` (mod.rs 582-599), with a bound for the number of rounds; the last new tip is kept (601-604) -/
def Node.orphanLoop (env : Env L) (now : Nat → Now) (pick : Nat → Nat) : Nat → List Nat → Node L × Option Entry → Except Panic (Node L × Option Entry)
  | _, [], st => .ok st
  | 0, _ :: _, _ => .error .stack
  | k + 1, id :: queue, st => do
    let r ← st.1.pool.take (parent env) id
    let st ← r.2.foldlM (Node.attemptOrphan env now pick) (⟨st.1.db, r.1⟩, st.2)
    Node.orphanLoop env now pick k (queue ++ r.2) st

/-- the waiting blocks are processed only after the block itself was accepted (mod.rs 624-631) -/
def Node.afterAttempt (env : Env L) (now : Nat → Now) (pick : Nat → Nat) (id : Nat) (n : Node L) : Except Chainstate.Err (Option Entry) → Except Panic (Node L × Except Chainstate.Err (Option Entry))
  | .error e => .ok (n, .error e)
  | .ok tip => do
    let o ← Node.orphanLoop env now pick (n.pool.len + 1) [id] (n, tip)
    pure (o.1, .ok o.2)

/-- `process_block` (mod.rs 617-675) with a block from a local source.  `now id` and `pick id` stand for what the checks of a block and the random number give when the block is processed. -/
def Node.submit (env : Env L) (now : Nat → Now) (pick : Nat → Nat) (n : Node L) (id : Nat) : Except Panic (Node L × Except Chainstate.Err (Option Entry)) := do
  let r ← n.attempt env (now id) (pick id) id
  Node.afterAttempt env now pick id r.1 r.2

/-- a node that knows genesis only -/
def Node.new (env : Env L) (max : Nat) : Node L := ⟨Db.init env, Pool.new max⟩

/-- a block handed to the node, and what the checks and the random numbers give meanwhile -/
structure Call where
  id : Nat
  now : Nat → Now := fun _ => {}
  pick : Nat → Nat := fun _ => 0

/-- blocks submitted one after the other; the results are not looked at -/
def Node.submitAll (env : Env L) : List Call → Node L → Except Panic (Node L)
  | [], n => .ok n
  | c :: cs, n => do
    let r ← n.submit env c.now c.pick c.id
    Node.submitAll env cs r.1

end Verif.Orphans
