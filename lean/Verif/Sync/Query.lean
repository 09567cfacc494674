import Verif.Chainstate.Model

/-!
# Locators and header lists

Model of the parts of chainstate/src/detail/query.rs and chainstate/src/interface/chainstate_interface_impl.rs that peers use to find out which blocks they lack, over the
database of `Verif.Chainstate`.  A header is represented by the id of its block.

Simplified: heights are natural numbers (the distances of `locator_tip_distances` would overflow `i64` beyond 2^62).
-/

namespace Verif.Sync
open Verif Verif.Chainstate
open Verif.BlockTree hiding Err

variable {L : Type}

/-- `locator_tip_distances` with `map_while(|dist| height - dist)` – query.rs 42-44, 188-190: the distances 0, 1, 2, 4, ... not above the height, beginning with `d` -/
def distances (h : Nat) : Nat → Nat → List Nat
  | 0, _ => []
  | f + 1, d => if d ≤ h then d :: distances h f (max 1 (d * 2)) else []

/-- the heights of a locator from the height `h`; there are no more than `h + 2` distances -/
def locatorHeights (h : Nat) : List Nat := (distances h (h + 2) 0).map (h - ·)

/-- `get_locator_from_height` – query.rs 184-194 -/
def locatorFromHeight (s : Db L) (h : Nat) : List Nat := (locatorHeights h).filterMap s.byHeight.get

/-- `get_locator_from_best_block` – query.rs 178-182 -/
def locatorFromBest (env : Env L) (s : Db L) : Except Err (List Nat) := do
  let b ← s.bestIndex env
  pure (locatorFromHeight s b.height)

/-- one height of `get_locator_from_block_id` – query.rs 207-226; the state is the last index and whether the main chain has been met -/
def locatorStep (env : Env L) (s : Db L) (st : Gen × Bool) (h : Nat) : Except Err ((Gen × Bool) × Nat) :=
  let onMain := st.2 || decide (s.byHeight.get st.1.height = some (st.1.id env.tree))
  if onMain then
    match s.byHeight.get h with
    | some id => .ok ((st.1, true), id)
    | none => .error .panicInconsistent
  else
    match getAncestor env.tree s.tree st.1 h with
    | .ok g => .ok ((g, false), g.id env.tree)
    | .error e => .error (.tree e)

/-- the loop of `get_locator_from_block_id` -/
def locatorLoop (env : Env L) (s : Db L) : Gen × Bool → List Nat → Except Err (List Nat)
  | _, [] => .ok []
  | st, h :: l => do
    let (st', id) ← locatorStep env s st h
    let r ← locatorLoop env s st' l
    pure (id :: r)

/-- `get_locator_from_block_id` – query.rs 196-230 -/
def locatorFromBlock (env : Env L) (s : Db L) (id : Nat) : Except Err (List Nat) := do
  let g ← okOr (s.gen env id) .indexNotFound
  locatorLoop env s (g, false) (locatorHeights g.height)

/-- `get_mainchain_headers_higher_than` – query.rs 287-306 -/
def headersAbove (env : Env L) (s : Db L) (h limit : Nat) : Except Err (List Nat) := do
  let b ← s.bestIndex env
  pure ((List.range' (h + 1) (min (h + limit) b.height - h)).filterMap s.byHeight.get)

/-- the first block of a locator on the main chain – query.rs 313-324 -/
def forkHeight (env : Env L) (s : Db L) : List Nat → Nat
  | [] => 0
  | id :: l =>
    match s.gen env id with
    | some g => if s.inMain env id then g.height else forkHeight env s l
    | none => forkHeight env s l

/-- `get_mainchain_headers_by_locator` – query.rs 308-326 -/
def headersByLocator (env : Env L) (s : Db L) (loc : List Nat) (limit : Nat) : Except Err (List Nat) := headersAbove env s (forkHeight env s loc) limit

/-- the loop of `get_mainchain_headers_since_latest_fork_point` – query.rs 338-350 -/
def latestFork (env : Env L) (s : Db L) : Nat → List Nat → Except Err Nat
  | m, [] => .ok m
  | m, id :: l => do
    let g ← okOr (s.gen env id) .indexNotFound
    let f ← s.forkPoint env g
    latestFork env s (max m f.height) l

/-- `get_mainchain_headers_since_latest_fork_point` – query.rs 328-352 -/
def headersSinceFork (env : Env L) (s : Db L) (ids : List Nat) (limit : Nat) : Except Err (List Nat) :=
  if ids.isEmpty then .ok []
  else do
    let h ← latestFork env s 0 ids
    headersAbove env s h limit

/-- `get_block_index_for_persisted_block` – query.rs 136-142: is the block stored? -/
def stored (s : Db L) (id : Nat) : Bool :=
  match s.index.get id with
  | some e => e.persisted
  | none => false

/-- `get_gen_block_index_for_persisted_block` – query.rs 151-157; the genesis counts as stored -/
def storedGen (env : Env L) (s : Db L) (id : Nat) : Option Gen :=
  if id = env.tree.genesisId then some .genesis
  else match s.index.get id with
    | some e => if e.persisted then some (.block e.idx) else none
    | none => none

/-- `split_off_leading_known_headers` – chainstate_interface_impl.rs 302-321 -/
def splitKnown (s : Db L) (l : List Nat) : List Nat × List Nat := (l.takeWhile (stored s), l.dropWhile (stored s))

end Verif.Sync
