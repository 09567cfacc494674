import Verif.Base.Amount
import Verif.Base.BMap
import Mathlib.Data.List.Sort

/-!
# Block index, ancestors, median time

Model of `chainstate/types/src/{height_skip,ancestor,block_index,gen_block_index,block_index_history_iter}.rs`,
`chainstate/src/detail/median_time.rs` and the index part of `chainstate/src/detail/chainstateref/mod.rs`.

Block ids are natural numbers.  What a block contains (header and transactions) is a function `body` of its id – the id is a
hash of the block.  Storage errors are not modelled.  Heights, chain trust and transaction counts are `Nat`: the overflow
panics of `next_height` (u64) and of the chain trust addition (256 bits) are left out.  Block status is not part of the index
here (it does not influence any function in this file).
-/

namespace Verif.BlockTree
open Verif

/-- parts of a block used for its index: parent, timestamp, number of transactions, block proof
(`get_block_proof`, chainstateref/mod.rs 952-962, taken as given) -/
structure Body where
  prev : Nat
  timestamp : Nat
  txs : Nat
  proof : Nat
  deriving DecidableEq, Repr

/-- chain configuration: genesis id and timestamp, block contents by id -/
structure Cfg where
  genesisId : Nat
  genesisTime : Nat
  body : Nat → Body

/-- `BlockIndex` – block_index.rs 26-45 -/
structure Idx where
  id : Nat
  prev : Nat
  someAncestor : Nat
  trust : Nat
  height : Nat
  timestamp : Nat
  timeMax : Nat
  txCount : Nat
  deriving DecidableEq, Repr

/-- `GenBlockIndex` – gen_block_index.rs 29-32 -/
inductive Gen
  | genesis
  | block (b : Idx)
  deriving DecidableEq, Repr

/-- `block_id` – gen_block_index.rs 111-116 -/
def Gen.id (c : Cfg) : Gen → Nat | .genesis => c.genesisId | .block b => b.id
/-- `block_timestamp` – gen_block_index.rs 118-123 -/
def Gen.timestamp (c : Cfg) : Gen → Nat | .genesis => c.genesisTime | .block b => b.timestamp
/-- `chain_timestamps_max` – gen_block_index.rs 125-130 -/
def Gen.timeMax (c : Cfg) : Gen → Nat | .genesis => c.genesisTime | .block b => b.timeMax
/-- `block_height` – gen_block_index.rs 132-137 -/
def Gen.height : Gen → Nat | .genesis => 0 | .block b => b.height
/-- `chain_trust` – gen_block_index.rs 139-144 -/
def Gen.trust : Gen → Nat | .genesis => 0 | .block b => b.trust
/-- `chain_transaction_count` – gen_block_index.rs 167-172 -/
def Gen.txCount : Gen → Nat | .genesis => 0 | .block b => b.txCount

/-- the block index table of the database -/
abbrev Store := BMap Nat Idx

/-- errors and panics -/
inductive Err
  | invalidAncestorHeight | prevNotFound | startNotFound | timeOrderInvalid
  | panicAncestorMissing | panicSkippedTooMuch | panicNoPrevHeight | panicNotInLockstep | panicAncestorRetrieval | panicIndex
  | outOfFuel
  deriving DecidableEq, Repr

/-- `gen_block_index_getter` – ancestor.rs 110-119 -/
def getGen (c : Cfg) (s : Store) (id : Nat) : Option Gen :=
  if id = c.genesisId then some .genesis else (s.get id).map .block

/-- `invert_lowest_one` – height_skip.rs 18-20; `0.wrapping_sub(1)` is all ones and `0 & x = 0` -/
def invertLowestOne (n : Nat) : Nat := n &&& (n - 1)

/-- `get_skip_height` – height_skip.rs 22-37 -/
def skipHeight (h : Nat) : Nat :=
  if h < 2 then 0
  else if h &&& 1 ≠ 0 then invertLowestOne (invertLowestOne (h - 1)) + 1
  else invertLowestOne h

/-- the loop of `block_index_ancestor_getter` – ancestor.rs 74-107; `fuel` bounds the number of iterations, running out is an
error -/
def walk (c : Cfg) (s : Store) (target : Nat) : Nat → Nat → Gen → Except Err Gen
  | 0, _, _ => .error .outOfFuel
  | fuel + 1, hw, cur =>
    if hw < target then .error .panicSkippedTooMuch
    else if hw = target then .ok cur
    else match cur with
      | .genesis => .ok cur
      | .block b =>
        if hw = 0 then .error .panicNoPrevHeight
        else
          let hPrev := hw - 1
          let hSkip := skipHeight hw
          let hSkipPrev := skipHeight hPrev
          let atTarget := decide (hSkip = target)
          let stillNotThere := decide (hSkip > target)
          let tooClose := decide (hSkipPrev + 1 + 1 < hSkip)
          let prevTooClose := decide (hSkipPrev ≥ target)
          if atTarget || (stillNotThere && !(tooClose && prevTooClose)) then
            match getGen c s b.someAncestor with
            | none => .error .panicAncestorMissing
            | some x => walk c s target fuel hSkip x
          else
            match getGen c s b.prev with
            | none => .error .prevNotFound
            | some x => walk c s target fuel hPrev x

/-- `block_index_ancestor_getter` from a block index – ancestor.rs 47-108 (`get_ancestor`, chainstateref/mod.rs 308-320) -/
def getAncestor (c : Cfg) (s : Store) (start : Gen) (target : Nat) : Except Err Gen :=
  if target > start.height then .error .invalidAncestorHeight
  else walk c s target (start.height + 1) start.height start

/-- `block_index_ancestor_getter` from a block id – ancestor.rs 56-63 -/
def getAncestorById (c : Cfg) (s : Store) (id : Nat) (target : Nat) : Except Err Gen := do
  let start ← okOr (getGen c s id) .startNotFound
  getAncestor c s start target

/-- `create_block_index_for_new_block` – chainstateref/mod.rs 1046-1090 -/
def createIndex (c : Cfg) (s : Store) (id : Nat) : Except Err Idx := do
  let b := c.body id
  let prev ← okOr (getGen c s b.prev) .prevNotFound
  let height := prev.height + 1
  let anc ← match getAncestor c s prev (skipHeight height) with
    | .ok a => pure a
    | .error _ => .error .panicAncestorRetrieval
  pure { id := id
         prev := b.prev
         someAncestor := anc.id c
         trust := prev.trust + b.proof
         height := height
         timestamp := b.timestamp
         timeMax := max (prev.timeMax c) b.timestamp
         txCount := prev.txCount + b.txs }

/-- `BlockIndexHistoryIterator`, the first `n` items – block_index_history_iter.rs 44-71 -/
def history (c : Cfg) (s : Store) : Nat → Nat → List Gen
  | 0, _ => []
  | n + 1, id =>
    match getGen c s id with
    | none => []
    | some .genesis => [.genesis]
    | some (.block b) => .block b :: history c s n b.prev

/-- `calculate_median_time_past_from_blocktimestamps` – median_time.rs 38-44, on the timestamps already cut to 11 -/
def medianOf (l : List Nat) : Except Err Nat :=
  let sorted := l.insertionSort (· ≤ ·)
  okOr sorted[sorted.length / 2]? .panicIndex

/-- `calculate_median_time_past` – median_time.rs 28-35; `MEDIAN_TIME_SPAN` = 11 -/
def medianTimePast (c : Cfg) (s : Store) (id : Nat) : Except Err Nat :=
  medianOf ((history c s 11 id).map (Gen.timestamp c))

/-- a new block arrives: the median-time check of `check_block_header` (chainstateref/mod.rs 717-721, the other checks of a
header do not concern the index) and storing the new index (`set_new_block_index`, 1431-1441) -/
def addBlock (c : Cfg) (s : Store) (id : Nat) : Except Err Store := do
  let idx ← createIndex c s id
  let m ← medianTimePast c s idx.prev
  ensure (m ≤ idx.timestamp) .timeOrderInvalid
  pure (s.insert id idx)

/-- `del_block_index_of_non_persisted_block` – chainstateref/mod.rs 1446-1461 (the flag `is_persisted` is not modelled) -/
def delBlock (s : Store) (id : Nat) : Store := s.erase id

/-- the loop of `last_common_ancestor` – chainstateref/mod.rs 343-354 -/
def lockstep (c : Cfg) (s : Store) : Nat → Gen → Gen → Except Err Gen
  | 0, _, _ => .error .outOfFuel
  | fuel + 1, x, y =>
    if x.id c = y.id c then .ok x
    else match x, y with
      | .block a, .block b => do
        let x' ← okOr (getGen c s a.prev) .prevNotFound
        let y' ← okOr (getGen c s b.prev) .prevNotFound
        lockstep c s fuel x' y'
      | _, _ => .error .panicNotInLockstep

/-- one branch of the match of `last_common_ancestor` – chainstateref/mod.rs 331-341: the block itself, or its ancestor at the
other block's height if it is higher -/
def levelTo (c : Cfg) (s : Store) (x y : Gen) : Except Err Gen :=
  if x.height > y.height then getAncestor c s x y.height else .ok x

/-- `last_common_ancestor` – chainstateref/mod.rs 324-355 -/
def lastCommonAncestor (c : Cfg) (s : Store) (x y : Gen) : Except Err Gen := do
  let x' ← levelTo c s x y
  let y' ← levelTo c s y x
  lockstep c s (x'.height + 1) x' y'

end Verif.BlockTree
