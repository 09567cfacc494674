import Verif.Base.BMap
import Verif.Stake.Model

/-!
# Model of the search for timestamps at which a pool can stake
-/

namespace Verif.Slots
open Verif

/-- the errors met below: variants of `BlockError`, `BlockProductionError` and `ConsensusPoSError`, and a panic -/
inductive Err
  | heightRange
  | notPoS
  | noFinalSupply
  | target
  | timestampOverflow
  | hash
  | badTarget
  | futureTimestampInThePast
  | panic
deriving DecidableEq

/-- `NonZeroPoolBalances` – chainstate/src/detail/chainstateref/mod.rs 1565-1569; that it is only made for a positive
staker balance not above the total is not used -/
structure Bal where
  total : Nat
  staker : Nat
deriving DecidableEq

/-- What is read of the chainstate.  `bal h p` are the balances of pool `p` when the block of height `h` was the tip
(`NonZeroPoolBalances::obtain`, 1586-1625): the code gets there by disconnecting blocks in memory, which restores the ledger
(C49).  `time`, `target` are of the block of the main chain at a height (the latter an error if it is not a PoS block); `next` is
`calculate_target_required_from_block_index` for the tip; `rnd`, `epoch`, `version` are `get_sealed_epoch_randomness`,
`epoch_index_from_height`, `pos_status_from_height` (blockprod/src/detail/utils.rs 130-141, 183-195; common/src/chain/config/mod.rs 553-556).  Storage errors, and the
errors `obtain` has for broken invariants (see `C89_obtain`, `C89_dead_pool_error`), are left out. -/
structure Chain where
  best : Nat
  time : Nat → Nat
  target : Nat → Except Err Nat
  next : Except Err Nat
  rnd : Nat → Nat
  epoch : Nat → Nat
  version : Nat → Except Err Stake.Version
  supply : Option Nat
  bal : Nat → Nat → Option Bal

/-! ### Balances at heights -/

/-- `collect_pool_balances` – chainstateref/mod.rs 1178-1194 -/
def collectBalances (c : Chain) (h : Nat) : List Nat → BMap Nat Bal
  | [] => BMap.empty
  | p :: ps =>
    match c.bal h p with
    | some b => (collectBalances c h ps).insert p b
    | none => collectBalances c h ps

/-- the steps of `disconnect_tip_in_memory_until` (in_memory_reorg.rs 120-194) with the step handler of
`get_stake_pool_balances_at_heights` – chainstateref/mod.rs 1136-1170; `n + 1` blocks remain to be disconnected -/
def balanceLoop (c : Chain) (lo hi : Nat) : Nat → List Nat → List Nat → BMap Nat (BMap Nat Bal) → BMap Nat (BMap Nat Bal)
  | 0, _, _, acc => acc
  | n + 1, pools, had, acc =>
    let cur := lo + n
    let balances := collectBalances c cur pools
    let pools := pools.filter fun p => !had.contains p || (balances.get p).isSome
    let had := had ++ balances.entries.map (·.1)
    let acc := if cur ≤ hi ∧ balances.entries ≠ [] then acc.insert cur balances else acc
    if pools = [] then acc else balanceLoop c lo hi n pools had acc

/-- `get_stake_pool_balances_at_heights` – chainstateref/mod.rs 1093-1175; pool ids are given without repetition -/
def balancesAtHeights (c : Chain) (pools : List Nat) (lo hi : Nat) : Except Err (BMap Nat (BMap Nat Bal)) := do
  ensure (lo ≤ hi ∧ hi ≤ c.best) .heightRange
  if hi = c.best then
    let tip := collectBalances c c.best pools
    let acc := if tip.entries ≠ [] then (BMap.empty : BMap Nat (BMap Nat Bal)).insert c.best tip else BMap.empty
    if hi = lo then pure acc else pure (balanceLoop c lo (hi - 1) (c.best - lo) pools [] acc)
  else pure (balanceLoop c lo hi (c.best - lo) pools [] BMap.empty)

/-- `get_pool_balances_at_heights` – blockprod/src/detail/utils.rs 80-101: the entries of one pool -/
def poolBalances (m : BMap Nat (BMap Nat Bal)) (pool : Nat) : List (Nat × Bal) :=
  m.entries.filterMap fun e => (e.2.get pool).map fun b => (e.1, b)

/-! ### Search data -/

/-- `SearchDataForHeight` – blockprod/src/detail/timestamp_searcher/mod.rs 53-61 -/
structure Item where
  rnd : Nat
  epoch : Nat
  target : Nat
  minTs : Nat
  maxTs : Nat
  bal : Bal
  version : Stake.Version
deriving DecidableEq

/-- `TimestampSearchData` – 64-73 -/
structure Data where
  start : Nat
  items : List Item
  supply : Nat
  distinct : Bool
deriving DecidableEq

/-- `timestamp_add_secs` – utils.rs 280-288 -/
def addSecs (t s : Nat) : Except Err Nat := if t + s < 2 ^ 64 then .ok (t + s) else .error .timestampOverflow

/-- `expect("Balances must be present")` – timestamp_searcher/mod.rs 155-158 -/
def expectBal : Option (Nat × Bal) → Except Err Bal
  | some b => .ok b.2
  | none => .error .panic

/-- `seconds_to_check` for a block of the chain, with the assertion that its time is above that of its parent –
timestamp_searcher/mod.rs 198-206 -/
def secondsToCheck (hi secs : Nat) (all : Bool) (h prevTime time : Nat) : Except Err Nat :=
  if h = hi ∨ all = false then .ok secs
  else if prevTime < time then .ok (time - prevTime - 1) else .error .panic

/-- the loop of `obtain` – timestamp_searcher/mod.rs 147-228; `prev` is the time of `block_index_from_last_iter` -/
def obtainLoop (c : Chain) (balances : List (Nat × Bal)) (hi secs : Nat) (all : Bool) :
    Option Nat → List Nat → Except Err (List Item)
  | _, [] => .ok []
  | prev, h :: hs => do
    let bal ← expectBal (balances.find? fun e => e.1 = h - 1)
    let version ← c.version h
    if h = c.best + 1 then
      let target ← c.next
      let minTs ← addSecs (c.time c.best) 1
      let maxTs ← addSecs minTs secs
      let rest ← obtainLoop c balances hi secs all prev hs
      pure (⟨c.rnd h, c.epoch h, target, minTs, maxTs, bal, version⟩ :: rest)
    else
      let target ← c.target h
      let prevTime := prev.getD (c.time (h - 1))
      let secs' ← secondsToCheck hi secs all h prevTime (c.time h)
      let minTs ← addSecs prevTime 1
      let maxTs ← addSecs minTs secs'
      let rest ← obtainLoop c balances hi secs all (some (c.time h)) hs
      pure (⟨c.rnd h, c.epoch h, target, minTs, maxTs, bal, version⟩ :: rest)

/-- `TimestampSearchData::obtain` – 90-236 -/
def obtain (c : Chain) (pool lo : Nat) (hi : Option Nat) (secs : Nat) (all : Bool) : Except Err Data := do
  let supply ← okOr c.supply .noFinalSupply
  let hi := min (hi.getD (c.best + 1)) (c.best + 1)
  ensure (lo > 0 ∧ lo ≤ hi) .heightRange
  let m ← balancesAtHeights c [pool] (lo - 1) (hi - 1)
  let balances := poolBalances m pool
  match balances with
  | [] => pure ⟨lo, [], supply, all⟩
  | (first, _) :: _ => do
    let items ← obtainLoop c balances hi secs all none (List.range' (first + 1) (hi + 1 - (first + 1)))
    pure ⟨first + 1, items, supply, all⟩

/-! ### The search -/

/-- what is hashed: time, epoch and randomness -/
abbrev HashInput := Nat × Nat × Nat

/-- `iter_up_to_including` – common/src/chain/block/timestamp.rs 82-87 -/
def upTo (a b : Nat) : List Nat := List.range' a (b + 1 - a)

/-- `collect_distinct_hash_inputs` – 475-487; a list instead of a set -/
def hashInputs (d : Data) : List HashInput :=
  d.items.flatMap fun i => (upTo i.minTs i.maxTs).map fun t => (t, i.epoch, i.rnd)

/-- hashes computed in advance – 322-369; `hash` is `calc_pos_hash_from_prv_key` with the key of the pool -/
def precompute (hash : HashInput → Except Err Nat) : List HashInput → Except Err (List (HashInput × Nat))
  | [] => .ok []
  | x :: xs => do
    let y ← hash x
    let r ← precompute hash xs
    pure ((x, y) :: r)

/-- the hash for a time – 439-456; the map is an association list -/
def hashFor (hash : HashInput → Except Err Nat) (pre : Option (List (HashInput × Nat))) (x : HashInput) : Except Err Nat :=
  match pre with
  | some l =>
    match l.find? fun e => e.1 = x with
    | some e => .ok e.2
    | none => .error .panic
  | none => hash x

/-- the loop of `find_timestamps` – 438-470 -/
def findLoop (hash : HashInput → Except Err Nat) (pre : Option (List (HashInput × Nat))) (i : Item) (supply target : Nat) :
    List Nat → Except Err (List Nat)
  | [] => .ok []
  | t :: ts => do
    let h ← hashFor hash pre (t, i.epoch, i.rnd)
    let r ← findLoop hash pre i supply target ts
    pure (if (Stake.checkHash i.version h target i.bal.staker i.bal.total supply).isOk then t :: r else r)

/-- `find_timestamps` – 421-473; `decode` is `compact_target_to_target` -/
def findTimestamps (decode : Nat → Except Err Nat) (hash : HashInput → Except Err Nat)
    (pre : Option (List (HashInput × Nat))) (i : Item) (supply : Nat) : Except Err (List Nat) := do
  let target ← decode i.target
  ensure (i.minTs ≤ i.maxTs) .futureTimestampInThePast
  findLoop hash pre i supply target (upTo i.minTs i.maxTs)

/-- the items one after the other (in parallel in the code, and of several errors the first is returned) – 371-407 -/
def findAll (decode : Nat → Except Err Nat) (hash : HashInput → Except Err Nat) (pre : Option (List (HashInput × Nat)))
    (supply : Nat) : Nat → List Item → Except Err (BMap Nat (List Nat))
  | _, [] => .ok BMap.empty
  | h, i :: is => do
    let ts ← findTimestamps decode hash pre i supply
    let m ← findAll decode hash pre supply (h + 1) is
    pure (if ts = [] then m else m.insert h ts)

/-- `find_timestamps_for_staking_impl` – 312-410 -/
def find (decode : Nat → Except Err Nat) (hash : HashInput → Except Err Nat) (d : Data) : Except Err (BMap Nat (List Nat)) := do
  if d.distinct then findAll decode hash none d.supply d.start d.items
  else do
    let pre ← precompute hash (hashInputs d)
    findAll decode hash (some pre) d.supply d.start d.items

end Verif.Slots
