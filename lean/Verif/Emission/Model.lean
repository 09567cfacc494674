import Verif.Base.Amount
import Verif.Base.BMap

/-!
# Coin emission schedule

Model of `common/src/chain/config/emission_schedule.rs`.  `CoinUnit` (common/src/chain/coin_unit.rs 25-75) wraps `Amount`;
heights are `u64` and appear here as `Nat`.  `expect`s and assertions are explicit errors.
-/

namespace Verif.Emission
open Verif

/-- ways to panic -/
inductive Panic
  | subsidyOverflow | heightsIncorrect | genesisHasNoSubsidy | notMonotonic | heightUnderflow
  deriving DecidableEq, Repr

/-- `EmissionScheduleTabular` – emission_schedule.rs 76-83 -/
structure Table where
  initialSupply : Nat
  initialSubsidy : Nat
  periods : BMap Nat Nat

/-- the `scan` of `schedule` – emission_schedule.rs 140-152 -/
def scan : Nat → Nat → Nat → List (Nat × Nat) → Except Panic (List (Nat × (Nat × Nat)))
  | _, _, _, [] => pure []
  | supply, oldSubsidy, startBlock, (endBlock, newSubsidy) :: rest => do
    let nBlocks ← okOr (Amt.sub endBlock startBlock) .heightUnderflow
    let curPeriod ← okOr (Amt.mul oldSubsidy nBlocks) .subsidyOverflow
    let supply ← okOr (Amt.add supply curPeriod) .subsidyOverflow
    let tl ← scan supply newSubsidy endBlock rest
    pure ((endBlock, (supply, newSubsidy)) :: tl)

/-- the closure built by `schedule` – emission_schedule.rs 157-168; `range(0..height).next_back()` is the last entry
with a smaller key -/
def closure (initial : Nat × Nat) (table : List (Nat × (Nat × Nat))) (height : Nat) : Except Panic Nat := do
  let (start, (startSupply, subsidy)) := ((table.filter (fun e => e.1 < height)).getLast?).getD (0, initial)
  ensure (start ≤ height) .heightsIncorrect
  let nBlocks ← okOr (Amt.sub height start) .heightUnderflow
  let periodSubsidy ← okOr (Amt.mul subsidy nBlocks) .subsidyOverflow
  okOr (Amt.add startSupply periodSubsidy) .subsidyOverflow

/-- `schedule` – emission_schedule.rs 130-169; the result is the function from heights to total supply -/
def schedule (t : Table) : Except Panic (Nat → Except Panic Nat) := do
  let table ← scan t.initialSupply t.initialSubsidy 0 t.periods.entries
  pure (closure (t.initialSupply, t.initialSubsidy) table)

/-- `EmissionSchedule::amount_at` of the schedule of a table – emission_schedule.rs 51-53 -/
def amountAt (t : Table) (h : Nat) : Except Panic Nat := do
  let f ← schedule t
  f h

/-- `EmissionSchedule::initial_supply` – emission_schedule.rs 56-58 -/
def initialSupply (t : Table) : Except Panic Nat := amountAt t 0

/-- `EmissionSchedule::subsidy` – emission_schedule.rs 61-64 -/
def subsidy (t : Table) (h : Nat) : Except Panic Nat := do
  let prev ← okOr (Amt.sub h 1) .genesisHasNoSubsidy
  let a ← amountAt t h
  let b ← amountAt t prev
  okOr (Amt.sub a b) .notMonotonic

/-- `tail_emission` – emission_schedule.rs 115-121 -/
def tailEmission (t : Table) : Nat × Nat := t.periods.entries.getLast?.getD (0, t.initialSubsidy)

/-- `final_supply` – emission_schedule.rs 124-127 -/
def finalSupply (t : Table) : Except Panic (Option Nat) :=
  if (tailEmission t).2 = 0 then do
    let a ← amountAt t (tailEmission t).1
    pure (some a)
  else pure none

/-- `CoinUnit::from_coins` – coin_unit.rs 43-48 -/
def coins (n : Nat) : Nat := n * 10 ^ 11

/-- the `subsequent_subsidies` of mainnet – emission_schedule.rs 290 -/
def mainnetSubsidies : List Nat := [151, 113, 85, 64, 48, 36, 27, 20, 15, 0]

/-- `mainnet_schedule_table` – emission_schedule.rs 278-295, for a block interval of a whole number `secs ≠ 0` of seconds -/
def mainnetTable (secs : Nat) : Table :=
  let blocksPerYear := (365 * 24 * 60 * 60) / secs
  { initialSupply := coins 400000000
    initialSubsidy := coins 202
    periods := BMap.ofList ((mainnetSubsidies.zipIdx 1).map (fun x => (blocksPerYear * x.2, coins x.1))) }

end Verif.Emission
