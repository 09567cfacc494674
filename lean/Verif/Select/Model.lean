import Mathlib.Data.List.Sort
import Verif.Base.Amount

/-!
# Selection of the outputs a wallet spends

Model of wallet/src/account/utxo_selector: groups of outputs, the three algorithms and the choice among their results.

Amounts are natural numbers below 2^128, signed amounts integers in the range of `i128`; sizes (`usize`) are natural numbers, a subtraction that would go below zero is a panic.
Randomness is a parameter: the two shuffles and the random bits.  `BinaryHeap::pop` is a parameter too (which of several groups with the greatest value it takes depends on the
layout of the heap).
-/

namespace Verif.Select
open Verif

/-- `OutputGroup` – output_group.rs 38-52; `O` are outputs together with the inputs that spend them -/
structure Group (O : Type) where
  outputs : List O
  value : Nat
  fee : Nat
  longFee : Nat
  weight : Nat
  deriving DecidableEq, Repr

/-- `UtxoSelectorError` – mod.rs 166-181 (`UnsupportedTransactionOutput` occurs only when groups are made), and a failed `expect`, index, subtraction or assertion -/
inductive SelErr
  | noSolution | noUtxos | notEnough (got want : Nat) | maxWeight | arithmetic
  | panic
  deriving DecidableEq, Repr

/-- `SelectionResult` – mod.rs 31-39 -/
structure Result (O : Type) where
  outputs : List O := []
  eff : Nat := 0
  target : Nat
  waste : Int := 0
  weight : Nat := 0
  fees : Nat := 0
  change : Nat := 0
  deriving DecidableEq, Repr

variable {O : Type}

/-- `OutputGroup::get_effective_value` – output_group.rs 100-110; `pay`: the fee is paid with this currency -/
def Group.effective (pay : Bool) (g : Group O) : Except SelErr Nat :=
  if pay then okOr (Amt.sub g.value g.fee) .panic else .ok g.value

/-- the difference of the two fees, as used for the waste – mod.rs 87-94, 605-612, 639-648 -/
def Group.diff (g : Group O) : Option Int := do
  let f ← Amt.intoSigned g.fee
  let l ← Amt.intoSigned g.longFee
  SAmt.sub f l

/-- `SelectionResult::add_input` – mod.rs 79-100; weights are unbounded here -/
def Result.addInput (pay : Bool) (r : Result O) (g : Group O) : Except SelErr (Result O) := do
  let v ← g.effective pay
  let eff ← okOr (Amt.add r.eff v) .arithmetic
  let waste ← okOr (do let d ← g.diff; SAmt.add r.waste d) .arithmetic
  let fees ← okOr (Amt.add r.fees g.fee) .arithmetic
  pure { r with eff := eff, waste := waste, outputs := r.outputs ++ g.outputs, weight := r.weight + g.weight, fees := fees }

/-- several inputs are added -/
def Result.addInputs (pay : Bool) : Result O → List (Group O) → Except SelErr (Result O)
  | r, [] => .ok r
  | r, g :: gs => do
    let r' ← r.addInput pay g
    r'.addInputs pay gs

/-- `SelectionResult::calculate_change` – mod.rs 130-155; in all calls the least change and the fee of the change are the same amount -/
def Result.calcChange (pay : Bool) (r : Result O) (cost : Nat) : Except SelErr Nat := do
  let c ← okOr (Amt.sub r.eff r.target) .panic
  let c := if pay then (Amt.sub c cost).getD 0 else c
  pure (if c < cost then 0 else c)

/-- the waste of the change or of the excess – mod.rs 111-125 -/
def Result.lastWaste (r : Result O) (change cost : Nat) : Except SelErr Int :=
  if change ≠ 0 then okOr (do let c ← Amt.intoSigned cost; SAmt.add r.waste c) .arithmetic
  else do
    let d ← okOr (Amt.sub r.eff r.target) .panic
    okOr (do let c ← Amt.intoSigned d; SAmt.add r.waste c) .arithmetic

/-- `SelectionResult::compute_and_set_waste` – mod.rs 102-128 -/
def Result.finish (pay : Bool) (r : Result O) (cost : Nat) : Except SelErr (Result O) := do
  let c ← r.calcChange pay cost
  let w ← r.lastWaste c cost
  pure { r with change := c, waste := w }

/-! ### single random draw -/

/-- `BinaryHeap::pop` -/
abbrev Pop (O : Type) := List (Group O) → Option (Group O × List (Group O))

/-- the state of the loop of `select_coins_srd` -/
structure Srd (O : Type) where
  heap : List (Group O) := []
  eff : Nat := 0
  weight : Nat := 0
  exceeded : Bool := false

/-- the inner loop of `select_coins_srd` – mod.rs 243-250: note that the group on which it stops has left the heap already; `f` is at least the size of the heap -/
def srdShrink (pay : Bool) (pop : Pop O) (max : Nat) : Nat → Srd O → Except SelErr (Srd O)
  | 0, st => .ok st
  | f + 1, st =>
    match pop st.heap with
    | none => .ok st
    | some (g, h) =>
      if st.weight ≤ max then .ok { st with heap := h }
      else do
        let v ← g.effective pay
        let eff ← okOr (Amt.sub st.eff v) .arithmetic
        let w ← okOr (Amt.sub st.weight g.weight) .panic
        srdShrink pay pop max f { st with heap := h, eff := eff, weight := w }

/-- the last loop of `select_coins_srd` – mod.rs 255-258: everything is taken from the heap -/
def srdDrain (pay : Bool) (pop : Pop O) : Nat → List (Group O) → Result O → Except SelErr (Result O)
  | 0, _, r => .ok r
  | f + 1, h, r =>
    match pop h with
    | none => .ok r
    | some (g, h') => do
      let r' ← r.addInput pay g
      srdDrain pay pop f h' r'

/-- the part of the loop that adds a group – mod.rs 234-251 -/
def srdAdd (pay : Bool) (pop : Pop O) (max : Nat) (st : Srd O) (g : Group O) : Except SelErr (Srd O) := do
  let v ← g.effective pay
  let eff ← okOr (Amt.add st.eff v) .arithmetic
  let st' : Srd O := { st with heap := g :: st.heap, eff := eff, weight := st.weight + g.weight }
  if st'.weight > max then srdShrink pay pop max (st'.heap.length + 1) { st' with exceeded := true } else pure st'

/-- the loop of `select_coins_srd` – mod.rs 230-268 -/
def srdLoop (pay : Bool) (pop : Pop O) (target full max : Nat) : Srd O → List (Group O) → Except SelErr (Result O)
  | st, [] => .error (if st.exceeded then .maxWeight else .noSolution)
  | st, g :: gs => do
    let st' ← srdAdd pay pop max st g
    if st'.eff ≥ full then srdDrain pay pop (st'.heap.length + 1) st'.heap { target := target } else srdLoop pay pop target full max st' gs

/-- `select_coins_srd` – mod.rs 206-269; `pool` is shuffled -/
def selectSrd (pay : Bool) (pop : Pop O) (pool : List (Group O)) (target cost max : Nat) : Except SelErr (Result O) := do
  let full ← okOr (Amt.add target cost) .arithmetic
  srdLoop pay pop target full max {} pool

/-! ### knapsack -/

/-- the state of the first loop of `knapsack_solver_impl` -/
structure Split (O : Type) where
  lower : List (Group O) := []
  total : Nat := 0
  larger : Option (Group O) := none

/-- the choice of the lowest group above the target – mod.rs 304-310 -/
def lowest (pay : Bool) (g : Group O) : Option (Group O) → Except SelErr (Option (Group O))
  | none => .ok (some g)
  | some l => do
    let v ← g.effective pay
    let w ← l.effective pay
    pure (if v < w then some g else some l)

/-- one group in the first loop of `knapsack_solver_impl` – mod.rs 298-310 -/
def splitStep (pay : Bool) (full : Nat) (st : Split O) (g : Group O) : Except SelErr (Split O) := do
  let v ← g.effective pay
  if v < full then do
    let t ← okOr (Amt.add st.total v) .arithmetic
    pure { st with lower := st.lower ++ [g], total := t }
  else do
    let l ← lowest pay g st.larger
    pure { st with larger := l }

/-- the first loop of `knapsack_solver_impl` – mod.rs 293-311; ends early with a group of exactly the target -/
def split (pay : Bool) (target full : Nat) : Split O → List (Group O) → Except SelErr (Group O ⊕ Split O)
  | st, [] => .ok (.inr st)
  | st, g :: gs => do
    let v ← g.effective pay
    if v = target then pure (.inl g)
    else do
      let st' ← splitStep pay full st g
      split pay target full st' gs

/-- the state of the loops of `approximate_best_subset` -/
structure Approx where
  incl : List Bool
  total : Nat := 0
  reached : Bool := false
  best : List Bool
  bestTotal : Nat

/-- a group is put in – mod.rs 454-471 -/
def approxAdd (target : Nat) (st : Approx) (i v : Nat) : Except SelErr Approx := do
  let t ← okOr (Amt.add st.total v) .panic
  let incl := st.incl.set i true
  if t ≥ target then do
    let back ← okOr (Amt.sub t v) .panic
    let st' := if t < st.bestTotal then { st with best := incl, bestTotal := t } else st
    pure { st' with incl := incl.set i false, total := back, reached := true }
  else pure { st with incl := incl, total := t }

/-- is the group tried? – mod.rs 448-452 -/
def approxTakes (coin : Option (Nat → Bool)) (st : Approx) (i : Nat) : Bool :=
  match coin with
  | some c => c i
  | none => !(st.incl.getD i false)

/-- one pass over the groups – mod.rs 441-472; `coin` is the random bit of the group with this index in the first pass, `none` stands for the second pass -/
def approxPass (pay : Bool) (target : Nat) (coin : Option (Nat → Bool)) : Approx → Nat → List (Group O) → Except SelErr Approx
  | st, _, [] => .ok st
  | st, i, g :: gs =>
    if approxTakes coin st i then do
      let v ← g.effective pay
      let st' ← approxAdd target st i v
      approxPass pay target coin st' (i + 1) gs
    else approxPass pay target coin st (i + 1) gs

/-- one of the 1000 attempts – mod.rs 434-478 -/
def approxTry (pay : Bool) (target : Nat) (gs : List (Group O)) (coin : Nat → Bool) (best : List Bool × Nat) : Except SelErr (List Bool × Nat) := do
  let st ← approxPass pay target (some coin) ⟨List.replicate gs.length false, 0, false, best.1, best.2⟩ 0 gs
  if st.reached then pure (st.best, st.bestTotal)
  else do
    let st' ← approxPass pay target none st 0 gs
    pure (st'.best, st'.bestTotal)

/-- the attempts -/
def approxTries (pay : Bool) (target : Nat) (gs : List (Group O)) (coins : Nat → Nat → Bool) : Nat → List Bool × Nat → Except SelErr (List Bool × Nat)
  | 0, best => .ok best
  | n + 1, best => do
    let b ← approxTry pay target gs (coins n) best
    approxTries pay target gs coins n b

/-- the number of attempts – mod.rs 434 -/
def approxRounds : Nat := 1000

/-- `approximate_best_subset` – mod.rs 420-479 -/
def approxBest (pay : Bool) (gs : List (Group O)) (totalLower target : Nat) (coins : Nat → Nat → Bool) : Except SelErr (List Bool × Nat) :=
  approxTries pay target gs coins approxRounds (List.replicate gs.length true, totalLower)

/-- the groups selected -/
def pick : List (Group O) → List Bool → List (Group O)
  | g :: gs, b :: bs => if b then g :: pick gs bs else pick gs bs
  | _, _ => []

/-- the effective values of groups -/
def effectives (pay : Bool) : List (Group O) → Except SelErr (List Nat)
  | [] => .ok []
  | g :: gs => do
    let v ← g.effective pay
    let vs ← effectives pay gs
    pure (v :: vs)

/-- the key for sorting; a failed `expect` cannot be seen here, but the values were computed before -/
def Group.key (pay : Bool) (g : Group O) : Nat := if pay then g.value - g.fee else g.value

/-- `sort_by_key(|g| Reverse(g.get_effective_value(pay_fees)))` – mod.rs 334, 533: a stable sort -/
def sortDesc (pay : Bool) (gs : List (Group O)) : List (Group O) := gs.insertionSort fun a b => b.key pay ≤ a.key pay

/-- the choice between the subset and the lowest group above the target – mod.rs 359-386 -/
def chooseSubset (pay : Bool) (r : Result O) (lower : List (Group O)) (larger : Option (Group O)) (best : List Bool × Nat) (target full max : Nat) : Except SelErr (Result O) :=
  let subset := fun (fallback : Except SelErr (Result O)) => do
    let r' ← r.addInputs pay (pick lower best.1)
    if r'.weight > max then fallback else pure r'
  match larger with
  | none => subset (.error .maxWeight)
  | some g => do
    let v ← g.effective pay
    if (best.2 ≠ target ∧ best.2 < full) ∨ v ≤ best.2 then r.addInput pay g else subset (r.addInput pay g)

/-- random bits for the two calls of `approximate_best_subset` -/
abbrev Coins := Bool → Nat → Nat → Bool

/-- the subsets for the target and, if needed, for the target with the change – mod.rs 338-357 -/
def twoSubsets (pay : Bool) (lower : List (Group O)) (total target full : Nat) (coins : Coins) : Except SelErr (List Bool × Nat) := do
  let b ← approxBest pay lower total target (coins false)
  if b.2 ≠ target ∧ total ≥ full then approxBest pay lower total full (coins true) else pure b

/-- `knapsack_solver_impl` after the first loop – mod.rs 313-388; a cleared result is a new one -/
def knapsackRest (pay : Bool) (st : Split O) (target full max : Nat) (coins : Coins) : Except SelErr (Result O) :=
  let r : Result O := { target := target }
  if st.total = target then r.addInputs pay st.lower
  else if st.total < target then
    match st.larger with
    | some g => r.addInput pay g
    | none => .error .noSolution
  else do
    let lower := sortDesc pay st.lower
    let best ← twoSubsets pay lower st.total target full coins
    chooseSubset pay r lower st.larger best target full max

/-- `knapsack_solver_impl` – mod.rs 272-389; `pool` is shuffled -/
def knapsackImpl (pay : Bool) (pool : List (Group O)) (target cost max : Nat) (coins : Coins) : Except SelErr (Result O) := do
  let full ← okOr (Amt.add target cost) .arithmetic
  match ← split pay target full {} pool with
  | .inl g => Result.addInput pay { target := target } g
  | .inr st => knapsackRest pay st target full max coins

/-- `knapsack_solver` – mod.rs 391-416 -/
def knapsack (pay : Bool) (pool : List (Group O)) (target cost max : Nat) (coins : Coins) : Except SelErr (Result O) := do
  let r ← knapsackImpl pay pool target cost max coins
  ensure (r.weight ≤ max) .maxWeight
  pure r

/-! ### branch and bound -/

/-- the state of the loop of `select_coins_bnb`; the selection is kept in reverse order; `waste` is not defined while the range of `i128` is exceeded, which ends the search -/
structure Bnb where
  value : Nat := 0
  sel : List Nat := []
  weight : Nat := 0
  avail : Nat
  waste : Int := 0
  best : List Nat := []
  bestWaste : Int := I128 - 1
  exceeded : Bool := false
  index : Nat := 0

/-- what stays the same in the loop: the sorted pool, the target, the target with the change, the greatest weight, whether the fee rate is high -/
structure BnbIn (O : Type) where
  pay : Bool
  pool : List (Group O)
  target : Nat
  cost : Nat
  max : Nat
  high : Bool

/-- the conditions for going back – mod.rs 546-581: the new state and whether to go back -/
def bnbCheck (c : BnbIn O) (st : Bnb) : Except SelErr (Bnb × Bool) := do
  let all ← okOr (Amt.add st.value st.avail) .panic
  if all < c.target then pure (st, true)
  else do
    let full ← okOr (Amt.add c.target c.cost) .arithmetic
    if st.value > full ∨ (st.waste > st.bestWaste ∧ c.high = true) then pure (st, true)
    else if st.weight > c.max then pure ({ st with exceeded := true }, true)
    else if st.value ≥ c.target then do
      let d ← okOr (Amt.sub st.value c.target) .panic
      let w ← okOr (do let x ← Amt.intoSigned d; SAmt.add st.waste x) .arithmetic
      pure (if w ≤ st.bestWaste then { st with best := st.sel, bestWaste := w } else st, true)
    else pure (st, false)

/-- going back – mod.rs 584-613; `none` when the search is complete -/
def bnbBack (c : BnbIn O) (st : Bnb) : Except SelErr (Option Bnb) :=
  match st.sel with
  | [] => .ok none
  | i :: sel => do
    let vs ← effectives c.pay ((c.pool.take st.index).drop (i + 1))
    let n ← okOr (Amt.sum vs) .panic
    let avail ← okOr (Amt.add st.avail n) .panic
    let g ← okOr c.pool[i]? .panic
    let v ← g.effective c.pay
    let value ← okOr (Amt.sub st.value v) .panic
    let waste ← okOr (do let d ← g.diff; SAmt.sub st.waste d) .arithmetic
    let weight ← okOr (Amt.sub st.weight g.weight) .panic
    pure (some { st with sel := sel, avail := avail, value := value, waste := waste, weight := weight, index := i + 1 })

/-- is the next group included? – mod.rs 622-634: not if the group before has the same value and fee and was left out -/
def bnbInclude (c : BnbIn O) (st : Bnb) (g : Group O) : Except SelErr Bool :=
  match st.sel with
  | [] => .ok true
  | i :: _ =>
    if st.index - 1 = i then .ok true
    else do
      let p ← okOr c.pool[st.index - 1]? .panic
      let v ← g.effective c.pay
      let w ← p.effective c.pay
      pure (decide (v ≠ w) || decide (g.fee ≠ p.fee))

/-- the next group is included – mod.rs 635-649 -/
def bnbTake (c : BnbIn O) (st : Bnb) (g : Group O) (v : Nat) : Except SelErr Bnb := do
  let value ← okOr (Amt.add st.value v) .panic
  let waste ← okOr (do let d ← g.diff; SAmt.add st.waste d) .arithmetic
  pure { st with sel := st.index :: st.sel, value := value, waste := waste, weight := st.weight + g.weight, index := st.index + 1 }

/-- going on – mod.rs 614-653 -/
def bnbForward (c : BnbIn O) (st : Bnb) : Except SelErr Bnb := do
  let g ← okOr c.pool[st.index]? .panic
  let v ← g.effective c.pay
  let avail ← okOr (Amt.sub st.avail v) .panic
  let inc ← bnbInclude c st g
  let st' := { st with avail := avail }
  if inc then bnbTake c st' g v else pure { st' with index := st.index + 1 }

/-- one round of the loop; `true` if the search goes on -/
def bnbStep (c : BnbIn O) (st : Bnb) : Except SelErr (Bnb × Bool) := do
  let (st1, back) ← bnbCheck c st
  if back then do
    match ← bnbBack c st1 with
      | none => pure (st1, false)
      | some st2 => pure (st2, true)
  else do
    let st2 ← bnbForward c st1
    pure (st2, true)

/-- the loop of `select_coins_bnb` – mod.rs 544-654 -/
def bnbLoop (c : BnbIn O) : Nat → Bnb → Except SelErr Bnb
  | 0, st => .ok st
  | n + 1, st => do
    let (st', go) ← bnbStep c st
    if go then bnbLoop c n st' else pure st'

/-- `TOTAL_TRIES` – mod.rs 28 -/
def totalTries : Nat := 100000

/-- the groups with these indices -/
def groupsAt (pool : List (Group O)) : List Nat → Except SelErr (List (Group O))
  | [] => .ok []
  | i :: l => do
    let g ← okOr pool[i]? .panic
    let gs ← groupsAt pool l
    pure (g :: gs)

/-- the end of `select_coins_bnb` – mod.rs 657-673 -/
def bnbResult (c : BnbIn O) (st : Bnb) : Except SelErr (Result O) :=
  if st.best.isEmpty then .error (if st.exceeded then .maxWeight else .noSolution)
  else do
    let gs ← groupsAt c.pool st.best.reverse
    let r ← Result.addInputs c.pay { target := c.target } gs
    let r ← r.finish c.pay c.cost
    ensure (st.bestWaste = r.waste) .panic
    pure r

/-- `select_coins_bnb` – mod.rs 507-674 -/
def selectBnb (pay : Bool) (pool : List (Group O)) (target cost max : Nat) : Except SelErr (Result O) := do
  let vs ← effectives pay pool
  let avail ← okOr (Amt.sum vs) .arithmetic
  if avail < target then .error (.notEnough avail target)
  else do
    let sorted := sortDesc pay pool
    let first ← okOr sorted[0]? .panic
    let c : BnbIn O := ⟨pay, sorted, target, cost, max, decide (first.fee > first.longFee)⟩
    let st ← bnbLoop c totalTries { avail := avail }
    bnbResult c st

/-! ### the choice -/

/-- what the random choices are made with -/
structure Rand (O : Type) where
  first : List (Group O) → List (Group O)
  second : List (Group O) → List (Group O)
  coins : Coins
  pop : Pop O

/-- `select_all_coins` – mod.rs 676-689 -/
def selectAll (pay : Bool) (pool : List (Group O)) (target cost : Nat) : Except SelErr (Result O) := do
  let r ← Result.addInputs pay { target := target } pool
  r.finish pay cost

/-- results and errors of the attempts; a panic is not a result -/
def attempt (acc : List (Result O) × List SelErr) (x : Except SelErr (Result O)) (finish : Result O → Except SelErr (Result O)) : Except SelErr (List (Result O) × List SelErr) :=
  match x with
  | .ok r => do
    let r ← finish r
    pure (acc.1 ++ [r], acc.2)
  | .error .panic => .error .panic
  | .error e => pure (acc.1, acc.2 ++ [e])

/-- `min_by_key(|res| res.waste)`: the first of the least -/
def minWaste : List (Result O) → Option (Result O)
  | [] => none
  | r :: rs =>
    match minWaste rs with
    | none => some r
    | some s => if s.waste < r.waste then some s else some r

/-- `select_random_coins` – mod.rs 737-804 -/
def selectRandom (rand : Rand O) (pay : Bool) (pool : List (Group O)) (target cost max : Nat) : Except SelErr (Result O) := do
  let acc ← attempt ([], []) (selectSrd pay rand.pop (rand.first pool) target cost max) (·.finish pay cost)
  let acc ← attempt acc (knapsack pay (rand.second pool) target cost max rand.coins) (·.finish pay cost)
  let acc ← attempt acc (selectBnb pay (rand.second pool) target cost max) pure
  match minWaste acc.1 with
  | some r => pure r
  | none => .error (acc.2.getLast?.getD .noSolution)

/-- `CoinSelectionAlgo` – mod.rs 692-697 -/
inductive Algo
  | preselected | randomize

/-- `select_coins` – mod.rs 699-735 -/
def selectCoins (rand : Rand O) (pool : List (Group O)) (target : Nat) (pay : Bool) (cost : Nat) (algo : Algo) (max : Nat) : Except SelErr (Result O) :=
  if target = 0 then .ok { target := target }
  else do
    ensure (pool ≠ []) .noUtxos
    let vs ← effectives pay pool
    let total ← okOr (Amt.sum vs) .arithmetic
    ensure (total ≥ target) (.notEnough total target)
    match algo with
    | .preselected => selectAll pay pool target cost
    | .randomize => selectRandom rand pay pool target cost max

end Verif.Select
