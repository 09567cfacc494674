import Verif.Base.Amount

/-!
# Fee rates, the rolling minimum and fee estimation points

Model of `mempool/src/pool/feerate.rs`, of the parts of `mempool/src/pool/tx_pool/mod.rs` that decide
whether a fee is high enough, and of `mempool/src/pool/tx_pool/feerate_points.rs`.
A `FeeRate` is its number of atoms per 1000 bytes, a `Fee` its number of atoms, sizes are naturals
(`usize` on a 64 bit machine; the theorems that need the bound state it).
-/

namespace Verif.FeeRate

/-- `MempoolPolicyError`, the variants reached here – mempool/src/error/mod.rs -/
inductive Err where
  | feeOverflow
  | insufficientFeesToRelay
  | rollingFeeThresholdNotMet
deriving DecidableEq, Repr

/-- `FeeRate::from_total_tx_fee` – feerate.rs 42-50. The size is `NonZeroUsize`; size 0 would be the
`expect("tx_size nonzero")` and cannot be expressed in the code, here it yields rate 0. -/
def fromTotal (fee size : Nat) : Except Err Nat := do
  let scaled ← okOr (Amt.mul fee 1000) Err.feeOverflow
  pure (scaled / size)

/-- `FeeRate::compute_fee` – feerate.rs 52-60 -/
def computeFee (rate size : Nat) : Except Err Nat := do
  let fee ← okOr (Amt.mul rate size) Err.feeOverflow
  let up ← okOr (Amt.add fee 999) Err.feeOverflow
  pure (up / 1000)

/-- `impl Add for FeeRate` – feerate.rs 67-72 -/
def addRate (a b : Nat) : Option Nat := Amt.add a b

/-- `INCREMENTAL_RELAY_FEE_RATE` – mempool/src/config.rs 132-133 -/
def incrementalRelay : Nat := 1000
/-- `INCREMENTAL_RELAY_THRESHOLD` – config.rs 135-136 -/
def incrementalThreshold : Nat := 500
/-- `ROLLING_FEE_DECAY_INTERVAL` in seconds – config.rs 118 -/
def decayInterval : Nat := 10

/-- `RollingFeeRate` – rolling_fee_rate.rs 22-27. Times are whole seconds and never overflow. -/
structure Rolling where
  blockSince : Bool
  rate : Nat
  lastUpdate : Nat
deriving DecidableEq, Repr

/-- `RollingFeeRate::new` – rolling_fee_rate.rs 30-36 -/
def Rolling.new (t : Nat) : Rolling := ⟨false, 0, t⟩

/-- `update_min_fee_rate` – tx_pool/mod.rs 207-211 -/
def Rolling.update (s : Rolling) (rate : Nat) : Rolling := { s with rate := rate, blockSince := false }

/-- the effect of a new tip on the rolling rate – tx_pool/reorg.rs 135 -/
def Rolling.newBlock (s : Rolling) : Rolling := { s with blockSince := true }

/-- `RollingFeeRate::decay_fee` – rolling_fee_rate.rs 39-62. The new rate is computed with 64 bit floats;
here `decay` is an arbitrary function of the old rate and the elapsed seconds, so nothing is assumed
about the floats. -/
def Rolling.decayFee (s : Rolling) (decay : Nat → Nat → Nat) (now : Nat) : Rolling :=
  { s with rate := decay s.rate (now - s.lastUpdate), lastUpdate := now }

/-- `get_update_min_fee_rate` – tx_pool/mod.rs 213-246; `drop_rolling_fee` 248-252 is the zero rate.
Returns the rate and the new state. -/
def getUpdateMin (s : Rolling) (decay : Nat → Nat → Nat) (now : Nat) : Nat × Rolling :=
  if !s.blockSince || s.rate == 0 then (s.rate, s)
  else if now > s.lastUpdate + decayInterval then
    let s' := s.decayFee decay now
    if s'.rate < incrementalThreshold then (0, { s' with rate := 0 })
    else (max s'.rate incrementalRelay, s')
  else (max s.rate incrementalRelay, s)

/-- `pays_minimum_relay_fees` – tx_pool/mod.rs 353-366 -/
def paysRelay (minRelayRate fee size : Nat) : Except Err Unit := do
  let m ← computeFee minRelayRate size
  ensure (m ≤ fee) Err.insufficientFeesToRelay

/-- `pays_minimum_mempool_fee` – tx_pool/mod.rs 326-339 -/
def paysMempool (minRate fee size : Nat) : Except Err Unit := do
  let m ← computeFee minRate size
  ensure (m ≤ fee) Err.rollingFeeThresholdNotMet

/-- the fee part of `check_mempool_policy` – tx_pool/mod.rs 307-312. Returns the rolling state, which the
code keeps behind a lock and updates on the way. -/
def checkFees (minRelayRate : Nat) (s : Rolling) (decay : Nat → Nat → Nat) (now fee size : Nat) :
    Except Err Rolling := do
  paysRelay minRelayRate fee size
  paysMempool (getUpdateMin s decay now).1 fee size
  pure (getUpdateMin s decay now).2

/-- `limit_mempool_size` – tx_pool/mod.rs 615-628, given the rates returned by `trim` -/
def limitUpdate (removed : List Nat) (s : Rolling) : Except Err Rolling :=
  match removed with
  | [] => .ok s
  | r :: rs => do
    let m ← okOr (addRate (rs.foldl max r) incrementalRelay) Err.feeOverflow
    pure (if m > s.rate then s.update m else s)

/-! ## Estimation points -/

/-- `linear_interpolation` at `X = u64`, `Y = u128` – feerate_points.rs 27-49. The subtractions of `X`
happen only where they do not underflow. -/
def interp (p0 p1 : Nat × Nat) (x : Nat) : Option Nat :=
  if p0.1 = p1.1 then (if p0.1 = x then some p0.2 else none)
  else if x < p0.1 ∨ x > p1.1 then none
  else do
    let a ← Amt.mul p0.2 (p1.1 - x)
    let b ← Amt.mul p1.2 (x - p0.1)
    let s ← Amt.add a b
    pure (s / (p1.1 - p0.1))

/-- `find_interpolated_value` – feerate_points.rs 50-71. The map is its list of entries by ascending
key. -/
def findInterp (m : List (Nat × Nat)) (key : Nat) : Option Nat :=
  match m.find? (fun e => e.1 == key) with
  | some e => some e.2
  | none => do
    let l ← (m.filter (fun e => e.1 < key)).getLast?
    let r ← (m.filter (fun e => key ≤ e.1)).head?
    interp (l.1, l.2) (r.1, r.2) key

/-- `generate_equidistant_span` – feerate_points.rs 74-91. For `first ≤ last < 2^64` and `n < 2^64` the
products fit into `u128`. -/
def span (first last n : Nat) : List Nat :=
  if first = last ∨ n < 2 then [first]
  else first :: ((List.range (n - 2)).map (fun i => first + (last - first) * (i + 1) / (n - 1)) ++ [last])

/-- The running totals of `get_fee_rate_points_impl` – tx_pool/mod.rs 1045-1054: entries (score, size) in
the order visited, paired with the accumulated size. Since every size is positive the keys ascend
strictly, so collecting into a `BTreeMap` keeps this list. -/
def accumulate : Nat → List (Nat × Nat) → List (Nat × Nat)
  | _, [] => []
  | acc, (score, size) :: rest => (acc + size, score) :: accumulate (acc + size) rest

/-- `get_fee_rate_points_impl` – tx_pool/mod.rs 1028-1075. `txs` are the (descendant score, size) pairs of
the pool from the highest score down; `minRate` is the maximum of the rolling and the relay minimum. -/
def points (num minRate : Nat) (txs : List (Nat × Nat)) : Except Err (List (Nat × Nat)) :=
  let m := accumulate 0 (txs ++ [(minRate, 1)])
  let first := (m.head?.getD (0, 0)).1
  let last := (m.getLast?.getD (0, 0)).1
  let pts := span first last num
  if pts.length ≥ m.length then .ok (m.map (fun e => (e.1, max e.2 minRate)))
  else pts.mapM (fun p => do
    let v ← okOr (findInterp m p) Err.feeOverflow
    pure (p, max v minRate))

/-- `get_fee_rate_impl` – tx_pool/mod.rs 981-1001: the first transaction, from the highest score down, at
which the accumulated size reaches the given number of megabytes. -/
def rateAt (mb minRate : Nat) : Nat → List (Nat × Nat) → Nat
  | _, [] => minRate
  | acc, (score, size) :: rest =>
    if (acc + size) / 1000000 ≥ mb then max score minRate else rateAt mb minRate (acc + size) rest

end Verif.FeeRate
