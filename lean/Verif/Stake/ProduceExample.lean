import Verif.Stake.ProduceProps

/-!
# C59: a small network
-/

set_option maxRecDepth 100000

namespace Verif.Stake
open Verif

deriving instance DecidableEq for Except

/-- keys are their own public keys; a proof is the key and the time -/
def exCrypto : Crypto where
  pub := fun sk => sk + 1
  sign := fun sk _ _ => sk
  verify := fun pk sig _ => sig + 1 == pk
  vrfPub := fun sk => sk
  prove := fun sk slot _ => slot.time * 100 + sk
  output := fun key slot vrf => if vrf = slot.time * 100 + key then some ((slot.time * slot.time * 7919 + key * 50021 + slot.randomness) % 100000) else none

theorem exLawful : Lawful exCrypto := by
  refine ⟨?_, ?_, ?_⟩
  · intro sk h r; simp [exCrypto]
  · intro sk slot r; simp [exCrypto]
  · intro sk slot r vrf x h
    simp only [exCrypto] at h ⊢
    split at h
    · simpa using h
    · simp at h

/-- genesis at time 1000, proof of stake from height 0, a thousandth of the supply is 1000 -/
def exNet : Net where
  t := { tree := ⟨0, 1000, fun _ => ⟨0, 0, 0, 0⟩⟩, upgrades := [(0, .pos none ⟨10, 5, 100⟩)], cons := fun _ => .none, hash := fun _ => 0, spacing := 120,
         pow := ⟨false, false, 0⟩ }
  version := fun _ => .v1
  epochLength := 5
  sealDistance := 2
  initialRandomness := 77
  supply := some 1000000
  mismatchForbidden := fun _ => true
  maxFutureOffset := fun _ => 10

/-- two pools with the same staker: 7 with the key 3 of the random function and 8 with the key 4 -/
def exView : View where
  store := ⟨[], by simp⟩
  tip := 0
  epochs := fun _ => none
  pools := fun p => if p = 7 then some ⟨400, 10, 3⟩ else if p = 8 then some ⟨400, 0, 4⟩ else none
  balances := fun p => if p = 7 then some 600 else if p = 8 then some 700 else none
  utxo := fun op => if op = 1 then some (.createStakePool 7 (.publicKey 6)) else if op = 2 then some (.produceBlock (.publicKey 6) 8) else none

def exIn7 : Input := ⟨5, 3, 7, [.utxo 1]⟩
def exIn8 : Input := ⟨5, 4, 8, [.utxo 2]⟩

def exRun (i : Input) (last : Option Nat) (now : Nat) : Outcome := produce exNet exCrypto exView i last 0 now 0 0 0 0 (fun _ => 0)

/-- the error of a result -/
def exError (o : Outcome) : Option PErr := match o.result with | .ok _ => none | .error e => some e
/-- is the header found accepted? -/
def exAccepted (o : Outcome) : Option Bool := o.result.toOption.map fun s => (validate exNet exCrypto exView s).isOk

theorem exIndexed : Indexed exView := by intro id b h; simp [exView, BMap.get, BMap.lookupL] at h

theorem exAmounts : Amounts exView := by
  intro p b h
  simp only [exView] at h
  split at h
  · simp at h; omega
  · split at h
    · simp at h; omega
    · simp at h

theorem exOwns7 : Owns exCrypto exView exIn7 :=
  ⟨⟨1, _, rfl, rfl, .inl rfl⟩, ⟨_, rfl, rfl⟩⟩

theorem exOwns8 : Owns exCrypto exView exIn8 :=
  ⟨⟨2, _, rfl, rfl, .inr rfl⟩, ⟨_, rfl, rfl⟩⟩

/-- pool 7 finds a block at 1007 and, continuing from there, at 1015; both are accepted; with the clock at 1003 the later one is out of reach -/
example : (exRun exIn7 none 1020).used = some 1007 ∧ exAccepted (exRun exIn7 none 1020) = some true ∧
    (exRun exIn7 (some 1007) 1020).used = some 1015 ∧ exAccepted (exRun exIn7 (some 1007) 1020) = some true ∧
    exError (exRun exIn7 (some 1007) 1003) = some .stakingFailed ∧ (exRun exIn7 (some 1007) 1003).used = some 1013 := by decide +kernel

/-- `C59_cover` for two calls of pool 8, at 1010 and at 1020: nothing up to 1030 wins -/
example : ∀ t, t ≤ 1030 → Loses exNet exCrypto exView 8 t :=
  C59_cover (n := exNet) (c := exCrypto) (v := exView) (i := exIn8) (tip := .genesis) (aux := 0) (vrf := 0) (witness := 0) exLawful exIndexed exAmounts exOwns8 rfl
    [(1010, 0, fun _ => 0), (1020, 0, fun _ => 0)]
    (by
      have h : ((outcomes exNet exCrypto exView exIn8 0 0 0 none [(1010, 0, fun _ => 0), (1020, 0, fun _ => 0)]).all fun o => o.result == .error .stakingFailed) = true := by
        decide +kernel
      intro x hx
      exact eq_of_beq (List.all_eq_true.1 h x hx))
    (by decide +kernel)

/-- a search goes on while the tip stays, a second one for its key is refused, and a new tip ends it -/
example : (runJobs ⟨[], []⟩ [.add 5 0, .add 5 9, .add 6 9, .newTip 0]).jobs.lookup 5 = some 0 ∧ (runJobs ⟨[], []⟩ [.add 5 0, .add 6 9, .newTip 0]).jobs.lookup 6 = none ∧
    answer (runJobs ⟨[], []⟩ [.add 5 0]) 5 = .exists := by decide +kernel

/-! ### two findings -/

/-- **One key for two pools.**  The timestamp used last is remembered by the key of the staker, not by the pool.  With one key for the pools 7 and 8, a call for 8 that fails makes
the call for 7 that follows skip its winning slot 1007: it is told to try again later. -/
theorem shared_key_starves : (exRun exIn8 none 1020).used = some 1030 ∧ exError (exRun exIn7 (some 1030) 1020) = some .tryAgainLater ∧
    exAccepted (exRun exIn7 none 1020) = some true := by decide +kernel

/-- **A tip that changes late.**  If the tip changes after the search of a job ended but before its timestamp is remembered, the timestamp is
remembered for the new tip: the next call for it begins after slots that were never examined for this tip. -/
theorem stale_after_new_tip : answer (runJobs ⟨[], []⟩ [.add 5 0, .newTip 9, .used 5 1030]) 5 = .started (some 1030) ∧
    answer (runJobs ⟨[], []⟩ [.add 5 0, .used 5 1030, .newTip 9]) 5 = .started none := by decide +kernel

end Verif.Stake
