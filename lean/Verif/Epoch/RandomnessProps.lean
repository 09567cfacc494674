import Verif.Epoch.RandomnessLemmas

/-!
# The randomness of epochs depends on the chain only (C61)
-/

set_option maxRecDepth 100000

namespace Verif.Epoch.Rnd
open Verif
open Verif.Stake (Net sealedEpoch randomnessFor producerRandomness)

variable {B : Type} {w : World B} {g : B} {c : List B} {s : Store}

/-- **C61 (epochs).**  With a seal distance of one or more: after any history, the randomness stored for each finished epoch is that of the current chain, and nothing is
stored for an epoch that has not begun. -/
theorem C61_epochs (hL : 0 < w.net.epochLength) (hd : 1 ≤ w.net.sealDistance) (h : Reach w g c s) (e : Nat) :
    (lastOf w.net e < c.length → s.get e = rnd w c e) ∧ (c.length ≤ e * w.net.epochLength → s.get e = none) :=
  ⟨(reach_good hL hd h).done e, (reach_good hL hd h).future e⟩

/-- the equation that fixes the randomness of the epochs of a chain -/
theorem C61_equation (hd : 1 ≤ w.net.sealDistance) (c : List B) (e : Nat) :
    rnd w c e =
      if w.posAt (lastOf w.net e) = true ∧ lastOf w.net e ≠ 0 then
        w.fresh (c.take (lastOf w.net e + 1))
          (if w.net.sealDistance ≤ e then (rnd w c (e - w.net.sealDistance)).getD w.net.initialRandomness else w.net.initialRandomness)
      else none := rnd_eq hd c e

/-- **C61 (next block).**  The randomness that the next block is checked against, and the one the block producer uses, is the one the chain determines. -/
theorem C61_given (hL : 0 < w.net.epochLength) (hd : 1 ≤ w.net.sealDistance) (h : Reach w g c s) (v : Stake.View) (hv : v.epochs = s.get) :
    randomnessFor w.net v c.length = given w c c.length ∧ producerRandomness w.net v c.length = given w c c.length := by
  have hs := seed_eq hL hd (reach_good hL hd h)
  have h2 : producerRandomness w.net v c.length = seed w s.get c.length := by unfold producerRandomness seed; rw [hv]
  refine ⟨?_, h2.trans hs⟩
  rw [← hs]
  unfold randomnessFor seed
  cases sealedEpoch w.net c.length with
  | none => rfl
  | some e =>
    simp only [Option.map_some, Option.join_some, hv]
    cases s.get e <;> rfl

/-- **C61 (agreement).**  Two nodes on the same chain have the same randomness for every finished epoch and for the next block, however they got there. -/
theorem C61_agree (hL : 0 < w.net.epochLength) (hd : 1 ≤ w.net.sealDistance) {s' : Store} (h : Reach w g c s) (h' : Reach w g c s') :
    (∀ e, lastOf w.net e < c.length → s.get e = s'.get e) ∧ seed w s.get c.length = seed w s'.get c.length :=
  ⟨fun e he => ((reach_good hL hd h).done e he).trans ((reach_good hL hd h').done e he).symm,
   (seed_eq hL hd (reach_good hL hd h)).trans (seed_eq hL hd (reach_good hL hd h')).symm⟩

/-- **C61 (connecting).**  Whether the randomness lets a block be connected depends on the chain only: it does unless the block is the last of its epoch, has proof of stake,
and its own randomness cannot be computed from the one it is given. -/
theorem C61_connect (hL : 0 < w.net.epochLength) (hd : 1 ≤ w.net.sealDistance) (h : Reach w g c s) (b : B) :
    (∃ s', connect w s c b = some s') ↔
      ((∃ e, c.length = lastOf w.net e) → w.isPos b = true → (w.fresh (c ++ [b]) (given w c c.length)).isSome = true) := by
  have hlast : (∃ e, c.length = lastOf w.net e) ↔ Stake.lastInEpoch w.net c.length = true :=
    ⟨fun ⟨e, he⟩ => (lastInEpoch_iff hL _).2 (by rw [he, epochOf_lastOf hL]), fun hl => ⟨_, (lastInEpoch_iff hL _).1 hl⟩⟩
  rw [hlast]
  exact connect_iff hL hd h b

/-- **C61 (branches).**  A header that is not on top of the current chain is checked against the randomness its own chain determines: what the reorganisation in memory finds
for it is what a node has that is on that chain. -/
theorem C61_branch (hL : 0 < w.net.epochLength) (hd : 1 ≤ w.net.sealDistance) {common old new : List B} (hc : common ≠ []) (h : Reach w g (common ++ old) s)
    (hf : Fits w common.length new) {k : Cache} (hk : reorganize w s common old new = some k) :
    (∀ e, lastOf w.net e < (common ++ new).length → k.get e = rnd w (common ++ new) e) ∧
    seed w k.get (common ++ new).length = given w (common ++ new) (common ++ new).length := by
  have h1 := good_downMany hL (k := Cache.new s) old hc (reach_good hL hd h)
  have h2 := good_upMany hL hd new h1 hf hk
  exact ⟨h2.done, seed_eq hL hd h2⟩

/-- **C61 (branches).**  The reorganisation in memory succeeds exactly if a node can connect the blocks of the branch. -/
theorem C61_branch_connect (hL : 0 < w.net.epochLength) (hd : 1 ≤ w.net.sealDistance) {common old new : List B} (hc : common ≠ []) (h : Reach w g (common ++ old) s)
    (hf : Fits w common.length new) : (∃ k, reorganize w s common old new = some k) ↔ ∃ s', Reach w g (common ++ new) s' := by
  obtain ⟨s1, hs1⟩ := reach_back old hc h
  exact upMany_iff hL hd new (good_downMany hL (k := Cache.new s) old hc (reach_good hL hd h)) hs1 hf

/-! ### a seal distance of zero -/

/-- epochs of two blocks; every block adds its number to the randomness it is given -/
def exWorld (d : Nat) : World Nat where
  net :=
    { t := { tree := ⟨0, 1000, fun _ => ⟨0, 0, 0, 0⟩⟩, upgrades := [(0, .pos none ⟨10, 5, 100⟩)], cons := fun _ => .none, hash := fun _ => 0, spacing := 120,
             pow := ⟨false, false, 0⟩ }
      version := fun _ => .v1
      epochLength := 2
      sealDistance := d
      initialRandomness := 1000
      supply := some 1000000
      mismatchForbidden := fun _ => true
      maxFutureOffset := fun _ => 10 }
  posAt := fun _ => true
  isPos := fun _ => true
  fresh := fun c r => c.getLast?.map (· + r)

/-- connecting the blocks of a list -/
def exUp (w : World Nat) (x : List Nat × Store) (l : List Nat) : Option (List Nat × Store) :=
  l.foldlM (fun x b => (connect w x.2 x.1 b).map fun s => (x.1 ++ [b], s)) x
/-- disconnecting the last block -/
def exDown (w : World Nat) (x : List Nat × Store) : List Nat × Store := (x.1.dropLast, disconnect w x.2 x.1.dropLast)

theorem exUp_reach {w : World Nat} (hp : ∀ b h, w.isPos b = w.posAt h) {g : Nat} {x y : List Nat × Store} (l : List Nat) (h : Reach w g x.1 x.2)
    (hu : exUp w x l = some y) : Reach w g y.1 y.2 := by
  induction l generalizing x with
  | nil => cases hu; exact h
  | cons b l ih =>
    unfold exUp at hu
    rw [List.foldlM_cons, Option.bind_eq_bind, Option.bind_eq_some_iff] at hu
    obtain ⟨m, hm, hu⟩ := hu
    rw [Option.map_eq_some_iff] at hm
    obtain ⟨s, hs, rfl⟩ := hm
    exact ih (.connect h (hp _ _) hs) hu

/-- **C61 (finding).**  With a seal distance of zero it is not so: the last block of an epoch is then given the randomness of its own epoch, which may be left from a block
disconnected.  A node that disconnects the last block of an epoch and connects it again computes other randomness for the epoch than a node that connects it once. -/
theorem C61_distance_finding : ∃ (s s' : Store), Reach (exWorld 0) 1 [1, 2] s ∧ Reach (exWorld 0) 1 [1, 2] s' ∧
    s.get 0 = some 1002 ∧ s'.get 0 = some 1004 ∧ seed (exWorld 0) s.get 2 ≠ seed (exWorld 0) s'.get 2 := by
  refine ⟨(BMap.empty : Store).insert 0 1002, ((BMap.empty : Store).insert 0 1002).insert 0 1004, ?_, ?_, by decide +kernel, by decide +kernel, by decide +kernel⟩
  · exact Reach.connect (c := [1]) (b := 2) .genesis rfl (by decide +kernel)
  · have h1 : Reach (exWorld 0) 1 ([1] ++ [2]) ((BMap.empty : Store).insert 0 1002) := Reach.connect .genesis rfl (by decide +kernel)
    have h2 := Reach.disconnect h1 (by simp)
    exact Reach.connect (c := [1]) (b := 2) h2 rfl (by decide +kernel)

/-! ### examples -/

/-- five blocks on top of the genesis 1: epoch 0 is [1, 2], epoch 1 is [3, 4], epoch 2 is [5, 6].  The epoch 1 builds on the epoch 0, the epoch 2 on the epoch 1. -/
example : (exUp (exWorld 1) ([1], BMap.empty) [2, 3, 4, 5, 6]).map (fun x => (x.2.get 0, x.2.get 1, x.2.get 2, seed (exWorld 1) x.2.get 6)) =
    some (some 1002, some 1006, some 1012, 1006) := by decide +kernel
/-- the specification says so -/
example : (rnd (exWorld 1) [1, 2, 3, 4, 5, 6] 0, rnd (exWorld 1) [1, 2, 3, 4, 5, 6] 1, rnd (exWorld 1) [1, 2, 3, 4, 5, 6] 2, given (exWorld 1) [1, 2, 3, 4, 5, 6] 6) =
    (some 1002, some 1006, some 1012, 1006) := by decide +kernel
/-- after the last block of the epoch 2 is disconnected its randomness is still stored, but the next block is not given it -/
example : ((exUp (exWorld 1) ([1], BMap.empty) [2, 3, 4, 5, 6]).map (exDown (exWorld 1))).map (fun x => (x.2.get 2, seed (exWorld 1) x.2.get 5)) =
    some (some 1012, 1006) := by decide +kernel
/-- a reorganisation in memory: to the chain [1, 2, 3, 7, 8, 9] -/
example : ((exUp (exWorld 1) ([1], BMap.empty) [2, 3, 4, 5, 6]).bind (fun x => reorganize (exWorld 1) x.2 [1, 2, 3] [4, 5, 6] [7, 8, 9])).map
    (fun k => (k.get 1, k.get 2, seed (exWorld 1) k.get 6)) = some (some 1009, some 1018, 1009) := by decide +kernel
example : (rnd (exWorld 1) [1, 2, 3, 7, 8, 9] 1, rnd (exWorld 1) [1, 2, 3, 7, 8, 9] 2) = (some 1009, some 1018) := by decide +kernel
example {l : List Nat} {y : List Nat × Store} (h : exUp (exWorld 1) ([1], BMap.empty) l = some y) : Reach (exWorld 1) 1 y.1 y.2 :=
  exUp_reach (fun _ _ => rfl) l .genesis h
example : 0 < (exWorld 1).net.epochLength ∧ 1 ≤ (exWorld 1).net.sealDistance ∧ Fits (exWorld 1) 3 [7, 8, 9] := ⟨by decide, by decide, fun _ _ _ => rfl⟩

end Verif.Epoch.Rnd
