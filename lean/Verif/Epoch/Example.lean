import Verif.Epoch.Props

/-!
# A history with a reorganisation across sealed epochs (C60)
-/

set_option maxRecDepth 100000

namespace Verif.Epoch
open Verif Verif.Pos Verif.Accounting
open Verif.Stake (Net)

/-- what happens to a node: a block with some changes, or the undos of the last block -/
inductive Move
  | up (l : List Change)
  | down (l : List Change)

/-- the changes of a block; none if there is nothing to do -/
def changes (db : DB) (l : List Change) : Option (Option Delta) :=
  if l.isEmpty then some none else (l.foldlM change (Cache.new db.view)).toOption.map fun k => some k.delta

theorem changes_clean {db : DB} {l : List Change} {d : Option Delta} (h : changes db l = some d) : CleanOpt d := by
  unfold changes at h
  split at h
  · cases h
    intro x hx; cases hx
  · cases hk : l.foldlM change (Cache.new db.view) with
    | error e => rw [hk] at h; cases h
    | ok k =>
      rw [hk] at h
      cases h
      intro x hx
      cases hx
      exact C60_clean l hk

def go (n : Net) (s : List DB × Store) : Move → Option (List DB × Store)
  | .up l => do
    let d ← changes s.2.tip l
    let st ← (connect n s.2 s.1.length d).toOption
    pure (s.1 ++ [st.tip], st)
  | .down l => do
    let d ← changes s.2.tip l
    let st ← (disconnect n s.2 s.1.dropLast.length d).toOption
    if s.1 ≠ [] ∧ s.1.dropLast.getLast? = some st.tip then pure (s.1.dropLast, st) else none

theorem toOption_some {E A : Type} {x : Except E A} {a : A} (h : x.toOption = some a) : x = .ok a := by
  cases x with
  | error e => cases h
  | ok b => cases h; rfl

theorem go_reach {n : Net} {g : DB} {s s' : List DB × Store} {m : Move} (h : Reach n g s.1 s.2) (hs : go n s m = some s') : Reach n g s'.1 s'.2 := by
  cases m with
  | up l =>
    simp only [go, Option.bind_eq_bind, Option.bind_eq_some_iff, Option.pure_def, Option.some.injEq] at hs
    obtain ⟨d, hd, st, hst, rfl⟩ := hs
    exact .connect h (changes_clean hd) (toOption_some hst)
  | down l =>
    simp only [go, Option.bind_eq_bind, Option.bind_eq_some_iff, Option.pure_def] at hs
    obtain ⟨d, hd, st, hst, hs⟩ := hs
    split at hs
    · rename_i hc
      cases hs
      exact .disconnect (t := s.1.getLast hc.1) (by rw [List.dropLast_append_getLast hc.1]; exact h) (changes_clean hd) (toOption_some hst) hc.2
    · cases hs

theorem run_reach {n : Net} {g : DB} (l : List Move) {s s' : List DB × Store} (h : Reach n g s.1 s.2) (hs : l.foldlM (go n) s = some s') : Reach n g s'.1 s'.2 := by
  induction l generalizing s with
  | nil => cases hs; exact h
  | cons m l ih =>
    rw [List.foldlM_cons, Option.bind_eq_bind, Option.bind_eq_some_iff] at hs
    obtain ⟨x, hx, hs⟩ := hs
    exact ih (go_reach h hx) hs

/-- epochs of two blocks, sealed one epoch later -/
def exNet : Net where
  t := { tree := ⟨0, 1000, fun _ => ⟨0, 0, 0, 0⟩⟩, upgrades := [(0, .pos none ⟨10, 5, 100⟩)], cons := fun _ => .none, hash := fun _ => 0, spacing := 120,
         pow := ⟨false, false, 0⟩ }
  version := fun _ => .v1
  epochLength := 2
  sealDistance := 1
  initialRandomness := 77
  supply := some 1000000
  mismatchForbidden := fun _ => true
  maxFutureOffset := fun _ => 10

/-- the genesis has the pool 1 with 1000 coins -/
def exGenesis : DB where
  poolData := BMap.empty.insert 1 ⟨0, 1000, 0, 0, 0, 0⟩
  poolBalances := BMap.empty.insert 1 1000
  shares := BMap.empty
  delegationBalances := BMap.empty
  delegationData := BMap.empty

def exStart : List DB × Store := ([exGenesis], ⟨exGenesis, exGenesis, BMap.empty, BMap.empty⟩)

/-- heights 1 to 3 end the epoch 1 and seal the epoch 0; one block of it is then replaced: three blocks are disconnected and four others connected -/
def exForth : List Move :=
  [.up [.perform (.createDelegationId 1 5 9)], .up [.perform (.delegateStaking 5 40), .perform (.delegateStaking 5 2)], .up [.perform (.spendShare 5 42)]]
def exBack : List Move :=
  [.down [.revert (.spendFromShare 5 42)], .down [.revert (.delegateStaking 5 2), .revert (.delegateStaking 5 40)],
   .down [.revert (.createDelegationId 5 ⟨some ⟨9, 1⟩, none⟩)]]
def exOther : List Move := [.up [.perform (.increaseStakerRewards 1 10)], .up [], .up [.perform (.createDelegationId 1 6 9)], .up []]

def exResult (l : List Move) : Option (List DB × Store) := l.foldlM (go exNet) exStart

theorem exSound : Sound exGenesis := by
  constructor <;> intro k <;> simp only [exGenesis, bal, BMap.get_empty]
  · by_cases hk : k = 1
    · subst hk; decide
    · rw [BMap.get_insert_ne _ _ hk, BMap.get_empty]; decide
  · decide
  · decide
  · by_cases hk : k = 1
    · subst hk; decide
    · rw [BMap.get_insert_ne _ _ hk, BMap.get_empty]; decide
  · decide
  · decide

/-- the epoch 0 is sealed with height 3: the delegation exists, but nothing has been delegated yet -/
example : (exResult exForth).map (fun r => (r.1.length, decide (r.1[1]? = some r.2.sealed), r.2.sealed.delegationData.get 5, bal r.2.sealed.poolBalances 1)) =
    some (4, true, some ⟨9, 1⟩, 1000) := by decide +kernel
/-- at height 2 the balance of the tip contains the delegation, but nothing is sealed -/
example : (exResult (exForth.take 2)).map (fun r => (decide (r.2.sealed = exGenesis), bal r.2.tip.poolBalances 1)) = some (true, 1042) := by decide +kernel
/-- going back, the sealed state is that of the genesis again -/
example : (exResult (exForth ++ exBack)).map (fun r => (r.1, r.2.sealed)) = some ([exGenesis], exGenesis) := by decide +kernel
/-- other blocks are connected: the epoch 0 now has the rewards and not the delegation.  Height 4 is not the end of an epoch. -/
example : (exResult (exForth ++ exBack ++ exOther)).map (fun r => (r.1.length, decide (r.1[1]? = some r.2.sealed), r.2.sealed.delegationData.get 5,
    bal r.2.sealed.poolBalances 1)) = some (5, true, none, 1010) := by decide +kernel
/-- it is what the node has that never saw the first blocks -/
example : (exResult (exForth ++ exBack ++ exOther)).map (fun r => (r.1, r.2.sealed)) = (exResult exOther).map (fun r => (r.1, r.2.sealed)) := by decide +kernel

/-- all of them are reached in the sense of the theorems -/
example {l : List Move} {r : List DB × Store} (h : exResult l = some r) : Reach exNet exGenesis r.1 r.2 := run_reach l .genesis h

end Verif.Epoch
