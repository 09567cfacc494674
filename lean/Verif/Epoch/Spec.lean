import Verif.Epoch.Model

/-!
# Specification of the sealed staking state

A chain is described by the staking states after its blocks, the genesis first.  Nothing here mentions how the deltas of the epochs are kept.
-/

namespace Verif.Epoch
open Verif Verif.Pos Verif.Accounting
open Verif.Stake (Net)

/-- a staking state that can be stored: balances are positive and below 2^127 -/
structure Sound (db : DB) : Prop where
  pos : ∀ k, db.poolBalances.get k ≠ some 0
  sharePos : ∀ k, db.shares.get k ≠ some 0
  delPos : ∀ k, db.delegationBalances.get k ≠ some 0
  lt : ∀ k, bal db.poolBalances k < 2 ^ 127
  shareLt : ∀ k, bal db.shares k < 2 ^ 127
  delLt : ∀ k, bal db.delegationBalances k < 2 ^ 127

/-- the changes of a block list no balance that they leave alone.  All changes made by operations and their undos are so, `C60_clean`. -/
structure Clean (d : Delta) : Prop where
  pool : ∀ k, d.poolBalances.get k ≠ some 0
  share : ∀ k, d.shares.get k ≠ some 0
  del : ∀ k, d.delegationBalances.get k ≠ some 0

/-- no changes, or clean ones -/
def CleanOpt (d : Option Delta) : Prop := ∀ x, d = some x → Clean x

/-- `chain` is a chain a node can be on, `st` what it then has stored: beginning with the genesis, blocks are connected and disconnected in any order.  Disconnecting a
block brings back the staking state before it (C04, C45). -/
inductive Reach (n : Net) (g : DB) : List DB → Store → Prop
  | genesis : Reach n g [g] ⟨g, g, BMap.empty, BMap.empty⟩
  | connect {chain st st' d} : Reach n g chain st → CleanOpt d → connect n st chain.length d = .ok st' → Reach n g (chain ++ [st'.tip]) st'
  | disconnect {chain t st st' d} : Reach n g (chain ++ [t]) st → CleanOpt d → disconnect n st chain.length d = .ok st' → chain.getLast? = some st'.tip →
    Reach n g chain st'

/-- the epoch `e` is over at height `h` -/
def Ended (n : Net) (e h : Nat) : Prop := (e + 1) * n.epochLength ≤ h + 1

/-- the height of the last block of an epoch -/
def lastOf (n : Net) (e : Nat) : Nat := (e + 1) * n.epochLength - 1

end Verif.Epoch
