import Verif.Slots.Model

/-!
# What the search for timestamps should give
-/

namespace Verif.Slots
open Verif

/-- a pool is made once and removed once: its heights have no gap (`C89_lifetimes` derives it for the chains of the ledger) -/
def Lifetimes (c : Chain) : Prop :=
  ∀ p h₁ h₂ h₃, h₁ ≤ h₂ → h₂ ≤ h₃ → h₃ ≤ c.best → (c.bal h₁ p).isSome → (c.bal h₃ p).isSome → (c.bal h₂ p).isSome

/-- the target of a block of height `h`, whether it is in the chain or yet to be made -/
def targetAt (c : Chain) (h : Nat) : Except Err Nat := if h ≤ c.best then c.target h else c.next

/-- `t` is a time that is to be tried for a block of height `h`: later than the block before, and either at most the given
seconds after the first such time or, when all times between blocks are wanted, not after the block that took the height -/
def InWindow (c : Chain) (hi secs : Nat) (all : Bool) (h t : Nat) : Prop :=
  c.time (h - 1) < t ∧ if all = true ∧ h < hi then t ≤ c.time h else t ≤ c.time (h - 1) + 1 + secs

/-- a block of the pool at height `h` and time `t` would have been accepted: its hash, with the balances the pool had after the
block before, meets the target -/
def Wins (c : Chain) (decode : Nat → Except Err Nat) (hash : HashInput → Except Err Nat) (pool h t : Nat) : Prop :=
  ∃ b v compact target x s, c.bal (h - 1) pool = some b ∧ c.version h = .ok v ∧ targetAt c h = .ok compact ∧
    decode compact = .ok target ∧ hash (t, c.epoch h, c.rnd h) = .ok x ∧ c.supply = some s ∧
    Stake.checkHash v x target b.staker b.total s = .ok ()

end Verif.Slots
