import Verif.WalletSync.Model

/-! # What the synchronisation of the wallet must achieve (C71): vocabulary of the statements -/

namespace Verif.WalletSync

/-- The blocks form a tree: the branch of a block is the branch of its parent and the block itself. -/
structure TreeOk (E : Env) : Prop where
  root : E.path E.genesis = []
  step : ∀ b, b ≠ E.genesis → E.path b = E.path (E.prev b) ++ [b]

/-- The account belongs to the wallet, as one of those in use or as the unused one. -/
def Holds (w : Wallet) (a : Acc) : Prop := a ∈ w.accounts ∨ a = w.unused

/-- The blocks scanned are a branch of the tree: nothing skipped, nothing out of order, no mixture. -/
def Branch (E : Env) (l : List Nat) : Prop := ∃ b, l = E.path b

/-- `h` is the height of the last block which the two branches share. -/
def Fork (l m : List Nat) (h : Nat) : Prop :=
  h ≤ l.length ∧ h ≤ m.length ∧ l.take h = m.take h ∧
    ∀ k, k ≤ l.length → k ≤ m.length → l.take k = m.take k → k ≤ h

/-- `h` is the height from which an account at the end of branch `l` has to scan the chain of the node: that of the
last shared block, or 0 if the node does not know the account's last block. -/
def Resume (E : Env) (n : Node) (l : List Nat) (h : Nat) : Prop :=
  if n.known (l.getLast?.getD E.genesis) then Fork l (E.path n.tip) h else h = 0

/-- The node knows the blocks of its own main chain. -/
def NodeOk (E : Env) (n : Node) : Prop := n.known E.genesis = true ∧ ∀ b ∈ E.path n.tip, n.known b = true

/-- A node that does not change during the call. -/
def still (n : Node) : Nat → View := fun _ => ⟨n, fun _ => n, fun _ => n⟩

/-- What account number `k` ought to have recorded from the blocks `l`: each block that concerns it, with its height. -/
def expected (E : Env) (k : Nat) (l : List Nat) : List (Nat × Nat) :=
  (l.zipIdx 1).filter (fun p => E.rel k p.1)

/-- Every account has recorded what it ought to have, and there is nothing for the unused account. -/
structure Complete (E : Env) (w : Wallet) : Prop where
  used : ∀ (i : Nat) (a : Acc), w.accounts[i]? = some a → a.recs = expected E i a.seen
  unused : w.unused.recs = expected E w.accounts.length w.unused.seen
  none : ∀ b ∈ w.unused.seen, E.rel w.accounts.length b = false

/-- Account numbers are used in order along a branch: the next account gets something only when the one before has
got something (in the same block or earlier). -/
def Ordered (E : Env) (l : List Nat) : Prop :=
  ∀ (k i b : Nat), l[i]? = some b → E.rel (k + 1) b = true → ∃ (j b' : Nat), j ≤ i ∧ l[j]? = some b' ∧ E.rel k b' = true

/-- The result of calling `sync_once` again and again, `k` times after the first. -/
def again (E : Env) (views : Nat → View) (fuel : Nat) : Nat → Wallet → Wallet × Except Err InSync
  | 0, w => syncOnce E views fuel 0 w
  | k + 1, w => again E views fuel k (syncOnce E views fuel 0 w).1

end Verif.WalletSync
