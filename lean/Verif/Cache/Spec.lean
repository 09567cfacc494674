import Verif.Cache.Model

/-!
# What the view of a wallet is compared with

The best chain as the node has it, and the histories of a wallet.
-/

namespace Verif.Cache
open Verif

/-- a transaction is in a block -/
def St.IsConfirmed : St → Prop
  | .confirmed _ _ _ => True
  | _ => False

/-- a transaction is in a block, in the mempool or waiting: neither abandoned nor in conflict with the chain -/
def St.IsLive : St → Prop
  | .abandoned => False
  | .conflicted _ => False
  | _ => True

/-- a transaction waits for a block -/
def St.IsPending : St → Prop
  | .inMempool _ => True
  | .inactive _ => True
  | _ => False

/-- a transaction was given up or lost against the chain -/
def St.IsDead (s : St) : Prop := ¬ s.IsLive

instance (s : St) : Decidable s.IsConfirmed := by cases s <;> unfold St.IsConfirmed <;> infer_instance
instance (s : St) : Decidable s.IsLive := by cases s <;> unfold St.IsLive <;> infer_instance
instance (s : St) : Decidable s.IsPending := by cases s <;> unfold St.IsPending <;> infer_instance
instance (s : St) : Decidable s.IsDead := by unfold St.IsDead; infer_instance

/-- the transaction spends the output -/
def WTx.Spends (t : WTx) (o : OutPoint) : Prop := Inp.utxo o ∈ t.inputs

instance (t : WTx) (o : OutPoint) : Decidable (t.Spends o) := by unfold WTx.Spends; infer_instance

/-- the transaction creates the output -/
def WTx.Creates (t : WTx) (x : OutPoint × Out) : Prop := (ofLex x.1).1 = t.id ∧ t.outputs[(ofLex x.1).2]? = some x.2

/-- the best chain, as the list of its transactions and block rewards, is valid as far as it matters here: no id occurs twice, no output is spent twice, and none is spent before it is there -/
structure ValidChain (chain : List WTx) : Prop where
  confirmed : ∀ t ∈ chain, t.state.IsConfirmed
  order : chain.Pairwise fun a b => a.id ≠ b.id ∧ (∀ o, a.Spends o → ¬ b.Spends o) ∧ ∀ o, a.Spends o → (ofLex o).1 ≠ b.id

/-- the output is unspent on the chain -/
def Unspent (chain : List WTx) (o : OutPoint) : Prop := ∀ t ∈ chain, ¬ t.Spends o

/-- the wallet knows the transaction -/
def Cache.Knows (c : Cache) (t : WTx) : Prop := c.txs.get t.id = some t

/-- no other transaction the wallet knows to be in a block spends an output that this one spends -/
def Undisputed (c : Cache) (t : WTx) : Prop :=
  ∀ e, c.Knows e → e.state.IsConfirmed → e.id ≠ t.id → ∀ o, t.Spends o → ¬ e.Spends o

/-- no output is spent by two transactions the wallet knows -/
def NoDoubleSpend (c : Cache) : Prop :=
  ∀ a b, c.Knows a → c.Knows b → a.id ≠ b.id → ∀ o, a.Spends o → ¬ b.Spends o

/-- the id of a transaction is a hash of its contents -/
def SameContents (c : Cache) (t : WTx) : Prop := ∀ e, c.Knows e → e.id = t.id → e.inputs = t.inputs ∧ e.outputs = t.outputs

/-- from one cache to the next, the transactions that get marked as abandoned or conflicted are undisputed -/
def MarksUndisputed (c c' : Cache) : Prop :=
  ∀ e e', c.Knows e → c'.Knows e' → e.id = e'.id → e.state.IsLive → e'.state.IsDead → Undisputed c e

/-- the height of a confirmed transaction -/
def WTx.heightLe (t : WTx) (h : Nat) : Bool :=
  match t.state with
  | .confirmed k _ _ => decide (k ≤ h)
  | _ => true

/-- the stored transactions, in some order -/
def Stored (c : Cache) (l : List WTx) : Prop := l.Nodup ∧ ∀ t, t ∈ l ↔ c.Knows t

/-- the histories of a wallet account: the best chain it has been told of and its cache.  All of it can happen at any time: a block is scanned, transaction by transaction; the chain is cut back for a
reorganisation; transactions of the mempool or of the user come in; the wallet is disconnected from the node; the user abandons a transaction; the wallet is closed and opened again, the stored
transactions being taken in any order.

`G` is a condition on all the caches on the way.  The conditions about disputed outputs are the limits within which the code works: it never checks whether two transactions spend the same
output. -/
inductive Run (cfg : Cfg) (G : Cache → Prop) : List WTx → Cache → Prop
  | start : Run cfg G [] {}
  | connect {chain c c'} (best block : Nat) (t : WTx) : Run cfg G chain c → ValidChain (chain ++ [t]) → SameContents c t →
      connect cfg best c t block = .ok c' → MarksUndisputed c c' → G c' → Run cfg G (chain ++ [t]) c'
  | cut {chain c c'} (h : Nat) : Run cfg G chain c → resetTo cfg c h = .ok c' → G c' → Run cfg G (chain.filter fun t => t.heightLe h) c'
  | unconfirmed {chain c c'} (best : Nat) (t : WTx) : Run cfg G chain c → t.state.IsPending → SameContents c t → Undisputed c t →
      addIfRelevant cfg best c t = .ok c' → G c' → Run cfg G chain c'
  | offline {chain c} : Run cfg G chain c → G (resetMempool c) → Run cfg G chain (resetMempool c)
  | abandon {chain c c'} (id : Nat) : Run cfg G chain c → abandon cfg c id = .ok c' → MarksUndisputed c c' → G c' → Run cfg G chain c'
  | restart {chain c c'} (best : Nat) (l : List WTx) : Run cfg G chain c → Stored c l → (∀ t, c.Knows t → Undisputed c t) →
      reload cfg best l = .ok c' → G c' → Run cfg G chain c'

/-- histories without reorganisations and restarts, in which transactions come after the ones they depend on: a transaction of the mempool or of the user does not spend from one that was given up, and
when it is new no waiting transaction spends from it -/
inductive Calm (cfg : Cfg) : Cache → Prop
  | start : Calm cfg {}
  | connect {c c'} (best block : Nat) (t : WTx) : Calm cfg c → t.state.IsConfirmed → connect cfg best c t block = .ok c' → Calm cfg c'
  | unconfirmed {c c'} (best : Nat) (t : WTx) : Calm cfg c → t.state.IsPending →
      (∀ p, c.Knows p → ∀ o, t.Spends o → (ofLex o).1 = p.id → ¬ p.state.IsDead) →
      (c.txs.get t.id = none → ∀ e, c.Knows e → e.state.IsPending → ∀ o, e.Spends o → (ofLex o).1 ≠ t.id) →
      addIfRelevant cfg best c t = .ok c' → Calm cfg c'
  | offline {c} : Calm cfg c → Calm cfg (resetMempool c)
  | abandon {c c'} (id : Nat) : Calm cfg c → abandon cfg c id = .ok c' → Calm cfg c'

/-- the outputs of the transactions in blocks -/
def onlyConfirmed : Kind → Bool
  | .confirmed => true
  | _ => false

/-- the outputs a wallet spends: of transactions in blocks, in the mempool, and waiting (`UtxoState::Confirmed | UtxoState::InMempool | UtxoState::Inactive`) -/
def live : Kind → Bool
  | .confirmed => true
  | .inMempool => true
  | .inactive => true
  | _ => false

end Verif.Cache
