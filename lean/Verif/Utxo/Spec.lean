import Verif.Utxo.Model

/-!
# UTXO set: specification

One plain map from outpoints to UTXOs and a best block; no layers, no flags.
-/

namespace Verif.Utxo
open Verif

variable {K V : Type} [LinearOrder K]

/-- the plain UTXO map -/
structure Plain (K V : Type) where
  utxo : K → Option V
  best : Nat

/-- effect of an operation on the plain map, and the value returned; `none` = the operation breaks uniqueness of
outpoints (adding an outpoint that is present without allowing to overwrite it).  `depth` = number of caches: without
a cache, cache operations do nothing. -/
def Plain.step (depth : Nat) (p : Plain K V) : Op K V → Option (Plain K V × Option (Option V))
  | .push => some (p, none)
  | .flush => some (p, none)
  | .uncache _ => some (p, none)
  | .add k v ow =>
    if depth = 0 then some (p, none)
    else if ow || (p.utxo k).isNone then some ({ p with utxo := fun k' => if k' = k then some v else p.utxo k' }, none)
    else none
  | .spend k =>
    if depth = 0 then some (p, none)
    else some ({ p with utxo := fun k' => if k' = k then none else p.utxo k' }, some (p.utxo k))
  | .touch k => if depth = 0 then some (p, none) else some (p, some (p.utxo k))
  | .setBest h => if depth = 0 then some (p, none) else some ({ p with best := h }, none)

/-- number of caches after an operation -/
def depthAfter (depth : Nat) : Op K V → Nat
  | .push => depth + 1
  | .flush => depth - 1
  | _ => depth

def Plain.run (depth : Nat) (p : Plain K V) : List (Op K V) → Option (Plain K V × List (Option (Option V)))
  | [] => some (p, [])
  | op :: ops =>
    match p.step depth op with
    | none => none
    | some (p1, r) =>
      match p1.run (depthAfter depth op) ops with
      | none => none
      | some (p2, rs) => some (p2, r :: rs)

/-- a returned `Result` agrees with the plain map's answer: a value when it was there, an error when not -/
def Agrees : Option (Except Err V) → Option (Option V) → Prop
  | none, none => True
  | some (.ok v), some (some w) => v = w
  | some (.error _), some none => True
  | _, _ => False

/-- the outputs of transaction `id` are not in the UTXO set -/
def TxFresh (v : View OutPoint Coin) (id : Nat) : Prop := ∀ i, v.utxo (txOut id i) = none

/-- the reward outputs of block `id` are not in the UTXO set -/
def RewardFresh (v : View OutPoint Coin) (id : Nat) : Prop := ∀ i, v.utxo (rewardOut id i) = none

/-- the reward's inputs, if given, are at least one and all UTXO inputs -/
def Reward.utxoInputs (r : Reward) : Prop := ∀ is, r.inputs = some is → is ≠ [] ∧ ∀ i ∈ is, i.isSome = true

/-- outpoints spent by a list of transactions, in order -/
def spentBy (txs : List Tx) : List OutPoint := txs.flatMap fun tx => tx.inputs.filterMap id

/-- each block names the one before it -/
def Linked : Nat → List Block → Prop
  | _, [] => True
  | best, b :: bs => b.prev = best ∧ Linked b.id bs

end Verif.Utxo
