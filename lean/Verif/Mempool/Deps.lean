import Verif.Base.BMap

/-!
# Dependencies between mempool transactions

Model of `mempool/src/pool/dependency.rs` and of the parts of `mempool/src/pool/entry.rs` the store reads.
Identifiers of transactions, pools, delegations, tokens and orders are naturals.
-/

namespace Verif.Mempool

/-- One type for the three enums `TxRequiredDependency`, `TxConsumedDependency` and
`TxProvidedNonUtxoDependency` – dependency.rs 53-61, 167-171, 178-185. The latter two have a subset of the
variants of the first, with the same payloads. -/
inductive Dep where
  | txOutput (tx index : Nat)
  | poolCreation (pool : Nat)
  | delegationCreation (delegation : Nat)
  | delegationSpending (delegation nonce : Nat)
  | tokenCreation (token : Nat)
  | tokenManagement (token nonce : Nat)
  | orderCreation (order : Nat)
deriving DecidableEq, Repr

/-- A numbering of the variants; the derived `Ord` of the enums compares the variant, then the payload. -/
def Dep.key : Dep → Nat ×ₗ Nat ×ₗ Nat
  | .txOutput a b => toLex (0, toLex (a, b))
  | .poolCreation a => toLex (1, toLex (a, 0))
  | .delegationCreation a => toLex (2, toLex (a, 0))
  | .delegationSpending a b => toLex (3, toLex (a, b))
  | .tokenCreation a => toLex (4, toLex (a, 0))
  | .tokenManagement a b => toLex (5, toLex (a, b))
  | .orderCreation a => toLex (6, toLex (a, 0))

theorem Dep.key_injective : Function.Injective Dep.key := by
  intro a b h
  have h' : ofLex (Dep.key a) = ofLex (Dep.key b) := by rw [h]
  have h2 : ofLex (ofLex (Dep.key a)).2 = ofLex (ofLex (Dep.key b)).2 := by rw [h]
  cases a <;> cases b <;> simp [Dep.key, Prod.ext_iff] at h' h2 <;> simp_all

instance : LinearOrder Dep := LinearOrder.lift' Dep.key Dep.key_injective

/-- `TxRequiredDependency::into_consumed` – dependency.rs 144-160 -/
def Dep.isConsumed : Dep → Bool
  | .txOutput _ _ | .delegationSpending _ _ | .tokenManagement _ _ => true
  | _ => false

/-- `TxProvidedNonUtxoDependency::from_requirement` is `Some` – dependency.rs 313-332 -/
def Dep.isNonUtxo : Dep → Bool
  | .txOutput _ _ => false
  | _ => true

/-- The transaction inputs as far as the mempool looks at them. `utxo none _` is an outpoint of a block
reward (`get_tx_id` is `None`). Order commands of version 0 carry nothing. -/
inductive Input where
  | utxo (source : Option Nat) (index : Nat)
  | delegation (id nonce : Nat)
  | tokenCommand (id nonce : Nat)
  | orderCommandV0
  | orderCommand (id : Nat)
deriving DecidableEq, Repr

/-- The transaction outputs as far as the mempool looks at them. -/
inductive Output where
  | createDelegation (pool : Nat)
  | delegateStaking (delegation : Nat)
  | createPool (pool : Nat)
  | issueToken
  | createOrder
  | other
deriving DecidableEq, Repr

/-- `TxEntryWithFee` – entry.rs 31-39, 136-141. `newToken`, `newDelegation` and `newOrder` stand for the
results of `make_token_id`, `make_delegation_id` and `make_order_id` on the inputs (hashes, `none` for an
error). -/
structure Tx where
  id : Nat
  fee : Nat
  size : Nat
  time : Nat
  inputs : List Input
  outputs : List Output
  newToken : Option Nat
  newDelegation : Option Nat
  newOrder : Option Nat
deriving DecidableEq, Repr

/-- `TxRequiredDependency::from_input` – dependency.rs 72-122 -/
def Input.requires : Input → List Dep
  | .utxo (some t) i => [.txOutput t i]
  | .utxo none _ => []
  | .delegation d n => .delegationSpending d n :: (if n = 0 then [.delegationCreation d] else [])
  | .tokenCommand t n => .tokenManagement t n :: (if n = 0 then [.tokenCreation t] else [])
  | .orderCommandV0 => []
  | .orderCommand o => [.orderCreation o]

/-- `TxRequiredDependency::from_output` – dependency.rs 124-142 -/
def Output.requires : Output → Option Dep
  | .createDelegation p => some (.poolCreation p)
  | .delegateStaking d => some (.delegationCreation d)
  | _ => none

/-- `TxRequiredDependency::from_tx` – dependency.rs 64-70 -/
def Tx.required (t : Tx) : List Dep := t.inputs.flatMap Input.requires ++ t.outputs.filterMap Output.requires

/-- the largest account nonce, `u64::MAX` -/
def maxNonce : Nat := 2 ^ 64 - 1

/-- `AccountNonce::increment` – common/src/chain/transaction/account_nonce.rs -/
def incNonce (n : Nat) : Option Nat := if n < maxNonce then some (n + 1) else none

/-- `TxProvidedNonUtxoDependency::from_input` – dependency.rs 198-205, 269-291 -/
def Input.provides : Input → Option Dep
  | .delegation d n => (incNonce n).map (Dep.delegationSpending d)
  | .tokenCommand t n => (incNonce n).map (Dep.tokenManagement t)
  | _ => none

/-- `TxProvidedNonUtxoDependency::from_output` – dependency.rs 207-267 -/
def Output.provides (t : Tx) : Output → Option Dep
  | .issueToken => t.newToken.map Dep.tokenCreation
  | .createDelegation _ => t.newDelegation.map Dep.delegationCreation
  | .createPool p => some (.poolCreation p)
  | .createOrder => t.newOrder.map Dep.orderCreation
  | _ => none

/-- `TxProvidedNonUtxoDependency::from_tx` – dependency.rs 188-196 -/
def Tx.provided (t : Tx) : List Dep :=
  t.inputs.filterMap Input.provides ++ t.outputs.filterMap (Output.provides t)

/-- the dependencies used up by the transaction: `required_deps().filter_map(into_consumed)` -/
def Tx.consumed (t : Tx) : List Dep := t.required.filter Dep.isConsumed

/-- ids of the transactions whose outputs are spent – first part of `collect_tx_parents`,
store/mod.rs 1216-1228 -/
def Tx.sources (t : Tx) : List Nat :=
  t.inputs.filterMap (fun i => match i with | .utxo s _ => s | _ => none)

end Verif.Mempool
