import Verif.Codec.Types

/-!
# Ids

How the ids of pools, delegations, orders, tokens and transactions are made. The hash function (`DefaultHashAlgoStream`,
cut to 32 bytes) is an arbitrary function `H` on byte strings; feeding it in pieces is feeding it the concatenation.
-/

namespace Verif.Ids
open Verif.Codec

/-- `IdCreationError` (common/src/chain/make_id.rs 148-164). -/
inductive Err
  | noUtxoForPool
  | noUtxoForDelegation
  | noUtxoForOrder
  | noUtxoForToken
  | noInputsForToken
deriving DecidableEq, Repr

/-- `TokenIdGenerationVersion` (common/src/chain/upgrades/chainstate_upgrade/mod.rs 106-111). -/
inductive Version
  | v0
  | v1
deriving DecidableEq, Repr

/-- `TxInput::utxo_outpoint` (common/src/chain/transaction/input.rs 63-70). -/
def utxoOutpoint : TxInput → Option UtxoOutPoint
  | .utxo o => some o
  | .account _ => none
  | .accountCommand _ _ => none
  | .orderAccountCommand _ => none

variable (k : Crypto) (H : Bytes → Bytes)

/-- `PoolId::from_utxo` with `pool_id_preimage_suffix`, a `u32` (make_id.rs 102-111, 138-141). -/
def poolIdFromUtxo (o : UtxoOutPoint) : Bytes := H ((UtxoOutPoint.codec k).enc o ++ (uint 4).enc 0)

/-- `DelegationId::from_utxo` with `delegation_id_preimage_suffix` (make_id.rs 113-122, 143-146). -/
def delegationIdFromUtxo (o : UtxoOutPoint) : Bytes := H ((UtxoOutPoint.codec k).enc o ++ (uint 4).enc 1)

/-- `TokenId::from_tx_input` (make_id.rs 124-128). -/
def tokenIdFromInput (i : TxInput) : Bytes := H ((TxInput.codec k).enc i)

/-- `OrderId::from_utxo` (make_id.rs 130-134). -/
def orderIdFromUtxo (o : UtxoOutPoint) : Bytes := H ((UtxoOutPoint.codec k).enc o)

/-- `make_pool_id` (make_id.rs 47-53). -/
def makePoolId (inputs : List TxInput) : Except Err Bytes :=
  match inputs.findSome? utxoOutpoint with
  | some o => .ok (poolIdFromUtxo k H o)
  | none => .error .noUtxoForPool

/-- `make_delegation_id` (make_id.rs 55-61). -/
def makeDelegationId (inputs : List TxInput) : Except Err Bytes :=
  match inputs.findSome? utxoOutpoint with
  | some o => .ok (delegationIdFromUtxo k H o)
  | none => .error .noUtxoForDelegation

/-- `make_order_id` (make_id.rs 63-69). -/
def makeOrderId (inputs : List TxInput) : Except Err Bytes :=
  match inputs.findSome? utxoOutpoint with
  | some o => .ok (orderIdFromUtxo k H o)
  | none => .error .noUtxoForOrder

/-- `make_token_id_with_version` (make_id.rs 85-101); `make_token_id` (71-83) takes the version from the height. -/
def makeTokenId (v : Version) (inputs : List TxInput) : Except Err Bytes :=
  match v with
  | .v0 =>
    match inputs.head? with
    | some i => .ok (tokenIdFromInput k H i)
    | none => .error .noInputsForToken
  | .v1 =>
    match inputs.find? fun i => (utxoOutpoint i).isSome with
    | some i => .ok (tokenIdFromInput k H i)
    | none => .error .noUtxoForToken

/-- `Transaction::get_id`: the hash of the encoded transaction without its signatures
(common/src/chain/transaction/mod.rs 88-95, transaction_v1.rs 70-75). -/
def transactionId (t : TransactionV1) : Bytes := H ((TransactionV1.codec k).enc t)

end Verif.Ids
