import Verif.Utxo.Model
import Verif.Pos.Model
import Verif.Tokens.Model
import Verif.Orders.Model
import Verif.Verifier.UndoCache

/-!
# Model of the transaction verifier

`chainstate/tx-verifier/src/transaction_verifier/mod.rs` (below `mod.rs`), with the stores it works over and the
block-level strategy `chainstate/src/detail/tx_verification_strategy/default_strategy.rs`.

Every mutation the verifier makes is modelled: UTXO set, staking, tokens, orders, account nonces, NFT issuance index
and the four kinds of undo data.  The checks that only read (`check_transaction`, the input/output policy, input
verification, the frozen token check, the reward policy) are arbitrary predicates of what the verifier shows
(`Env`), so every theorem holds whatever they decide.  Not modelled: the per-epoch copy of the staking deltas
(`accounting_block_deltas`), and database errors.
-/

namespace Verif.Verifier
open Verif
open Verif.Utxo (OutPoint Coin Output txOut rewardOut)

/-- errors; the variants keep apart what the theorems and findings tell apart -/
inductive Err
  | utxo (e : Utxo.Err)
  | pos (e : Pos.Err)
  | tokens (e : Tokens.Err)
  | orders (e : Orders.Err)
  | undo (e : UErr)
  /-- a read-only check failed -/
  | rejected
  | missingOutputOrSpent
  | failedToIncrementNonce
  | nonceIsNotIncremental
  | missingTransactionNonce
  | duplicateNft
  | nonexistentNft
  | burnSum
  deriving DecidableEq

/-- `AccountType` – common/src/chain/transaction/account_outpoint.rs: (0, delegation), (1, token), (2, order) -/
abbrev Account := Nat ×ₗ Nat

def delegationAccount (d : Nat) : Account := toLex (0, d)
def tokenAccount (t : Nat) : Account := toLex (1, t)
def orderAccount (o : Nat) : Account := toLex (2, o)

/-- the token commands of `AccountCommand` – common/src/chain/transaction/account_outpoint.rs 118-143 -/
inductive TokenCmd
  | mint (id amount : Nat)
  | unmint (id : Nat)
  | lock (id : Nat)
  | freeze (id : Nat) (unfreezable : Bool)
  | unfreeze (id : Nat)
  | changeAuthority (id a : Nat)
  | changeMetadataUri (id uri : Nat)
  deriving DecidableEq

/-- the token a command concerns -/
def TokenCmd.token : TokenCmd → Nat
  | .mint id _ => id
  | .unmint id => id
  | .lock id => id
  | .freeze id _ => id
  | .unfreeze id => id
  | .changeAuthority id _ => id
  | .changeMetadataUri id _ => id

/-- the order commands of `AccountCommand` (deprecated, with a nonce) -/
inductive OrderCmdV0
  | conclude (id : Nat)
  | fill (id amount : Nat)
  deriving DecidableEq

def OrderCmdV0.order : OrderCmdV0 → Nat
  | .conclude id => id
  | .fill id _ => id

/-- `OrderAccountCommand` (no nonce) -/
inductive OrderCmd
  | fill (id amount : Nat)
  | conclude (id : Nat)
  | freeze (id : Nat)
  deriving DecidableEq

/-- `TxInput` -/
inductive Input
  | utxo (o : OutPoint)
  | account (nonce delegation amount : Nat)
  | token (nonce : Nat) (cmd : TokenCmd)
  | orderV0 (nonce : Nat) (cmd : OrderCmdV0)
  | order (cmd : OrderCmd)
  deriving DecidableEq

/-- the UTXO spent by an input -/
def Input.outpoint : Input → Option OutPoint
  | .utxo o => some o
  | _ => none

/-- the account whose nonce an input uses -/
def Input.acc : Input → Option Account
  | .utxo _ => none
  | .account _ d _ => some (delegationAccount d)
  | .token _ c => some (tokenAccount c.token)
  | .orderV0 _ c => some (orderAccount c.order)
  | .order _ => none

/-- what an output does besides (possibly) entering the UTXO set.  The ids of a created delegation, token or order
are derived from the inputs by the code (`make_delegation_id`, …); here they are given. -/
inductive Effect
  | none
  | createPool (pool : Nat) (d : Pos.PoolData)
  | createDelegation (pool delegation owner : Nat)
  | delegate (delegation amount : Nat)
  | issueToken (id : Nat) (i : Tokens.Issuance)
  | issueNft (id : Nat)
  | createOrder (id : Nat) (d : Orders.OrderData)
  | burnToken (id amount : Nat)

/-- `TxOutput` -/
structure Out where
  out : Output
  effect : Effect

/-- `SignedTransaction`; signatures are only looked at by the read-only checks -/
structure Tx where
  id : Nat
  inputs : List Input
  outputs : List Out

/-- the transaction as the UTXO set sees it -/
def Tx.utxo (tx : Tx) : Utxo.Tx := ⟨tx.id, tx.inputs.map Input.outpoint, tx.outputs.map Out.out⟩

/-- `Block`, with what the consensus data says about staking -/
structure Block where
  id : Nat
  prev : Nat
  height : Nat
  txs : List Tx
  reward : Utxo.Reward
  pos : Bool

/-- what the verifier works over: the storage, or another verifier – `TransactionVerifierStorageRef`, storage.rs -/
structure Base where
  utxo : Utxo.View OutPoint Coin
  pos : Pos.View
  tokens : Tokens.View
  orders : Orders.View
  nonce : Account → Option Nat
  nft : Nat → Option (Nat × Nat)
  nftByTx : Nat → Option Nat
  utxoUndo : Source → Option (CUtxoUndo (List Coin) (List (Option Coin)))
  posUndo : Source → Option (CBlockUndo (List Pos.Undo) (List Pos.Undo))
  tokensUndo : Source → Option (CBlockUndo Unit (List Tokens.Undo))
  ordersUndo : Source → Option (CBlockUndo Unit (List Orders.Undo))

/-- `TransactionVerifier` – mod.rs 114-142.  Block rewards never have token or order undos, hence `Unit`. -/
structure TxVerifier where
  base : Base
  utxo : Utxo.Layer OutPoint Coin
  pos : Pos.Cache
  tokens : Tokens.Cache
  orders : Orders.Cache
  nonces : BMap Account (COp Nat)
  nfts : BMap Nat (COp (Nat × Nat))
  nftByTx : BMap Nat (COp Nat)
  utxoUndo : UtxoUndoCache (List Coin) (List (Option Coin))
  posUndo : UndoCache (List Pos.Undo) (List Pos.Undo)
  tokensUndo : UndoCache Unit (List Tokens.Undo)
  ordersUndo : UndoCache Unit (List Orders.Undo)

/-- `TransactionVerifier::new` – mod.rs 145-180 -/
def TxVerifier.new (base : Base) : TxVerifier where
  base := base
  utxo := Utxo.Layer.new base.utxo
  pos := Pos.Cache.new base.pos
  tokens := Tokens.Cache.new base.tokens
  orders := ⟨base.orders, Orders.Delta.empty⟩
  nonces := BMap.empty
  nfts := BMap.empty
  nftByTx := BMap.empty
  utxoUndo := BMap.empty
  posUndo := BMap.empty
  tokensUndo := BMap.empty
  ordersUndo := BMap.empty

/-- what the read-only checks can see -/
structure Views where
  utxo : OutPoint → Option Coin
  pos : Pos.View
  tokens : Tokens.View
  orders : Orders.View

def TxVerifier.views (v : TxVerifier) : Views where
  utxo := (v.utxo.view v.base.utxo).utxo
  pos := v.pos.view
  tokens := v.tokens.view
  orders := v.orders.view

/-- where a transaction comes from: the key of its undo data, the source recorded with its coins, the block recorded
with an NFT – `TransactionSourceForConnect`, tx_source.rs 48-100 -/
structure Src where
  source : Source
  coin : Nat
  block : Nat

/-- how a block reward is to be distributed: an amount for each delegation, then the staker's –
reward_distribution.rs -/
structure Plan where
  delegations : BMap Nat Nat
  pool : Nat
  staker : Nat

/-- the read-only parts, arbitrary -/
structure Env where
  /-- `check_transaction`, which also looks at the height, and the NFT id check of `register` -/
  checkTx : Src → Tx → Bool
  /-- `check_tx_inputs_outputs_policy` and `verify_inputs`; the fee, encoded as a number -/
  checkInputs : Views → Src → Tx → Option Nat
  /-- `check_operations_with_frozen_tokens`, which also looks at the height -/
  checkFrozen : Views → Src → Tx → Bool
  /-- the pool id and pledge checks of a `CreateStakePool` output -/
  checkPool : Tx → Nat → Pos.PoolData → Bool
  /-- the pool of a `CreateStakePool`/`ProduceBlockFromStake` output -/
  poolOf : Nat → Option Nat
  /-- the fees add up, `check_block_reward` and the `verify_inputs` of the reward -/
  checkReward : Views → Block → List Nat → Bool
  /-- the amounts computed by `distribute_pos_reward`, or a failure to compute them -/
  plan : Views → Block → List Nat → Option Plan

/-! ### Nonces -/

/-- `get_account_nonce_count` – hierarchy.rs: the cached operation, else the storage -/
def TxVerifier.nonce (v : TxVerifier) (a : Account) : Option Nat :=
  match v.nonces.get a with
  | none => v.base.nonce a
  | some op => op.get

/-- the nonce expected next – mod.rs 277-285; `AccountNonce::increment` is a checked u64 addition -/
def expectedNonce : Option Nat → Except Err Nat
  | none => .ok 0
  | some n => if n + 1 < 2 ^ 64 then .ok (n + 1) else .error .failedToIncrementNonce

/-- `spend_input_from_account` – mod.rs 271-294 -/
def spendNonce (v : TxVerifier) (a : Account) (nonce : Nat) : Except Err TxVerifier := do
  let e ← expectedNonce (v.nonce a)
  ensure (e = nonce) .nonceIsNotIncremental
  pure { v with nonces := v.nonces.insert a (.write nonce) }

/-- the nonce stored when a spend is undone – mod.rs 304-305 -/
def previousNonce (n : Nat) : COp Nat := if n = 0 then .erase else .write (n - 1)

/-- `unspend_input_from_account` – mod.rs 296-308 -/
def unspendNonce (v : TxVerifier) (a : Account) : Except Err TxVerifier := do
  let n ← okOr (v.nonce a) .missingTransactionNonce
  pure { v with nonces := v.nonces.insert a (previousNonce n) }

/-! ### Stages -/

/-- `filter_map` over a list with a fallible step that changes the state, stopping at the first error:
`….filter_map(|x| …).collect::<Result<Vec<_>, _>>()?` -/
def collect {V A U : Type} (f : V → A → Except Err (V × Option U)) (v : V) : List A → Except Err (V × List U)
  | [] => .ok (v, [])
  | x :: xs => do
    let (v1, o) ← f v x
    let (v2, us) ← collect f v1 xs
    pure (v2, o.toList ++ us)

/-- a staking operation: performed on a new layer over the verifier's delta, then merged into it –
pos_accounting_delta_adapter.rs 123-133, 182-302 -/
def posStep (v : TxVerifier) (op : Pos.Op) : Except Err (TxVerifier × Option Pos.Undo) := do
  let (c, u) ← (Pos.step (Pos.Cache.new v.pos.view) op).mapError .pos
  let (d, _) ← (v.pos.delta.mergeWithDelta c.delta).mapError .pos
  pure ({ v with pos := { v.pos with delta := d } }, some u)

/-- `undo` – pos_accounting_delta_adapter.rs 304-311 -/
def posUndo (v : TxVerifier) (u : Pos.Undo) : Except Err TxVerifier := do
  let c ← (Pos.undo (Pos.Cache.new v.pos.view) u).mapError .pos
  let (d, _) ← (v.pos.delta.mergeWithDelta c.delta).mapError .pos
  pure { v with pos := { v.pos with delta := d } }

/-- `spend_input_from_utxo` – mod.rs 310-341 -/
def posUtxo (env : Env) (v : TxVerifier) (o : OutPoint) : Except Err (TxVerifier × Option Pos.Undo) := do
  let coin ← okOr ((v.utxo.view v.base.utxo).utxo o) .missingOutputOrSpent
  match env.poolOf coin.output.content with
  | some p => posStep v (.decommissionPool p)
  | none => pure (v, none)

/-- an input in the staking stage – mod.rs 354-388 -/
def posInput (env : Env) (v : TxVerifier) : Input → Except Err (TxVerifier × Option Pos.Undo)
  | .utxo o => posUtxo env v o
  | .account nonce d a => do
    let v1 ← spendNonce v (delegationAccount d) nonce
    posStep v1 (.spendShare d a)
  | .token _ _ => .ok (v, none)
  | .orderV0 _ _ => .ok (v, none)
  | .order _ => .ok (v, none)

/-- an output in the staking stage – mod.rs 391-455 -/
def posOutput (env : Env) (tx : Tx) (v : TxVerifier) (o : Out) : Except Err (TxVerifier × Option Pos.Undo) :=
  match o.effect with
  | .createPool p d => if env.checkPool tx p d then posStep v (.createPool p d) else .error .rejected
  | .createDelegation p d k => posStep v (.createDelegationId p d k)
  | .delegate d a => posStep v (.delegateStaking d a)
  | _ => .ok (v, none)

/-- the delegations spent from – mod.rs 366 -/
def Input.delegation : Input → Option Nat
  | .account _ d _ => some d
  | _ => none

/-- the final balances of the delegations spent from must be readable – mod.rs 457-466 -/
def checkBalances (v : TxVerifier) : List Nat → Except Err Unit
  | [] => .ok ()
  | d :: ds => do
    let _ ← (v.pos.view.delegationBalance d).mapError .pos
    checkBalances v ds

/-- undo data is stored unless empty – mod.rs 468-476 -/
def storePosUndo (v : TxVerifier) (src : Src) (tx : Tx) (us : List Pos.Undo) : Except Err TxVerifier :=
  match us with
  | [] => .ok v
  | u :: us => do
    let c ← (v.posUndo.addTx src.source tx.id (u :: us)).mapError .undo
    pure { v with posUndo := c }

/-- `connect_pos_accounting_outputs` – mod.rs 343-479 -/
def connectPos (env : Env) (src : Src) (v : TxVerifier) (tx : Tx) : Except Err TxVerifier := do
  let (v1, us1) ← collect (posInput env) v tx.inputs
  let (v2, us2) ← collect (posOutput env tx) v1 tx.outputs
  checkBalances v2 (tx.inputs.filterMap Input.delegation)
  storePosUndo v2 src tx (us1 ++ us2)

/-- a token operation, directly on the verifier's cache -/
def tokStep (v : TxVerifier) (op : Tokens.Op) : Except Err (TxVerifier × Option Tokens.Undo) := do
  let (c, u) ← (Tokens.step v.tokens op).mapError .tokens
  pure ({ v with tokens := c }, some u)

/-- `calculate_tokens_burned_in_outputs` – input_output_policy/mod.rs 62-87 -/
def burned (id : Nat) : List Out → Except Err Nat
  | [] => .ok 0
  | o :: os => do
    let r ← burned id os
    match o.effect with
    | .burnToken t a => if t = id then okOr (Amt.add a r) .burnSum else pure r
    | _ => pure r

/-- the operation of a token command; none if nothing is burned by an unmint – mod.rs 541-655 -/
def tokenOp (tx : Tx) : TokenCmd → Except Err (Option Tokens.Op)
  | .mint id a => .ok (some (.mint id a))
  | .unmint id => do
    let b ← burned id tx.outputs
    pure (if 0 < b then some (.unmint id b) else none)
  | .lock id => .ok (some (.lock id))
  | .freeze id b => .ok (some (.freeze id b))
  | .unfreeze id => .ok (some (.unfreeze id))
  | .changeAuthority id a => .ok (some (.changeAuthority id a))
  | .changeMetadataUri id u => .ok (some (.changeMetadataUri id u))

def tokRun (v : TxVerifier) : Option Tokens.Op → Except Err (TxVerifier × Option Tokens.Undo)
  | none => .ok (v, none)
  | some op => tokStep v op

/-- an input in the tokens stage – mod.rs 538-655 -/
def tokInput (tx : Tx) (v : TxVerifier) : Input → Except Err (TxVerifier × Option Tokens.Undo)
  | .token nonce cmd => do
    let v1 ← spendNonce v (tokenAccount cmd.token) nonce
    let op ← tokenOp tx cmd
    tokRun v1 op
  | .utxo _ => .ok (v, none)
  | .account _ _ _ => .ok (v, none)
  | .orderV0 _ _ => .ok (v, none)
  | .order _ => .ok (v, none)

/-- an output in the tokens stage: `IssueFungibleToken` – mod.rs 657-665 -/
def tokOutput (v : TxVerifier) (o : Out) : Except Err (TxVerifier × Option Tokens.Undo) :=
  match o.effect with
  | .issueToken id i => tokStep v (.issue id i)
  | _ => .ok (v, none)

def storeTokUndo (v : TxVerifier) (src : Src) (tx : Tx) (us : List Tokens.Undo) : Except Err TxVerifier :=
  match us with
  | [] => .ok v
  | u :: us => do
    let c ← (v.tokensUndo.addTx src.source tx.id (u :: us)).mapError .undo
    pure { v with tokensUndo := c }

/-- `connect_tokens_outputs` – mod.rs 533-678 -/
def connectTokens (env : Env) (src : Src) (v : TxVerifier) (tx : Tx) : Except Err TxVerifier := do
  ensure (env.checkFrozen v.views src tx = true) .rejected
  let (v1, us1) ← collect (tokInput tx) v tx.inputs
  let (v2, us2) ← collect tokOutput v1 tx.outputs
  storeTokUndo v2 src tx (us1 ++ us2)

/-- an order operation, directly on the verifier's cache -/
def ordStep (v : TxVerifier) (op : Orders.Op) : Except Err (TxVerifier × Option Orders.Undo) := do
  let (c, u) ← (Orders.step v.orders op).mapError .orders
  pure ({ v with orders := c }, some u)

def OrderCmdV0.op : OrderCmdV0 → Orders.Op
  | .conclude id => .conclude id
  | .fill id a => .fill id a .v0

def OrderCmd.op : OrderCmd → Orders.Op
  | .fill id a => .fill id a .v1
  | .conclude id => .conclude id
  | .freeze id => .freeze id

/-- an input in the orders stage – mod.rs 825-884 -/
def ordInput (v : TxVerifier) : Input → Except Err (TxVerifier × Option Orders.Undo)
  | .orderV0 nonce cmd => do
    let v1 ← spendNonce v (orderAccount cmd.order) nonce
    ordStep v1 cmd.op
  | .order cmd => ordStep v cmd.op
  | .utxo _ => .ok (v, none)
  | .account _ _ _ => .ok (v, none)
  | .token _ _ => .ok (v, none)

/-- an output in the orders stage: `CreateOrder` – mod.rs 886-910 -/
def ordOutput (v : TxVerifier) (o : Out) : Except Err (TxVerifier × Option Orders.Undo) :=
  match o.effect with
  | .createOrder id d => ordStep v (.create id d)
  | _ => .ok (v, none)

def storeOrdUndo (v : TxVerifier) (src : Src) (tx : Tx) (us : List Orders.Undo) : Except Err TxVerifier :=
  match us with
  | [] => .ok v
  | u :: us => do
    let c ← (v.ordersUndo.addTx src.source tx.id (u :: us)).mapError .undo
    pure { v with ordersUndo := c }

/-- `connect_orders_outputs` – mod.rs 820-924 -/
def connectOrders (src : Src) (v : TxVerifier) (tx : Tx) : Except Err TxVerifier := do
  let (v1, us1) ← collect ordInput v tx.inputs
  let (v2, us2) ← collect ordOutput v1 tx.outputs
  storeOrdUndo v2 src tx (us1 ++ us2)

/-! ### NFT issuance index -/

def Effect.nft : Effect → Option Nat
  | .issueNft id => some id
  | _ => Option.none

/-- `has_tokens_issuance_to_cache` – token_issuance_cache.rs 240-255 -/
def Tx.nft (tx : Tx) : Option Nat := tx.outputs.findSome? fun o => o.effect.nft

/-- `precache_token_issuance` – token_issuance_cache.rs 173-195 -/
def precache (v : TxVerifier) (id : Nat) : Except Err TxVerifier :=
  match v.nfts.get id with
  | some _ => .error .duplicateNft
  | none => match v.base.nft id with
    | some d => .ok { v with nfts := v.nfts.insert id (.read d) }
    | none => .ok v

/-- `write_issuance`, `insert_aux_data` – token_issuance_cache.rs 120-154 -/
def writeIssuance (v : TxVerifier) (tx id block : Nat) : Except Err TxVerifier :=
  match v.nfts.get id with
  | some (.write _) => .error .duplicateNft
  | some (.read _) => .error .duplicateNft
  | _ => .ok { v with nfts := v.nfts.insert id (.write (tx, block)), nftByTx := v.nftByTx.insert tx (.write id) }

/-- `register` – token_issuance_cache.rs 69-100 -/
def register (v : TxVerifier) (tx : Tx) (block : Nat) : Except Err TxVerifier :=
  match tx.nft with
  | none => .ok v
  | some id => do
    let v1 ← precache v id
    writeIssuance v1 tx.id id block

/-- `write_undo_issuance` – token_issuance_cache.rs 154-171 -/
def writeUndoIssuance (v : TxVerifier) (tx id : Nat) : Except Err TxVerifier :=
  match v.nfts.get id with
  | some _ => .ok { v with nfts := v.nfts.insert id .erase, nftByTx := v.nftByTx.insert tx .erase }
  | none => .error .nonexistentNft

/-- `unregister` – token_issuance_cache.rs 102-116 -/
def unregister (v : TxVerifier) (tx : Tx) : Except Err TxVerifier :=
  match tx.nft with
  | none => .ok v
  | some id => do
    let v1 ← precache v id
    writeUndoIssuance v1 tx.id id

/-! ### Transactions -/

/-- the transaction that created an outpoint, if it was one -/
def parentOf (o : OutPoint) : Option Nat := if (ofLex (ofLex o).1).1 = 0 then some (ofLex (ofLex o).1).2 else none

/-- the transactions spent from – utxo/src/cache.rs `connect_transaction` collects the sources of the spent outputs;
cached_utxo_block_undo.rs 142-146 keeps those that are transactions -/
def Tx.parents (tx : Tx) : List Nat := (tx.inputs.filterMap Input.outpoint).filterMap parentOf

/-- the UTXO part of `connect_transaction` – mod.rs 1001-1015 -/
def connectUtxo (src : Src) (v : TxVerifier) (tx : Tx) : Except Err TxVerifier := do
  let (l, u) ← (Utxo.connectTx v.base.utxo v.utxo tx.utxo src.coin).mapError .utxo
  let c ← (v.utxoUndo.addTx src.source tx.id u tx.parents).mapError .undo
  pure { v with utxo := l, utxoUndo := c }

/-- `connect_transaction` – mod.rs 953-1018 -/
def connectTx (env : Env) (src : Src) (v : TxVerifier) (tx : Tx) : Except Err (TxVerifier × Nat) := do
  ensure (env.checkTx src tx = true) .rejected
  let v1 ← register v tx src.block
  let fee ← okOr (env.checkInputs v1.views src tx) .rejected
  let v2 ← connectPos env src v1 tx
  let v3 ← connectTokens env src v2 tx
  let v4 ← connectOrders src v3 tx
  let v5 ← connectUtxo src v4 tx
  pure (v5, fee)

/-- apply undos in the order given -/
def undoEach {V U : Type} (f : V → U → Except Err V) (v : V) : List U → Except Err V
  | [] => .ok v
  | u :: us => do
    let v1 ← f v u
    undoEach f v1 us

/-- decrement the nonces used by the inputs – mod.rs 486-497 -/
def unspendNonces (v : TxVerifier) : List Input → Except Err TxVerifier
  | [] => .ok v
  | i :: is => match i.acc with
    | none => unspendNonces v is
    | some a => do
      let v1 ← unspendNonce v a
      unspendNonces v1 is

/-- `disconnect_pos_accounting_outputs` – mod.rs 508-531 -/
def disconnectPos (source : Source) (v : TxVerifier) (tx : Tx) : Except Err TxVerifier := do
  let (c, us) ← (v.posUndo.takeTx v.base.posUndo source tx.id).mapError .undo
  undoEach posUndo { v with posUndo := c } (us.getD []).reverse

def tokUndo (v : TxVerifier) (u : Tokens.Undo) : Except Err TxVerifier := do
  let c ← (Tokens.undo v.tokens u).mapError .tokens
  pure { v with tokens := c }

/-- `disconnect_tokens_accounting_outputs` – mod.rs 793-818 -/
def disconnectTokens (source : Source) (v : TxVerifier) (tx : Tx) : Except Err TxVerifier := do
  let (c, us) ← (v.tokensUndo.takeTx v.base.tokensUndo source tx.id).mapError .undo
  undoEach tokUndo { v with tokensUndo := c } (us.getD []).reverse

def ordUndo (v : TxVerifier) (u : Orders.Undo) : Except Err TxVerifier := do
  let c ← (Orders.undo v.orders u).mapError .orders
  pure { v with orders := c }

/-- `disconnect_orders_accounting_outputs` – mod.rs 926-951 -/
def disconnectOrders (source : Source) (v : TxVerifier) (tx : Tx) : Except Err TxVerifier := do
  let (c, us) ← (v.ordersUndo.takeTx v.base.ordersUndo source tx.id).mapError .undo
  undoEach ordUndo { v with ordersUndo := c } (us.getD []).reverse

/-- taking the UTXO undo of a transaction – mod.rs 1149-1153 -/
def takeUtxoUndo (source : Source) (v : TxVerifier) (tx : Tx) : Except Err (TxVerifier × List (Option Coin)) := do
  let (c, u) ← (v.utxoUndo.takeTx v.base.utxoUndo source tx.id).mapError .undo
  pure ({ v with utxoUndo := c }, u)

/-- `utxo_cache.disconnect_transaction` – mod.rs 1157 -/
def disconnectUtxo (v : TxVerifier) (tx : Tx) (u : List (Option Coin)) : Except Err TxVerifier := do
  let l ← (Utxo.disconnectTx v.base.utxo v.utxo tx.utxo u).mapError .utxo
  pure { v with utxo := l }

/-- `disconnect_transaction` – mod.rs 1139-1167, with `disconnect_accounting_outputs` 481-506 -/
def disconnectTx (source : Source) (v : TxVerifier) (tx : Tx) : Except Err TxVerifier := do
  let (v1, u) ← takeUtxoUndo source v tx
  let v2 ← unspendNonces v1 tx.inputs
  let v3 ← disconnectPos source v2 tx
  let v4 ← disconnectTokens source v3 tx
  let v5 ← disconnectOrders source v4 tx
  let v6 ← disconnectUtxo v5 tx u
  unregister v6 tx

/-! ### Blocks -/

/-- transactions in order, with their fees -/
def connectTxs (env : Env) (src : Src) (v : TxVerifier) : List Tx → Except Err (TxVerifier × List Nat)
  | [] => .ok (v, [])
  | tx :: txs => do
    let (v1, fee) ← connectTx env src v tx
    let (v2, fees) ← connectTxs env src v1 txs
    pure (v2, fee :: fees)

/-- transactions in the order given -/
def disconnectTxs (source : Source) (v : TxVerifier) : List Tx → Except Err TxVerifier
  | [] => .ok v
  | tx :: txs => do
    let v1 ← disconnectTx source v tx
    disconnectTxs source v1 txs

/-- UTXO part of `connect_block_reward` – mod.rs 1043-1054 -/
def rewardUtxo (v : TxVerifier) (b : Block) : Except Err TxVerifier := do
  let (l, u) ← (Utxo.connectReward v.base.utxo v.utxo b.reward b.id b.height).mapError .utxo
  match u with
  | none => pure { v with utxo := l }
  | some u => do
    let c ← (v.utxoUndo.addReward (chain b.id) u).mapError .undo
    pure { v with utxo := l, utxoUndo := c }

/-- the operations of the distribution: the delegations in order, then the staker – reward_distribution.rs -/
def Plan.ops (p : Plan) : List Pos.Op :=
  p.delegations.entries.map (fun e => Pos.Op.delegateStaking e.1 e.2) ++ [.increaseStakerRewards p.pool p.staker]

/-- staking part of `connect_block_reward` – mod.rs 1056-1089 -/
def rewardPos (env : Env) (v : TxVerifier) (b : Block) (fees : List Nat) : Except Err TxVerifier :=
  if b.pos then do
    let p ← okOr (env.plan v.views b fees) .rejected
    let (v1, us) ← collect posStep v p.ops
    let c ← (v1.posUndo.addReward (chain b.id) us).mapError .undo
    pure { v1 with posUndo := c }
  else .ok v

/-- `check_block_reward`, `connect_block_reward` – mod.rs 254-269, 1020-1092 -/
def connectReward (env : Env) (v : TxVerifier) (b : Block) (fees : List Nat) : Except Err TxVerifier := do
  ensure (env.checkReward v.views b fees = true) .rejected
  let v1 ← rewardUtxo v b
  rewardPos env v1 b fees

/-- UTXO part of `disconnect_block_reward` – mod.rs 1181-1187 -/
def unrewardUtxo (v : TxVerifier) (b : Block) : Except Err TxVerifier := do
  let (c, u) := v.utxoUndo.takeReward v.base.utxoUndo (chain b.id)
  let l ← (Utxo.disconnectReward v.base.utxo v.utxo b.reward b.id u).mapError .utxo
  pure { v with utxo := l, utxoUndo := c }

/-- staking part of `disconnect_block_reward`: the undos in the order in which they were made – mod.rs 1189-1207 -/
def unrewardPos (v : TxVerifier) (b : Block) : Except Err TxVerifier :=
  if b.pos then
    let (c, us) := v.posUndo.takeReward v.base.posUndo (chain b.id)
    undoEach posUndo { v with posUndo := c } (us.getD [])
  else .ok v

/-- `disconnect_block_reward` – mod.rs 1169-1210 -/
def disconnectReward (v : TxVerifier) (b : Block) : Except Err TxVerifier := do
  let v1 ← unrewardUtxo v b
  unrewardPos v1 b

/-- `set_best_block` – mod.rs 1212-1214 -/
def setBest (v : TxVerifier) (id : Nat) : TxVerifier := { v with utxo := { v.utxo with best := id } }

def Block.src (b : Block) : Src := ⟨chain b.id, b.height, b.id⟩

/-- `connect_block` – default_strategy.rs 51-113 -/
def connectBlock (env : Env) (v : TxVerifier) (b : Block) : Except Err TxVerifier := do
  let (v1, fees) ← connectTxs env b.src v b.txs
  let v2 ← connectReward env v1 b fees
  pure (setBest v2 b.id)

/-- `disconnect_block` – default_strategy.rs 115-151 -/
def disconnectBlock (v : TxVerifier) (b : Block) : Except Err TxVerifier := do
  let v1 ← disconnectReward v b
  let v2 ← disconnectTxs (chain b.id) v1 b.txs.reverse
  pure (setBest v2 b.prev)

/-! ### The storage -/

/-- the tables the verifier reads and writes – chainstate/src/detail/chainstateref/tx_verifier_storage.rs -/
structure Ledger where
  utxo : Utxo.DB OutPoint Coin
  pos : Pos.DB
  tokens : Tokens.DB
  orders : Orders.DB
  nonces : BMap Account Nat
  nfts : BMap Nat (Nat × Nat)
  nftByTx : BMap Nat Nat
  utxoUndo : BMap Source (UtxoBlockUndo (List Coin) (List (Option Coin)))
  posUndo : BMap Source (BlockUndo (List Pos.Undo) (List Pos.Undo))
  tokensUndo : BMap Source (BlockUndo Unit (List Tokens.Undo))
  ordersUndo : BMap Source (BlockUndo Unit (List Orders.Undo))

/-- reading the storage – tx_verifier_storage.rs 58-202 -/
def Ledger.base (l : Ledger) : Base where
  utxo := l.utxo.view
  pos := l.pos.view
  tokens := l.tokens.view
  orders := l.orders.view
  nonce := l.nonces.get
  nft := l.nfts.get
  nftByTx := l.nftByTx.get
  utxoUndo := utxoOfStore l.utxoUndo
  posUndo := ofStore l.posUndo
  tokensUndo := ofStore l.tokensUndo
  ordersUndo := ofStore l.ordersUndo

/-- `flush_to_storage` – flush.rs 64-146, into tx_verifier_storage.rs 206-600 -/
def Ledger.flush (l : Ledger) (v : TxVerifier) : Except Err Ledger := do
  let nfts ← (applyOps l.nfts v.nfts).mapError .undo
  let nftByTx ← (applyOps l.nftByTx v.nftByTx).mapError .undo
  let utxo ← (l.utxo.batchWrite v.utxo).mapError .utxo
  let utxoUndo ← (v.utxoUndo.flush l.utxoUndo).mapError .undo
  let (pos, _) ← (l.pos.mergeWithDelta v.pos.delta).mapError .pos
  let posUndo ← (v.posUndo.flush l.posUndo).mapError .undo
  let (tokens, _) ← (l.tokens.mergeWithDelta v.tokens.delta).mapError .tokens
  let tokensUndo ← (v.tokensUndo.flush l.tokensUndo).mapError .undo
  let nonces ← (applyOps l.nonces v.nonces).mapError .undo
  let (orders, _) ← (l.orders.mergeWithDelta v.orders.delta).mapError .orders
  let ordersUndo ← (v.ordersUndo.flush l.ordersUndo).mapError .undo
  pure ⟨utxo, pos, tokens, orders, nonces, nfts, nftByTx, utxoUndo, posUndo, tokensUndo, ordersUndo⟩

/-- connect a block to the stored state – chainstateref/mod.rs 1266-1291 -/
def Ledger.connect (env : Env) (l : Ledger) (b : Block) : Except Err Ledger := do
  let v ← connectBlock env (TxVerifier.new l.base) b
  l.flush v

/-- disconnect a block from the stored state – chainstateref/mod.rs 1293-1305 -/
def Ledger.disconnect (l : Ledger) (b : Block) : Except Err Ledger := do
  let v ← disconnectBlock (TxVerifier.new l.base) b
  l.flush v

end Verif.Verifier
