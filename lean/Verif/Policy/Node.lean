import Verif.Policy.PolicySpec
import Verif.Verifier.Value
import Verif.Ids.Model
import Verif.Reward.Model
import Verif.Reward.Spec

/-!
# The read-only checks of a node

The verifier model (`Verif.Verifier`) takes transactions as lists of effects and its read-only checks as they come (`Env`).  Here the
transactions are those of the codec model, `Node.tx` says what the verifier makes of them, and `Enforces` says that the read-only
checks are the ones of the code: `check_transaction` (C53), the input/output policy (C54), the check of frozen tokens, and
the ones of ids and rewards.
-/

namespace Verif.Policy
open Verif
open Verif.Codec
open Verif.Verifier (Src Effect Out Tx Block Views Env)

/-- as `unnum`, with a bound for the number of bytes -/
def unnumUpTo : Nat → Nat → Bytes
  | 0, _ => []
  | f + 1, n => if n < 256 then [] else UInt8.ofNat (n % 256) :: unnumUpTo f (n / 256)

/-- the bytes of a number made by `num` -/
def unnum (n : Nat) : Bytes := unnumUpTo n n

/-- What a node is configured with.  Heights are part of the source of a transaction. -/
structure Node where
  k : Crypto
  /-- the hash function -/
  H : Bytes → Bytes
  text : Text
  limits : Limits
  /-- `chainstate_upgrades` at the height -/
  rules : Src → Rules
  /-- the fees and the version of order commands at the height -/
  fees : Src → Accumulator.Config
  /-- `token_id_generation_version` at the height -/
  tokenIds : Src → Ids.Version
  /-- `frozen_tokens_validation_version` is `V1` at the height -/
  frozenV1 : Src → Bool
  /-- `min_stake_pool_pledge` -/
  minPledge : Nat
  /-- `block_subsidy_at_height` -/
  subsidy : Nat → Nat
  /-- `staking_pool_spend_maturity_block_count` -/
  maturity : Nat → Nat
  /-- what the numbers stand for that the verifier model has for fees -/
  fee : Nat → Accumulator.Acc
  /-- both are read from the same upgrade -/
  version : ∀ s, (fees s).ordersVersion = match (rules s).ordersVersion with
    | .v0 => .v0
    | .v1 => .v1

namespace Node
variable (N : Node)

/-- the contents of an output as a number -/
def content (o : TxOutput) : Nat := num ((TxOutput.codec N.k).enc o)

/-- the output with the contents -/
def output (n : Nat) : Option TxOutput := (TxOutput.codec N.k).decodeAll (unnum n)

/-- what the accumulator sees of contents; numbers that are no contents count as something worthless -/
def read (n : Nat) : Accumulator.TxOutput :=
  match N.output n with
  | some o => accOut N.k o
  | none => .dataDeposit

/-- `should_include_in_utxo_set` – utxo/src/cache.rs 505-520 -/
def inUtxoSet : TxOutput → Bool
  | .transfer _ _ => true
  | .lockThenTransfer _ _ _ => true
  | .createStakePool _ _ => true
  | .produceBlockFromStake _ _ => true
  | .issueNft _ _ _ => true
  | .htlc _ _ => true
  | .createDelegationId _ _ => false
  | .delegateStaking _ _ => false
  | .burn _ => false
  | .issueFungibleToken _ => false
  | .dataDeposit _ => false
  | .createOrder _ => false

/-- a new pool – `impl From<StakePoolData> for PoolData`, pos-accounting/src/pool/pool_data.rs 98-109 -/
def poolData (d : StakePoolData) : Pos.PoolData where
  decommissionDest := destination N.k d.decommissionKey
  pledge := d.pledge
  rewards := 0
  vrf := num d.vrfPublicKey
  margin := d.marginRatio
  costPerBlock := d.costPerBlock

def totalSupply : TokenTotalSupply → Tokens.TotalSupply
  | .fixed n => .fixed n
  | .lockable => .lockable
  | .unlimited => .unlimited

/-- common/src/chain/tokens/issuance.rs 160-167 -/
def issuance : TokenIssuance → Tokens.Issuance
  | .v1 t => ⟨num t.ticker, t.decimals, num t.uri, totalSupply t.totalSupply, destination N.k t.authority, t.isFreezable = .yes⟩

/-- what an output does to the accounts; `none` if the id of what it creates cannot be made – mod.rs 391-449 (staking), 628-664
(tokens), 886-910 (orders) -/
def effect (s : Src) (inputs : List TxInput) : TxOutput → Option Effect
  | .transfer _ _ => some .none
  | .lockThenTransfer _ _ _ => some .none
  | .htlc _ _ => some .none
  | .produceBlockFromStake _ _ => some .none
  | .dataDeposit _ => some .none
  | .burn (.coin _) => some .none
  | .burn (.tokenV0 _) => some .none
  | .burn (.tokenV1 id n) => some (.burnToken (num id) n)
  | .createStakePool p d => some (.createPool (num p) (N.poolData d))
  | .createDelegationId d p =>
    (Ids.makeDelegationId N.k N.H inputs).toOption.map fun id => .createDelegation (num p) (num id) (destination N.k d)
  | .delegateStaking n id => some (.delegate (num id) n)
  | .issueFungibleToken t =>
    (Ids.makeTokenId N.k N.H (N.tokenIds s) inputs).toOption.map fun id => .issueToken (num id) (N.issuance t)
  | .issueNft id _ _ => some (.issueNft (num id))
  | .createOrder d => (Ids.makeOrderId N.k N.H inputs).toOption.map fun id => .createOrder (num id) (orderData N.k d)

/-- an output as the UTXO set sees it -/
def coin (o : TxOutput) : Utxo.Output := ⟨inUtxoSet o, N.content o⟩

/-- an output as the verifier sees it -/
def out (s : Src) (inputs : List TxInput) (o : TxOutput) : Option Out := (N.effect s inputs o).map fun e => ⟨N.coin o, e⟩

/-- a transaction as the verifier sees it; there is none if an id cannot be made, and the code refuses it then -/
def tx (s : Src) (t : TransactionV1) : Option Tx :=
  (t.outputs.mapM (N.out s t.inputs)).map fun os =>
    ⟨num (Ids.transactionId N.k N.H t), t.inputs.map (input N.k), os⟩

/-- the state as the policy sees it.  Outputs that cannot be decoded count as missing (the database fails to read them). -/
def chain (w : Views) : Chain where
  utxo o := (w.utxo (outpoint o)).bind fun x => N.output x.output.content
  orders := w.orders
  pos := w.pos
  tokens := w.tokens

/-- a block reward as the UTXO set sees it -/
def reward (r : RewardTx) : Utxo.Reward where
  inputs := r.inputs.map fun is => is.map fun i => (input N.k i).outpoint
  outputs := some (r.outputs.map N.coin)

/-- the delegation parts of a reward that are not zero -/
def payoutMap (o : Option (BMap Nat Nat)) (rest : Nat) : BMap Nat Nat :=
  match o with
  | none => BMap.empty
  | some m => (m.mapV fun d _ => Reward.part o rest d).filter fun _ x => decide (x > 0)

/-- the amounts `distribute_pos_reward` pays out (`planOf_distribute`) – reward_distribution.rs 64-151 -/
def planOf (v : Pos.View) (pool total : Nat) (ver : Reward.Version) : Option Verifier.Plan :=
  match v.poolData pool, v.poolBalance pool, v.shares pool with
  | .ok (some d), .ok b, .ok o =>
    match Reward.stakerReward ver total b d with
    | .ok s => if s ≤ total then some ⟨payoutMap o (total - s), pool, total - Reward.parts o (total - s)⟩ else none
    | .error _ => none
  | _, _, _ => none

/-! ### Frozen tokens -/

/-- a token is not frozen, or not known: NFTs are not in this table – mod.rs 685-699 -/
def thawed (v : Tokens.View) (id : Nat) : Bool :=
  match v.data id with
  | .ok (some d) => !d.isFrozen
  | .ok none => true
  | .error _ => false

/-- mod.rs 706-709 -/
def thawedValue (v : Tokens.View) : Orders.OutputValue → Bool
  | .coin _ => true
  | .tokenV0 => true
  | .tokenV1 id _ => thawed v id

/-- `check_tx_output` – mod.rs 701-723 -/
def thawedOutput (v : Tokens.View) : Accumulator.TxOutput → Bool
  | .transfer x => thawedValue v x
  | .burn x => thawedValue v x
  | .lockThenTransfer x _ => thawedValue v x
  | .htlc x => thawedValue v x
  | .createOrder d => thawedValue v d.ask && thawedValue v d.give
  | _ => true

/-- `check_order_doesnt_use_frozen_token` – mod.rs 725-735 -/
def thawedOrder (w : Views) (id : Nat) : Bool :=
  match w.orders.data id with
  | .ok (some d) => thawedValue w.tokens d.ask && thawedValue w.tokens d.give
  | _ => false

/-- mod.rs 738-784 -/
def thawedInput (v1 : Bool) (w : Views) : Verifier.Input → Bool
  | .utxo o => match w.utxo o with
    | some x => !v1 || thawedOutput w.tokens (N.read x.output.content)
    | none => false
  | .account _ _ _ => true
  | .token _ (.unfreeze _) => true
  | .token _ c => thawed w.tokens c.token
  | .orderV0 _ c => thawedOrder w c.order
  | .order (.freeze _) => true
  | .order (.fill id _) => thawedOrder w id
  | .order (.conclude id) => thawedOrder w id

/-- `check_operations_with_frozen_tokens` – mod.rs 680-791 -/
def checkFrozen (w : Views) (s : Src) (t : Tx) : Bool :=
  t.inputs.all (N.thawedInput (N.frozenV1 s) w) && t.outputs.all fun o => thawedOutput w.tokens (N.read o.out.content)

/-! ### The checks of the code -/

/-- The read-only checks accept nothing that the code refuses.  There may be further checks: of signatures and time locks
(`verify_inputs`), for instance, or that an input is not too young. -/
structure Enforces (env : Env) : Prop where
  /-- `check_transaction`, and the NFT id check of `register` – mod.rs 953-967, token_issuance_cache.rs 69-93 -/
  checkTx : ∀ s t, env.checkTx s t = true → ∃ c : SignedTransaction, (SignedTransaction.codec N.k).ok c ∧
    N.tx s c.transaction = some t ∧ checkTransaction N.k N.limits (N.rules s) N.text c = .ok () ∧
    ∀ id x d, TxOutput.issueNft id x d ∈ c.transaction.outputs →
      Ids.makeTokenId N.k N.H (N.tokenIds s) c.transaction.inputs = .ok id
  /-- `check_tx_inputs_outputs_policy` – mod.rs 975-984 -/
  checkInputs : ∀ w s t f, env.checkInputs w s t = some f → ∃ c : TransactionV1, (TransactionV1.codec N.k).ok c ∧
    N.tx s c = some t ∧ checkTxPolicy N.k (N.rules s) (N.fees s) (N.chain w) c = .ok (N.fee f)
  /-- `check_operations_with_frozen_tokens` -/
  checkFrozen : ∀ w s t, env.checkFrozen w s t = true → N.checkFrozen w s t = true
  /-- mod.rs 395-418 -/
  checkPool : ∀ t p d, env.checkPool t p d = true → N.minPledge ≤ d.pledge ∧
    ∃ s c id, (TransactionV1.codec N.k).ok c ∧ N.tx s c = some t ∧ Ids.makePoolId N.k N.H c.inputs = .ok id ∧ num id = p
  /-- the pool of an output -/
  poolOf : ∀ n, env.poolOf n = Verifier.poolIn (N.read n)
  /-- `connect_block`: the fees of the block, then `check_reward_inputs_outputs_policy` – default_strategy.rs 72-103 -/
  checkReward : ∀ w b fees, env.checkReward w b fees = true →
    ∃ (n : Nat) (r : RewardTx), Verifier.feesOf N.fee (N.maturity b.height) fees = .ok n ∧ (∀ o ∈ r.outputs, (TxOutput.codec N.k).ok o) ∧
      b.reward = N.reward r ∧ b.pos = r.inputs.isSome ∧
      checkRewardPolicy N.k (N.rules b.src) (N.fees b.src) (N.chain w).utxo n (N.subsidy b.height) r = .ok ()
  /-- the total of the reward – mod.rs 1064-1083 -/
  plan : ∀ w b fees p, env.plan w b fees = some p →
    ∃ n ver, Verifier.feesOf N.fee (N.maturity b.height) fees = .ok n ∧ planOf w.pos p.pool (n + N.subsidy b.height) ver = some p

end Node
end Verif.Policy
