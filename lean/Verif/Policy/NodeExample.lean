import Verif.Policy.NodeProps

/-!
# A node and a chain it accepts (C55)

`envOf` is a node that knows a list of transactions and of rewards and carries out the checks of the code on them.  A chain
with a pool, a delegation, a token and an order is connected by it.
-/

set_option maxRecDepth 100000

namespace Verif.Policy
open Verif
open Verif.Codec
open Verif.Verifier (Src Effect Out Tx Block Views Env Ledger)
open Verif.Utxo (txOut rewardOut)

deriving instance DecidableEq for Verifier.Effect
deriving instance DecidableEq for Verifier.Out
deriving instance DecidableEq for Verifier.Tx

instance : DecidableEq Utxo.OutPoint := inferInstanceAs (DecidableEq ((Nat ×ₗ Nat) ×ₗ Nat))

instance (a b : Utxo.Reward) : Decidable (a = b) :=
  decidable_of_iff (a.inputs = b.inputs ∧ a.outputs = b.outputs) (by cases a; cases b; simp)

namespace Node
variable (N : Node)

/-- the NFT ids of a transaction are the ones they must be -/
def nftsOk (s : Src) (c : TransactionV1) : Bool :=
  c.outputs.all fun o => match o with
    | .issueNft id _ _ => decide ((Ids.makeTokenId N.k N.H (N.tokenIds s) c.inputs).toOption = some id)
    | _ => true

/-- the number for a fee, one of three for each amount of coins -/
def feeNum (a : Accumulator.Acc) : Option Nat :=
  let n := (a.unc.get Accumulator.coin).getD 0
  [3 * n, 3 * n + 1, 3 * n + 2].find? fun m => decide (N.fee m = a)

/-- the reward of a block, if known -/
def rewardOf (rws : List RewardTx) (b : Block) : Option RewardTx :=
  rws.find? fun r => decide (b.reward = N.reward r) && decide (b.pos = r.inputs.isSome)

/-- a node that knows these transactions and rewards; `s0` is the height that pool ids are made at, which does not matter -/
def envOf (s0 : Src) (txs : List SignedTransaction) (rws : List RewardTx) : Env where
  checkTx s t := txs.any fun c => decide (N.tx s c.transaction = some t) &&
    (checkTransaction N.k N.limits (N.rules s) N.text c).isOk && N.nftsOk s c.transaction
  checkInputs w s t := txs.findSome? fun c => if N.tx s c.transaction = some t then
      (checkTxPolicy N.k (N.rules s) (N.fees s) (N.chain w) c.transaction).toOption.bind N.feeNum else none
  checkFrozen := N.checkFrozen
  checkPool t p d := decide (N.minPledge ≤ d.pledge) && txs.any fun c => decide (N.tx s0 c.transaction = some t) &&
    decide ((Ids.makePoolId N.k N.H c.transaction.inputs).toOption.map num = some p)
  poolOf n := Verifier.poolIn (N.read n)
  checkReward w b fees := match Verifier.feesOf N.fee (N.maturity b.height) fees, N.rewardOf rws b with
    | .ok n, some r => (checkRewardPolicy N.k (N.rules b.src) (N.fees b.src) (N.chain w).utxo n (N.subsidy b.height) r).isOk
    | _, _ => false
  plan w b fees := match Verifier.feesOf N.fee (N.maturity b.height) fees, N.rewardOf rws b with
    | .ok n, some r => match rewardPool r.outputs with
      | .ok (p, _) => planOf w.pos (num p) (n + N.subsidy b.height) .v1
      | .error _ => none
    | _, _ => none

variable {N}

theorem toOption_some {E A : Type} {x : Except E A} {a : A} (h : x.toOption = some a) : x = .ok a := by
  cases x with
  | error e => cases h
  | ok b => cases h; rfl

theorem unit_of_isOk {E : Type} {x : Except E Unit} (h : x.isOk = true) : x = .ok () := by
  cases x with
  | error e => cases h
  | ok b => rfl

theorem planOf_pool {v : Pos.View} {pool total : Nat} {ver : Reward.Version} {p : Verifier.Plan}
    (h : planOf v pool total ver = some p) : p.pool = pool := by
  unfold planOf at h
  split at h
  · split at h
    · split at h
      · cases h; rfl
      · cases h
    · cases h
  · cases h

/-- such a node refuses what the code refuses -/
theorem enforces_envOf {s0 : Src} {txs : List SignedTransaction} {rws : List RewardTx}
    (ht : ∀ c ∈ txs, (SignedTransaction.codec N.k).ok c) (hr : ∀ r ∈ rws, ∀ o ∈ r.outputs, (TxOutput.codec N.k).ok o) :
    N.Enforces (N.envOf s0 txs rws) where
  checkTx s t h := by
    simp only [envOf, List.any_eq_true, Bool.and_eq_true, decide_eq_true_eq] at h
    obtain ⟨c, hc, ⟨h1, h2⟩, h3⟩ := h
    refine ⟨c, ht c hc, h1, unit_of_isOk h2, fun id x d hm => ?_⟩
    have := List.all_eq_true.1 h3 _ hm
    exact toOption_some (by simpa using this)
  checkInputs w s t f h := by
    simp only [envOf, List.findSome?_eq_some_iff] at h
    obtain ⟨l1, c, l2, e, h, -⟩ := h
    split at h
    · rename_i h1
      rw [Option.bind_eq_some_iff] at h
      obtain ⟨a, h2, h3⟩ := h
      refine ⟨c.transaction, signed_ok (ht c (by rw [e]; simp)), h1, ?_⟩
      rw [toOption_some h2]
      have h4 := List.find?_some h3
      rw [decide_eq_true_eq] at h4
      rw [h4]
    · cases h
  checkFrozen _ _ _ h := h
  checkPool t p d h := by
    simp only [envOf, List.any_eq_true, Bool.and_eq_true, decide_eq_true_eq] at h
    obtain ⟨h1, c, hc, h2, h3⟩ := h
    rw [Option.map_eq_some_iff] at h3
    obtain ⟨id, h3, h4⟩ := h3
    exact ⟨h1, s0, c.transaction, id, signed_ok (ht c hc), h2, toOption_some h3, h4⟩
  poolOf n := rfl
  checkReward w b fees h := by
    simp only [envOf] at h
    split at h
    · rename_i n r h1 h2
      have h3 := List.find?_some h2
      simp only [Bool.and_eq_true, decide_eq_true_eq] at h3
      exact ⟨n, r, h1, hr r (List.mem_of_find?_eq_some h2), h3.1, h3.2, unit_of_isOk h⟩
    · cases h
  plan w b fees p h := by
    simp only [envOf] at h
    split at h
    · rename_i n r h1 h2
      split at h
      · exact ⟨n, .v1, h1, by rw [planOf_pool h]; exact h⟩
      · cases h
    · cases h

end Node

/-! ### The chain -/

/-- a toy hash function with values of 32 bytes -/
def toyHash (b : Bytes) : Bytes := leBytes 32 (num b % (2 ^ 255 - 19))

def ndId (c : TransactionV1) : Bytes := Ids.transactionId exCrypto toyHash c
def ndOut (c : TransactionV1) (i : Nat) : TxInput := .utxo ⟨.transaction (ndId c), i⟩
def ndGen : Bytes := List.replicate 32 1
def ndGenOut (i : Nat) : TxInput := .utxo ⟨.blockReward ndGen, i⟩
def ndPool : Bytes := ((Ids.makePoolId exCrypto toyHash [ndGenOut 0]).toOption).getD []
def ndToken : Bytes := ((Ids.makeTokenId exCrypto toyHash .v1 [ndGenOut 1]).toOption).getD []

/-- fees are coins; where the transaction moves tokens, an entry of zero is left of them, and
where it takes back delegated coins, one of locked coins -/
def ndNode : Node where
  k := exCrypto
  H := toyHash
  text := exText
  limits := exLimits
  rules _ := exRules
  fees _ := plCfg
  tokenIds _ := .v1
  frozenV1 _ := true
  minPledge := 4000
  subsidy h := 50 + h
  maturity _ := 100
  fee n := ⟨BMap.ofList ((Accumulator.coin, n / 3) :: if n % 3 = 1 then [(Accumulator.token (num ndToken), 0)] else []),
    BMap.ofList (if n % 3 = 2 then [(100, 0)] else [])⟩
  version _ := rfl

/-- a pool is created -/
def nd1 : TransactionV1 := ⟨0, [ndGenOut 0], [.createStakePool ndPool ⟨5000, dest, List.replicate 32 9, dest, 100, 1⟩, .transfer (.coin 4900) dest]⟩
/-- a token is issued -/
def nd2 : TransactionV1 := ⟨0, [ndGenOut 1], [.issueFungibleToken (.v1 ftok), .transfer (.coin 9800) dest]⟩
/-- it is minted -/
def nd3 : TransactionV1 := ⟨0, [.accountCommand 0 (.mintTokens ndToken 500), ndOut nd2 1],
  [.transfer (.tokenV1 ndToken 500) dest, .transfer (.coin 9700) dest]⟩
/-- a delegation is created -/
def nd4 : TransactionV1 := ⟨0, [ndOut nd1 1], [.createDelegationId dest ndPool, .transfer (.coin 4850) dest]⟩
def ndDelegation : Bytes := ((Ids.makeDelegationId exCrypto toyHash nd4.inputs).toOption).getD []
/-- tokens are offered -/
def nd5 : TransactionV1 := ⟨0, [ndOut nd3 0, ndOut nd3 1], [.createOrder (order (.coin 100) (.tokenV1 ndToken 50)),
  .transfer (.tokenV1 ndToken 450) dest, .transfer (.coin 9690) dest]⟩
def ndOrder : Bytes := ((Ids.makeOrderId exCrypto toyHash nd5.inputs).toOption).getD []
/-- coins are delegated -/
def nd6 : TransactionV1 := ⟨0, [ndOut nd4 1], [.delegateStaking 1000 ndDelegation, .transfer (.coin 3800) dest]⟩
/-- the order is filled in part -/
def nd7 : TransactionV1 := ⟨0, [.orderAccountCommand (.fillOrder ndOrder 20), ndOut nd6 1],
  [.transfer (.tokenV1 ndToken 10) dest, .transfer (.coin 3770) dest]⟩
/-- some of the delegated coins are taken back -/
def nd8 : TransactionV1 := ⟨0, [.account ⟨0, .delegationBalance ndDelegation 300⟩, ndOut nd7 1],
  [.lockThenTransfer (.coin 300) dest (.forBlockCount 100), .transfer (.coin 3760) dest]⟩

def ndTxs : List (List TransactionV1) := [[nd1, nd2], [nd3, nd4], [nd5, nd6], [nd7, nd8]]

def ndB2 : Bytes := List.replicate 32 3
def ndB3 : Bytes := List.replicate 32 4

/-- a miner's reward, then rewards for staking -/
def ndRewards : List RewardTx :=
  [⟨none, [.lockThenTransfer (.coin 251) dest (.forBlockCount 5)]⟩,
   ⟨some [ndOut nd1 0], [.produceBlockFromStake dest ndPool]⟩,
   ⟨some [.utxo ⟨.blockReward ndB2, 0⟩], [.produceBlockFromStake dest ndPool]⟩,
   ⟨some [.utxo ⟨.blockReward ndB3, 0⟩], [.produceBlockFromStake dest ndPool]⟩]

def ndSigned (c : TransactionV1) : SignedTransaction := ⟨c, c.inputs.map fun _ => w0⟩

def ndEnv : Env := ndNode.envOf ⟨0, 0, 0⟩ (ndTxs.flatten.map ndSigned) ndRewards

def ndBlock (id prev h : Nat) (cs : List TransactionV1) (r : RewardTx) : Block :=
  ⟨id, prev, h, cs.filterMap (ndNode.tx ⟨0, 0, 0⟩), ndNode.reward r, r.inputs.isSome⟩

def ndChain : List Block :=
  let ids := [ndGen, List.replicate 32 2, ndB2, ndB3, List.replicate 32 5].map num
  (List.range 4).map fun i => ndBlock (ids.getD (i + 1) 0) (ids.getD i 0) (i + 1) (ndTxs.getD i []) (ndRewards.getD i ⟨none, []⟩)

def ndGenesis : Ledger :=
  { Verifier.exGenesis with utxo := ⟨BMap.ofList ((List.range 4).map fun j => (rewardOut (num ndGen) j,
      ⟨ndNode.coin (.transfer (.coin 10000) dest), 0⟩)), num ndGen⟩ }


/-! ### The theorems apply -/

theorem ok_of_decode {α : Type} {c : Codec α} (hc : Lawful c) {a : α} (h : c.decodeAll (c.enc a) = some a) : c.ok a := by
  unfold Codec.decodeAll at h
  split at h
  · rename_i x hx
    cases h
    exact (hc.canon _ _ _ hx).1
  · cases h

theorem nd_ok : ∀ c ∈ ndTxs.flatten, (TransactionV1.codec exCrypto).ok c := by
  have h : ∀ c ∈ ndTxs.flatten, (TransactionV1.codec exCrypto).decodeAll ((TransactionV1.codec exCrypto).enc c) = some c := by
    decide +kernel
  exact fun c hc => ok_of_decode (TransactionV1.lawful _) (h c hc)

theorem nd_signed : ∀ c ∈ ndTxs.flatten.map ndSigned, (SignedTransaction.codec exCrypto).ok c := by
  have h : ∀ c ∈ ndTxs.flatten.map ndSigned,
      (SignedTransaction.codec exCrypto).decodeAll ((SignedTransaction.codec exCrypto).enc c) = some c := by
    decide +kernel
  exact fun c hc => ok_of_decode (SignedTransaction.lawful _) (h c hc)

theorem nd_rewards : ∀ r ∈ ndRewards, ∀ o ∈ r.outputs, (TxOutput.codec exCrypto).ok o := by
  have h : ∀ r ∈ ndRewards, ∀ o ∈ r.outputs, (TxOutput.codec exCrypto).decodeAll ((TxOutput.codec exCrypto).enc o) = some o := by
    decide +kernel
  exact fun r hr o ho => ok_of_decode (TxOutput.lawful _) (h r hr o ho)

theorem nd_enforces : ndNode.Enforces ndEnv := Node.enforces_envOf nd_signed nd_rewards

theorem nd_written : Node.Written ndNode ndChain ndTxs := by
  refine ⟨?_, nd_ok⟩
  have h : (List.range 4).all (fun i => decide (((ndTxs.getD i []).filterMap (ndNode.tx ⟨0, 0, 0⟩)).map some =
    (ndTxs.getD i []).map (ndNode.tx ⟨0, 0, 0⟩))) = true := by decide +kernel
  simp only [List.all_eq_true, decide_eq_true_eq, List.mem_range] at h
  exact .cons (h 0 (by decide)) (.cons (h 1 (by decide)) (.cons (h 2 (by decide)) (.cons (h 3 (by decide)) .nil)))

theorem nd_noClash : Node.NoClash ndNode ndTxs.flatten := by
  have h : ∀ x ∈ ndTxs.flatten.flatMap (Node.hashedFor exCrypto), ∀ y ∈ ndTxs.flatten.flatMap (Node.hashedFor exCrypto),
      toyHash x = toyHash y → x = y := by decide +kernel
  exact fun x hx y hy hc => hc.1 (h x hx y hy hc.2)

theorem nd_origin : Node.Origin ndGenesis where
  utxo o h := by
    cases hk : ndGenesis.utxo.utxos.get o with
    | none => exact absurd hk h
    | some v =>
      have hm := BMap.mem_entries.2 hk
      have : ∀ e ∈ ndGenesis.utxo.utxos.entries, ∃ j < 4, e.1 = rewardOut ndGenesis.utxo.best j := by decide +kernel
      obtain ⟨j, -, e⟩ := this _ hm
      exact ⟨j, e⟩
  orders _ := rfl
  nfts _ := rfl
  undo _ := ⟨rfl, rfl, rfl, rfl⟩

theorem ndGenesis_wf : ndGenesis.WF := by
  refine ⟨?_, ?_, ?_, ?_, ?_, ?_, ?_, ?_⟩ <;> intros <;> simp_all [ndGenesis, Verifier.exGenesis, Accounting.bal, Orders.Sound]

/-- the balances stay in range while the blocks are connected -/
def chainInRangeB (env : Env) (l : Ledger) : List Block → Bool
  | [] => true
  | b :: bs => (Verifier.blockTrace env (Verifier.TxVerifier.new l.base) b).all Verifier.readableB &&
    match l.connect env b with
    | .ok l1 => chainInRangeB env l1 bs
    | .error _ => true

theorem inRange_chain {env : Env} : ∀ {bs : List Block} {l : Ledger}, chainInRangeB env l bs = true → Verifier.ChainInRange env l bs
  | [], _, _ => trivial
  | b :: bs, l, h => by
    simp only [chainInRangeB, Bool.and_eq_true] at h
    refine ⟨Verifier.inRange_of h.1, fun l1 h1 => inRange_chain ?_⟩
    simpa [h1] using h.2

theorem nd_inRange : Verifier.ChainInRange ndEnv ndGenesis ndChain := inRange_chain (by decide +kernel)

-- 40000 coins before; 51 + 52 + 53 + 54 coins of subsidy; 150 coins destroyed by fees for the issuance and the change of supply

example : ndGenesis.holds ndNode.read 0 = 40000 := by decide +kernel
example : (ndGenesis.connects ndEnv ndChain).toOption.map (fun l =>
    [l.holds ndNode.read 0, l.holds ndNode.read (num ndToken + 1), l.supply (num ndToken)]) = some [40060, 500, 500] := by
  decide +kernel

example : (ndChain.map (Block.destroyed ndNode.read ndNode.fees 0)).sum = 150 := by decide +kernel

example : ∃ l', ndGenesis.connects ndEnv ndChain = .ok l' ∧ ndTxs.flatten.Nodup ∧ l'.holds ndNode.read 0 + 150 ≤ 40000 + 210 := by
  cases h : ndGenesis.connects ndEnv ndChain with
  | error e =>
    have : (ndGenesis.connects ndEnv ndChain).toOption.isSome = true := by decide +kernel
    rw [h] at this; simp [Except.toOption] at this
  | ok l' =>
    have hi : (ndGenesis.utxo.best :: ndChain.map Block.id).Nodup := by decide +kernel
    refine ⟨l', rfl, (Node.C55_no_replay nd_enforces nd_written nd_noClash nd_origin hi h).1, ?_⟩
    have := Node.C55_no_inflation nd_enforces nd_written nd_noClash nd_origin hi ⟨rfl, rfl, rfl, rfl, trivial⟩ ndGenesis_wf nd_inRange h
    have e1 : (ndChain.map (Block.destroyed ndNode.read ndNode.fees 0)).sum = 150 := by decide +kernel
    have e2 : (ndChain.map fun b => (ndNode.subsidy b.height : Int)).sum = 210 := by decide +kernel
    have e3 : ndGenesis.holds ndNode.read 0 = 40000 := by decide +kernel
    rw [e1, e2, e3] at this
    exact this

end Verif.Policy
