import Verif.Verifier.ValueBlock
import Verif.Verifier.Props
import Verif.Reward.Props
import Verif.Emission.Props

/-!
# C52: value does not come from nowhere
-/

set_option maxRecDepth 100000

namespace Verif.Verifier
open Verif
open Verif.Utxo (OutPoint Coin Output txOut rewardOut)
open Verif.Accumulator (Cur TxOutput val)

section
variable {env : Env} {read : Nat → TxOutput} {cfgOf : Src → Accumulator.Config} {feeOf : Nat → Accumulator.Acc}
  {subsidy : Nat → Nat}

/-- sum over the transactions of a block -/
def Block.sum (f : Tx → Int) (b : Block) : Int := (b.txs.map f).sum

/-- what the transactions of a block destroy: burned value and fees charged for outputs and commands -/
def Block.destroyed (read : Nat → TxOutput) (cfgOf : Src → Accumulator.Config) (c : Cur) (b : Block) : Int :=
  b.sum (fun t => t.burns read (cfgOf b.src) c + t.charged (cfgOf b.src) c)

/-- an NFT with this id is registered -/
def Ledger.nftCount (l : Ledger) (id : Nat) : Nat := if (l.nfts.get id).isSome then 1 else 0

/-- no token has more units than its fixed cap -/
def Ledger.CapOk (l : Ledger) : Prop :=
  ∀ id d limit, l.tokens.data.get id = some d → d.totalSupply = .fixed limit → l.supply id ≤ limit

theorem block_value {l l' : Ledger} {b : Block} (hg : ValueGuards env read cfgOf feeOf subsidy) (hw : l.WF) (hf : Fresh l b)
    (hr : InRange env l b) (hd : Described read b) (h : l.connect env b = .ok l') :
    (∃ v1 fees maturity n, connectTxs env b.src (TxVerifier.new l.base) b.txs = .ok (v1, fees) ∧
      feesOf feeOf maturity fees = .ok n ∧
      ∀ c, ∃ reward : Int,
        l'.holds read c + b.destroyed read cfgOf c + (fees.map fun f => ((feeOf f).total c : Int)).sum =
          l.holds read c + b.sum (Tx.minted c) + b.sum (Tx.nfts read c) + reward ∧
        (reward ≤ if c = 0 then ((n + subsidy b.height : Nat) : Int) else 0) ∧
        (b.pos = true → reward = if c = 0 then ((n + subsidy b.height : Nat) : Int) else 0)) ∧
    (∀ id, (l.supply id : Int) + b.sum (Tx.minted (id + 1)) ≤ l'.supply id + b.destroyed read cfgOf (id + 1)) ∧
    (l.CapOk → l'.CapOk) ∧ ∀ id, (l'.nftCount id : Int) = l.nftCount id + b.sum (Tx.nfts read (id + 1)) := by
  simp only [Ledger.connect, bind_eq_ok] at h
  obtain ⟨v, h1, h2⟩ := h
  have hl := hw.rep
  have hno : NoUndo l.base (chain b.id) := by
    refine ⟨?_, ?_, ?_, ?_⟩
    · simp [Ledger.base, utxoOfStore, hf.utxoUndo]
    · simp [Ledger.base, ofStore, hf.posUndo]
    · simp [Ledger.base, ofStore, hf.tokensUndo]
    · simp [Ledger.base, ofStore, hf.ordersUndo]
  obtain ⟨s1, us', a1, a2, a3, -⟩ := connectBlock_spec h1 hr hno hl.new
    ⟨UURep.empty hno.utxo, URep.empty hno.pos, URep.empty hno.tokens, URep.empty hno.orders⟩
    (fun tx ht => ⟨hf.utxo tx ht, rfl, rfl, rfl, rfl, hf.nft tx ht, fun _ _ hd => hd.elim⟩) hf.nodup hf.reward hf.inputs
  obtain ⟨l1, b1, b2, -⟩ := flush_spec hl a3 a1 a2
  rw [h2] at b1
  cases b1
  obtain ⟨s', r, ⟨v1, fees, mt, n, c1, c2, c3⟩, c4, c5, c6⟩ := connectBlock_value hg h1 hr hl.new hf.utxo hf.nodup hf.reward hd
  obtain rfl := a1.inj r
  refine ⟨⟨v1, fees, mt, n, c1, c2, fun c => ?_⟩, ?_, ?_, ?_⟩
  · obtain ⟨δ, rw', m, e, e2⟩ := c3 c
    refine ⟨rw', ?_, e2⟩
    rw [hl.holds b2 m]
    simp only [Block.destroyed, Block.sum, sum_add]
    omega
  · intro id
    have := c4 id
    have x : l'.supply id = s1.tokens.supply id := b2.tokens.supply id
    have y : l.supply id = l.st.tokens.supply id := rfl
    have z : (b.txs.map (Tx.charged (cfgOf b.src) (id + 1))).sum = 0 := by
      apply sum_eq_zero
      intro t _
      apply sum_eq_zero
      intro i _
      cases i.toAcc <;> simp [Accumulator.commandFee]
    rw [x, y]
    simp only [Block.destroyed, Block.sum, sum_add, z]
    omega
  · intro hc id d limit hd' hf'
    have x : l'.supply id = s1.tokens.supply id := b2.tokens.supply id
    rw [x]
    exact c5 hc id d limit (by rw [← b2.tokens.data id]; exact hd') hf'
  · intro id
    have := c6 id
    unfold nftCount at this
    unfold Ledger.nftCount
    rw [b2.nft]
    exact this

/-- **C52** (blocks, exact).  For every block connected to a stored state and every currency: what the ledger holds
afterwards, what the transactions of the block destroyed and what they left as fees add up to what the ledger held before,
what was minted and issued, and the block reward.  The reward is in coins only; it never exceeds the fees paid out and the
subsidy of the height, and is exactly that in blocks made by staking. -/
theorem C52_block {l l' : Ledger} {b : Block} (hg : ValueGuards env read cfgOf feeOf subsidy) (hw : l.WF) (hf : Fresh l b)
    (hr : InRange env l b) (hd : Described read b) (h : l.connect env b = .ok l') :
    ∃ v1 fees maturity n, connectTxs env b.src (TxVerifier.new l.base) b.txs = .ok (v1, fees) ∧
      feesOf feeOf maturity fees = .ok n ∧
      ∀ c, ∃ reward : Int,
        l'.holds read c + b.destroyed read cfgOf c + (fees.map fun f => ((feeOf f).total c : Int)).sum =
          l.holds read c + b.sum (Tx.minted c) + b.sum (Tx.nfts read c) + reward ∧
        (reward ≤ if c = 0 then ((n + subsidy b.height : Nat) : Int) else 0) ∧
        (b.pos = true → reward = if c = 0 then ((n + subsidy b.height : Nat) : Int) else 0) :=
  (block_value hg hw hf hr hd h).1

theorem minted_coins (t : Tx) : t.minted 0 = 0 := by
  apply sum_eq_zero
  intro i _
  unfold mintedBy
  split <;> simp

theorem nfts_coins (t : Tx) : t.nfts read 0 = 0 := by
  apply sum_eq_zero
  intro o _
  unfold nftBy
  split <;> simp

/-- one block, without the fees -/
theorem block_bound {l l' : Ledger} {b : Block} (hg : ValueGuards env read cfgOf feeOf subsidy) (hw : l.WF) (hf : Fresh l b)
    (hr : InRange env l b) (hd : Described read b) (h : l.connect env b = .ok l') (c : Cur) :
    l'.holds read c + b.destroyed read cfgOf c ≤ l.holds read c + b.sum (Tx.minted c) + b.sum (Tx.nfts read c) +
      if c = 0 then (subsidy b.height : Int) else 0 := by
  obtain ⟨v1, fees, mt, n, h1, h2, h3⟩ := C52_block hg hw hf hr hd h
  obtain ⟨r, e1, e2, -⟩ := h3 c
  have hn := feesOf_le h2
  have hs := sum_nat (fun f => (feeOf f).total c) fees
  split at e2
  · rename_i hc
    subst hc
    push_cast at e2
    simp only [if_true]
    omega
  · rename_i hc
    simp only [hc, if_false]
    omega

/-- **C52** (no inflation).  However long the chain, the coins in existence never exceed those before it plus the subsidies
of its blocks, less everything that was destroyed. -/
theorem C52_no_inflation (hg : ValueGuards env read cfgOf feeOf subsidy) : ∀ (bs : List Block) {l l' : Ledger}, l.WF →
    NewChain l bs → ChainInRange env l bs → (∀ b ∈ bs, Described read b) → l.connects env bs = .ok l' →
    l'.holds read 0 + (bs.map (Block.destroyed read cfgOf 0)).sum ≤
      l.holds read 0 + (bs.map fun b => (subsidy b.height : Int)).sum
  | [], l, l', _, _, _, _, h => by cases h; simp
  | b :: bs, l, l', hw, hn, hr, hd, h => by
    simp only [Ledger.connects, bind_eq_ok] at h
    obtain ⟨l1, h1, h2⟩ := h
    obtain ⟨w1, n1, -⟩ := connect_step hw hn hr.1 h1
    have i := C52_no_inflation hg bs w1 n1 (hr.2 l1 h1) (fun x hx => hd x (by simp [hx])) h2
    have j := block_bound hg hw hn.fresh hr.1 (hd b (by simp)) h1 0
    have m : b.sum (Tx.minted 0) = 0 := sum_eq_zero fun t _ => minted_coins t
    have k : b.sum (Tx.nfts read 0) = 0 := sum_eq_zero fun t _ => nfts_coins t
    simp only [m, k, if_true] at j
    simp only [List.map_cons, List.sum_cons]
    omega

/-- **C52** (tokens).  However long the chain, the units of a token in existence exceed its recorded supply (plus one if
its id was registered for an NFT) by no more than before. -/
theorem C52_token_units (hg : ValueGuards env read cfgOf feeOf subsidy) (id : Nat) : ∀ (bs : List Block) {l l' : Ledger},
    l.WF → NewChain l bs → ChainInRange env l bs → (∀ b ∈ bs, Described read b) → l.connects env bs = .ok l' →
    l'.holds read (id + 1) - l'.supply id - l'.nftCount id ≤ l.holds read (id + 1) - l.supply id - l.nftCount id
  | [], l, l', _, _, _, _, h => by cases h; exact le_refl _
  | b :: bs, l, l', hw, hn, hr, hd, h => by
    simp only [Ledger.connects, bind_eq_ok] at h
    obtain ⟨l1, h1, h2⟩ := h
    obtain ⟨w1, n1, -⟩ := connect_step hw hn hr.1 h1
    have i := C52_token_units hg id bs w1 n1 (hr.2 l1 h1) (fun x hx => hd x (by simp [hx])) h2
    have j := block_bound hg hw hn.fresh hr.1 (hd b (by simp)) h1 (id + 1)
    obtain ⟨-, k1, -, k2⟩ := block_value hg hw hn.fresh hr.1 (hd b (by simp)) h1
    have k1 := k1 id
    have k2 := k2 id
    simp only [Nat.add_eq_zero_iff, Nat.one_ne_zero, and_false, if_false] at j
    omega

theorem caps_kept (hg : ValueGuards env read cfgOf feeOf subsidy) : ∀ (bs : List Block) {l l' : Ledger},
    l.WF → NewChain l bs → ChainInRange env l bs → (∀ b ∈ bs, Described read b) → l.connects env bs = .ok l' →
    l.CapOk → l'.CapOk
  | [], l, l', _, _, _, _, h => by cases h; exact fun h => h
  | b :: bs, l, l', hw, hn, hr, hd, h => by
    simp only [Ledger.connects, bind_eq_ok] at h
    obtain ⟨l1, h1, h2⟩ := h
    obtain ⟨w1, n1, -⟩ := connect_step hw hn hr.1 h1
    intro hc
    exact caps_kept hg bs w1 n1 (hr.2 l1 h1) (fun x hx => hd x (by simp [hx])) h2
      ((block_value hg hw hn.fresh hr.1 (hd b (by simp)) h1).2.2.1 hc)

/-- **C52** (caps and NFTs).  Starting from a ledger without tokens, on every chain: of a token issued with a fixed total
supply there are never more units than that (one more if an NFT was registered under the same id, which needs a collision of
ids); and of an id that is no fungible token and was never minted there is at most the one unit registered as an NFT. -/
theorem C52_token_caps (hg : ValueGuards env read cfgOf feeOf subsidy) {bs : List Block} {l l' : Ledger} (hw : l.WF)
    (hn : NewChain l bs) (hr : ChainInRange env l bs) (hd : ∀ b ∈ bs, Described read b) (h : l.connects env bs = .ok l')
    (h0 : ∀ id, l.holds read (id + 1) = 0 ∧ l.tokens.data.get id = none ∧ l.supply id = 0 ∧ l.nfts.get id = none) (id : Nat) :
    (∀ d limit, l'.tokens.data.get id = some d → d.totalSupply = .fixed limit →
      l'.holds read (id + 1) ≤ limit + l'.nftCount id) ∧
    (l'.supply id = 0 → l'.holds read (id + 1) ≤ l'.nftCount id) := by
  have hu := C52_token_units hg id bs hw hn hr hd h
  obtain ⟨a1, a2, a3, a4⟩ := h0 id
  have hz : l.nftCount id = 0 := by unfold Ledger.nftCount; rw [a4]; rfl
  rw [a1, a3, hz] at hu
  refine ⟨fun d limit hd' hf => ?_, fun hs => ?_⟩
  · have := caps_kept hg bs hw hn hr hd h (by
      intro i d limit hd''
      rw [(h0 i).2.1] at hd''; cases hd'') id d limit hd' hf
    omega
  · omega

/-- **C52** (reorganizations).  The bound holds for whatever the node has stored after any history of connecting and
disconnecting blocks. -/
theorem C52_after_reorganizations (hg : ValueGuards env read cfgOf feeOf subsidy) {l0 l : Ledger} {bs : List Block}
    (hw : l0.WF) (hd : ∀ b ∈ bs, Described read b)
    (h : Reaches env l0 (fun bs => NewChain l0 bs ∧ ChainInRange env l0 bs) bs l) :
    l.holds read 0 + (bs.map (Block.destroyed read cfgOf 0)).sum ≤
      l0.holds read 0 + (bs.map fun b => (subsidy b.height : Int)).sum := by
  obtain ⟨h1 | rfl, h2⟩ := reaches_connects hw h
  · exact C52_no_inflation hg bs hw h1.1 h1.2 hd h2
  · cases h2; simp

end

theorem sum_nonneg' {α : Type} {f : α → Int} : ∀ {l : List α}, (∀ x ∈ l, 0 ≤ f x) → 0 ≤ (l.map f).sum
  | [], _ => by simp
  | x :: l, h => by
    have := sum_nonneg' (f := f) (l := l) fun y hy => h y (by simp [hy])
    have := h x (by simp)
    simp only [List.map_cons, List.sum_cons]
    omega

/-- nothing is destroyed in negative amounts -/
theorem destroyed_nonneg (read : Nat → TxOutput) (cfgOf : Src → Accumulator.Config) (c : Cur) (b : Block) :
    0 ≤ b.destroyed read cfgOf c := by
  refine sum_nonneg' fun t _ => ?_
  have h1 : 0 ≤ t.burns read (cfgOf b.src) c := sum_nonneg' fun _ _ => Int.natCast_nonneg _
  have h2 : 0 ≤ t.charged (cfgOf b.src) c := sum_nonneg' fun _ _ => Int.natCast_nonneg _
  omega

/-! ### Mainnet -/

theorem subsidies_sum {t : Emission.Table} {sub : Nat → Nat} (hs : ∀ h, 0 < h → Emission.subsidy t h = .ok (sub h)) :
    ∀ (n : Nat) {a : Nat}, Emission.amountAt t n = .ok a →
      ∃ a0, Emission.amountAt t 0 = .ok a0 ∧ a = a0 + ((List.range n).map fun i => sub (i + 1)).sum
  | 0, a, h => ⟨a, h, by simp⟩
  | n + 1, a, h => by
    have e := hs (n + 1) (by omega)
    simp only [Emission.subsidy, bind_eq_ok, okOr_eq_ok] at e
    obtain ⟨p, hp, x, hx, y, hy, hxy⟩ := e
    have hp : p = n := by
      unfold Amt.sub at hp
      simp at hp
      exact hp.symm
    subst hp
    rw [h] at hx; cases hx
    obtain ⟨a0, h0, e0⟩ := subsidies_sum hs p hy
    refine ⟨a0, h0, ?_⟩
    have hle : a = y + sub (p + 1) := by
      unfold Amt.sub at hxy
      split at hxy
      · have := Option.some.inj hxy; omega
      · cases hxy
    rw [List.range_succ, List.map_append, List.sum_append, hle, e0]
    simp
    omega

/-- **C52** (mainnet).  From a first ledger with at most the initial supply, with the subsidies of mainnet and blocks at
heights 1, 2, 3, …, there are never more than 599,990,800 coins. -/
theorem C52_mainnet {env : Env} {read : Nat → TxOutput} {cfgOf : Src → Accumulator.Config} {feeOf : Nat → Accumulator.Acc}
    {sub : Nat → Nat} (hg : ValueGuards env read cfgOf feeOf sub)
    (hs : ∀ h, 0 < h → Emission.subsidy (Emission.mainnetTable 120) h = .ok (sub h)) {bs : List Block} {l l' : Ledger}
    (hw : l.WF) (hn : NewChain l bs) (hr : ChainInRange env l bs) (hd : ∀ b ∈ bs, Described read b)
    (hh : bs.map Block.height = (List.range bs.length).map (· + 1)) (h : l.connects env bs = .ok l')
    (h0 : l.holds read 0 ≤ (Emission.coins 400000000 : Nat)) :
    l'.holds read 0 ≤ (Emission.coins 599990800 : Nat) := by
  have hb := C52_no_inflation hg bs hw hn hr hd h
  obtain ⟨a, ha, hle, -⟩ := Emission.C27_mainnet_total.2 bs.length
  obtain ⟨a0, h1, h2⟩ := subsidies_sum hs bs.length ha
  have e0 : Emission.amountAt (Emission.mainnetTable 120) 0 = .ok (Emission.coins 400000000) := by rfl
  rw [h1] at e0
  cases e0
  have e1 : (bs.map fun b => (sub b.height : Int)).sum = (((List.range bs.length).map fun i => sub (i + 1)).sum : Nat) := by
    rw [sum_nat]
    have : (bs.map fun b => (sub b.height : Int)) = (bs.map Block.height).map fun h => (sub h : Int) := by
      rw [List.map_map]; rfl
    rw [this, hh, List.map_map]
    rfl
  have e2 : 0 ≤ (bs.map (Block.destroyed read cfgOf 0)).sum := sum_nonneg' fun b _ => destroyed_nonneg read cfgOf 0 b
  rw [e1] at hb
  generalize Emission.coins 400000000 = A at *
  generalize Emission.coins 599990800 = B at *
  omega

/-! ### The staking reward is what the guard says -/

/-- **C52** (staking rewards).  The distribution of a staking reward performs a plan that pays out exactly the reward – so
the guard about plans is met by it. -/
theorem C52_distribution_plan {c c' : Pos.Cache} {p total : Nat} {ver : Reward.Version} {us : List Pos.Undo}
    {o : Option (BMap Nat Nat)} (ho : c.view.shares p = .ok o) (h : Reward.distribute c p total ver = .ok (c', us)) :
    ∃ plan : Plan, plan.pool = p ∧ plan.total = total ∧ History.run Pos.step c plan.ops = .ok (c', us) := by
  obtain ⟨d, b, s, c1, us1, u, h1, h2, h3, h4, h5, h6, rfl⟩ := Reward.distribute_ok ho h
  have r1 := Reward.delegateAll_run h5
  have r2 : History.run Pos.step c1 [Pos.Op.increaseStakerRewards p (total - Reward.parts o (total - s))] = .ok (c', [u]) := by
    simp only [History.run, bind_eq_ok, pure_eq_ok]
    exact ⟨(c', u), h6, (c', []), rfl, rfl⟩
  have hm : ∃ m : BMap Nat Nat, m.entries = Reward.payouts o (total - s) := by
    cases o with
    | none => exact ⟨BMap.empty, rfl⟩
    | some m =>
      exact ⟨(m.mapV fun k _ => Reward.part (some m) (total - s) k).filter fun _ x => decide (x > 0), rfl⟩
  obtain ⟨m, hm⟩ := hm
  refine ⟨⟨m, p, total - Reward.parts o (total - s)⟩, rfl, ?_, ?_⟩
  · have hp := Reward.parts_le o (total - s)
    have : m.sumV (fun _ n => n) = Reward.parts o (total - s) := by
      rw [← Reward.payouts_sum, ← hm]
      rfl
    simp only [Plan.total, this]
    omega
  · simp only [Plan.ops, hm]
    exact Reward.run_append r1 r2

/-! ### A concrete case

A chain with a pool, delegations, a token that is issued, minted, burned, an NFT, an order that is filled and a staking
reward; the guards are checks that are actually carried out. -/

section Example

/-- the outputs of the example: numbers below 100000 are coins to be transferred -/
def vlRead (n : Nat) : TxOutput :=
  if n < 100000 then .transfer (.coin n)
  else if n = 100000 then .createStakePool 7 1000
  else if n = 100001 then .produceBlockFromStake 7
  else if n = 100002 then .createDelegationId
  else if n = 100003 then .delegateStaking 100
  else if n = 100004 then .issueFungibleToken
  else if n = 100005 then .issueNft 40
  else if n = 100006 then .createOrder ⟨6, .tokenV1 20 50, .coin 100, false⟩
  else if n = 100007 then .burn (.tokenV1 20 30)
  else if n < 200000 then .lockThenTransfer (.coin (n - 100100)) (.forBlockCount 100)
  else .transfer (.tokenV1 20 (n - 200000))

def vlSubsidy (h : Nat) : Nat := 50 + h

/-- fees of less than 1000 coins; the accumulators may also hold empty entries for token 20 and for coins that stay
locked for 100 blocks -/
def vlFee (n : Nat) : Accumulator.Acc :=
  ⟨if n / 1000 % 2 = 1 then (BMap.empty.insert 0 (n % 1000)).insert 21 0 else BMap.empty.insert 0 (n % 1000),
    if n / 2000 = 1 then BMap.empty.insert 100 0 else BMap.empty⟩

def spendableB : TxOutput → Bool
  | .transfer _ | .lockThenTransfer _ _ | .createStakePool _ _ | .produceBlockFromStake _ | .issueNft _ | .htlc _ => true
  | _ => false

theorem spendable_of {o : TxOutput} (h : spendableB o = true) : Spendable o := by
  cases o <;> simp_all [spendableB, Spendable]

def isFillV0 : Input → Bool
  | .orderV0 _ (.fill _ _) => true
  | _ => false

/-- the balance of a transaction -/
def vlBalance (w : Views) (t : Tx) : Except Accumulator.Err Accumulator.Acc := do
  let i ← Accumulator.fromInputs Accumulator.exCfg w.orders w.pos w.tokens (t.inputs.map Input.toAcc)
    (t.inputs.map (spent vlRead w))
  let o ← Accumulator.fromOutputs Accumulator.exCfg (t.outputs.map fun o => vlRead o.out.content)
  Accumulator.satisfyWith i o

/-- what is left of a block reward of `n` coins and the subsidy -/
def vlRest (b : Block) (n : Nat) : Option Accumulator.Acc := do
  let i ← Accumulator.fromBlockReward n (vlSubsidy b.height)
  let o ← (Accumulator.fromOutputs Accumulator.exCfg ((b.reward.outputs.getD []).map fun o => vlRead o.content)).toOption
  (Accumulator.satisfyWith i o).toOption

def isLocked : TxOutput → Bool
  | .lockThenTransfer _ _ => true
  | _ => false

def vlCheckReward (w : Views) (b : Block) (fees : List Nat) : Bool :=
  match feesOf vlFee 10 fees with
  | .error _ => false
  | .ok n =>
    ((b.reward.inputs.getD []).all fun k => match k with
      | some k => match w.utxo k with
        | some x => (poolIn (vlRead x.output.content)).isSome
        | none => true
      | none => true) &&
    bif b.pos then (b.reward.outputs.getD []).all fun o => (poolIn (vlRead o.content)).isSome
    else (vlRest b n).isSome && (b.reward.outputs.getD []).all fun o => isLocked (vlRead o.content)

def vlEnv : Env where
  checkTx := fun _ t => decide ((t.outputs.filterMap fun o => o.effect.nft).length ≤ 1) && t.inputs.all (fun i => !isFillV0 i)
  checkInputs := fun w _ t =>
    if (t.inputs.filter Input.isCommand).length ≤ 1 ∧ (t.inputs.all fun i => ((spent vlRead w i).map spendableB).getD true) then
      match vlBalance w t with
      | .ok a => ((List.range 4).map fun k => 1000 * k + Accumulator.amt a.unc 0).find? fun f => decide (a = vlFee f)
      | .error _ => none
    else none
  checkFrozen := fun _ _ _ => true
  checkPool := fun _ _ _ => true
  poolOf := fun n => poolIn (vlRead n)
  checkReward := vlCheckReward
  plan := fun _ b fees => match feesOf vlFee 10 fees with
    | .ok n => some ⟨BMap.ofList [(8, 5)], 7, n + vlSubsidy b.height - 5⟩
    | .error _ => none

theorem guards_vlEnv : ValueGuards vlEnv vlRead (fun _ => Accumulator.exCfg) vlFee vlSubsidy where
  pool := fun _ => rfl
  oneNft := by
    intro s t h
    simp only [vlEnv, Bool.and_eq_true, decide_eq_true_eq] at h
    exact h.1
  fillV0 := by
    intro s t n id a h hm
    simp only [vlEnv, Bool.and_eq_true, List.all_eq_true] at h
    have := h.2 _ hm
    simp [isFillV0] at this
  fillV1 := fun _ _ _ _ _ _ => rfl
  oneCommand := by
    intro w s t f h
    simp only [vlEnv] at h
    split at h
    · rename_i h0; exact h0.1
    · cases h
  kinds := by
    intro w s t f h i hi o ho
    simp only [vlEnv] at h
    split at h
    · rename_i h0
      have := List.all_eq_true.1 h0.2 i hi
      rw [ho] at this
      exact spendable_of this
    · cases h
  adds := by
    intro w s t f h
    simp only [vlEnv] at h
    split at h
    · split at h
      · rename_i a ha
        have e : a = vlFee f := by simpa using List.find?_some h
        simp only [vlBalance, bind_eq_ok] at ha
        obtain ⟨i, h1, o, h2, h3⟩ := ha
        exact ⟨i, o, h1, h2, by rw [← e]; exact h3⟩
      · cases h
    · cases h
  reward := by
    intro w b fees h
    simp only [vlEnv, vlCheckReward] at h ⊢
    cases hn : feesOf vlFee 10 fees with
    | error e => simp [hn] at h
    | ok n =>
      simp only [hn, Bool.and_eq_true, List.all_eq_true] at h
      refine ⟨10, n, hn, ?_, ?_, ?_⟩
      · intro is his k x hk hx
        have := h.1 (some k) (by rw [Option.mem_def.1 his]; exact hk)
        simpa [hx] using this
      · intro hp
        simp only [hp, cond_true, List.all_eq_true] at h
        refine ⟨fun os hos o ho => h.2 o (by rw [Option.mem_def.1 hos]; exact ho), ?_⟩
        intro w' p hpl
        cases hpl
        have : (BMap.ofList [((8 : Nat), (5 : Nat))]).sumV (fun _ n => n) = 5 := by decide
        simp only [Plan.total, this, vlSubsidy]
        omega
      · intro hp
        simp only [hp, cond_false, Bool.and_eq_true, List.all_eq_true] at h
        obtain ⟨r, hr⟩ := Option.isSome_iff_exists.1 h.2.1
        simp only [vlRest, Option.bind_eq_bind, Option.bind_eq_some_iff] at hr
        obtain ⟨i, h1, o, h2, h3⟩ := hr
        refine ⟨Accumulator.exCfg, i, o, r, h1, ?_, ?_, ?_⟩
        · revert h2
          cases Accumulator.fromOutputs Accumulator.exCfg ((b.reward.outputs.getD []).map fun o => vlRead o.content) <;>
            simp [Except.toOption]
        · revert h3
          cases Accumulator.satisfyWith i o <;> simp [Except.toOption]
        · intro os hos o ho
          have := h.2.2 o (by rw [Option.mem_def.1 hos]; exact ho)
          revert this
          cases vlRead o.content <;> simp [isLocked]

def vlGenesis : Ledger :=
  { exGenesis with utxo := ⟨BMap.ofList ((List.range 8).map fun j => (txOut 0 j, ⟨coin 2000, 0⟩)), 0⟩ }

def vlTx1 : Tx := ⟨1, [.utxo (txOut 0 0)], [⟨coin 100000, .createPool 7 pool7⟩, ⟨⟨false, 100002⟩, .createDelegation 7 8 3⟩,
  ⟨coin 990, .none⟩]⟩
def vlTx2 : Tx := ⟨2, [.utxo (txOut 0 1)], [⟨⟨false, 100004⟩, .issueToken 20 ⟨1, 2, 3, .fixed 600, 5, true⟩⟩,
  ⟨⟨false, 100006⟩, .createOrder 30 ⟨6, .tokenV1 20 50, .coin 100, false⟩⟩, ⟨coin 1870, .none⟩]⟩
def vlTx3 : Tx := ⟨3, [.utxo (txOut 0 2)], [⟨coin 100005, .issueNft 40⟩, ⟨coin 1900, .none⟩]⟩
def vlBlock1 : Block := ⟨101, 0, 1, [vlTx1, vlTx2, vlTx3], ⟨none, some [coin (100100 + 150)]⟩, false⟩

def vlTx4 : Tx := ⟨4, [.utxo (txOut 0 3)], [⟨⟨false, 100003⟩, .delegate 8 100⟩, ⟨coin 1890, .none⟩]⟩
def vlTx5 : Tx := ⟨5, [.token 0 (.mint 20 500), .utxo (txOut 1 2)],
  [⟨coin 200400, .none⟩, ⟨coin 200070, .none⟩, ⟨⟨false, 100007⟩, .burnToken 20 30⟩, ⟨coin 970, .none⟩]⟩
def vlTx6 : Tx := ⟨6, [.order (.fill 30 20), .utxo (txOut 5 0)], [⟨coin 200380, .none⟩, ⟨coin 40, .none⟩]⟩
def vlTx7 : Tx := ⟨7, [.account 0 8 40, .utxo (txOut 5 3)], [⟨coin 100140, .none⟩, ⟨coin 960, .none⟩]⟩
def vlBlock2 : Block :=
  ⟨102, 101, 2, [vlTx4, vlTx5, vlTx6, vlTx7], ⟨some [some (txOut 1 0)], some [coin 100001]⟩, true⟩
def vlChain : List Block := [vlBlock1, vlBlock2]

theorem vlGenesis_wf : vlGenesis.WF := by
  refine ⟨?_, ?_, ?_, ?_, ?_, ?_, ?_, ?_⟩ <;> intros <;> simp_all [vlGenesis, exGenesis, Accounting.bal, Orders.Sound]

theorem vlGenesis_none {k : OutPoint} (h : (ofLex (ofLex k).1) ≠ (0, 0)) : vlGenesis.utxo.utxos.get k = none := by
  cases hk : vlGenesis.utxo.utxos.get k with
  | none => rfl
  | some v =>
    have hm := BMap.mem_entries.2 hk
    have : ∀ e ∈ vlGenesis.utxo.utxos.entries, ofLex (ofLex e.1).1 = (0, 0) := by decide +kernel
    exact absurd (this _ hm) h

theorem vlChain_new : NewChain vlGenesis vlChain where
  linked := ⟨rfl, rfl, trivial⟩
  ids := by decide +kernel
  txs := by decide +kernel
  inputs := by
    intro b hb
    simp only [vlChain, List.mem_cons, List.not_mem_nil, or_false] at hb
    rcases hb with rfl | rfl <;> simp [vlBlock1, vlBlock2, Utxo.Reward.utxoInputs]
  utxo := by
    intro id hi j
    refine vlGenesis_none ?_
    have : id ≠ 0 := by
      revert id
      decide +kernel
    simp [txOut, this]
  reward := by
    intro b hb j
    refine vlGenesis_none ?_
    simp [rewardOut]
  nft := fun _ _ => rfl
  undo := fun _ _ => ⟨rfl, rfl, rfl, rfl⟩

theorem vlChain_inRange : ChainInRange vlEnv vlGenesis vlChain := by
  refine ⟨inRange_of (by decide +kernel), fun l1 h1 => ⟨inRange_of ?_, fun _ _ => trivial⟩⟩
  have : ∀ l1 ∈ (vlGenesis.connect vlEnv vlBlock1).toOption,
      (blockTrace vlEnv (TxVerifier.new l1.base) vlBlock2).all readableB = true := by decide +kernel
  exact this l1 (by rw [h1]; rfl)

theorem vlChain_described : ∀ b ∈ vlChain, Described vlRead b := by
  intro b hb t ht o ho
  simp only [vlChain, List.mem_cons, List.not_mem_nil, or_false] at hb
  rcases hb with rfl | rfl <;>
  · simp only [vlBlock1, vlBlock2, List.mem_cons, List.not_mem_nil, or_false] at ht
    rcases ht with rfl | rfl | rfl | rfl <;>
    · simp only [vlTx1, vlTx2, vlTx3, vlTx4, vlTx5, vlTx6, vlTx7, List.mem_cons, List.not_mem_nil, or_false] at ho
      rcases ho with rfl | rfl | rfl | rfl <;> simp [Fits, vlRead, coin, pool7]

-- 16000 coins before; 51 + 52 coins of subsidy; 21 + 5 coins destroyed; 20 coins not claimed by the miner of the first block.
-- Of the 500 units minted of token 20, 30 were burned.  There is one NFT.
example : vlGenesis.holds vlRead 0 = 16000 := by decide +kernel
example : (vlGenesis.connects vlEnv vlChain).toOption.map (fun l =>
    [l.holds vlRead 0, l.holds vlRead 21, (l.supply 20 : Int), l.holds vlRead 41]) = some [16057, 470, 500, 1] := by
  decide +kernel
example : vlChain.map (fun b => b.destroyed vlRead (fun _ => Accumulator.exCfg) 0) = [21, 5] := by decide +kernel

-- the theorems apply
example : ∃ l', vlGenesis.connects vlEnv vlChain = .ok l' ∧ l'.holds vlRead 0 + 26 ≤ 16000 + 103 ∧
    ∀ d, l'.tokens.data.get 20 = some d → d.totalSupply = .fixed 600 → l'.holds vlRead 21 ≤ 600 + l'.nftCount 20 := by
  cases h : vlGenesis.connects vlEnv vlChain with
  | error e =>
    have : (vlGenesis.connects vlEnv vlChain).toOption.isSome = true := by decide +kernel
    rw [h] at this; simp [Except.toOption] at this
  | ok l' =>
    refine ⟨l', rfl, ?_, fun d hd hs => ?_⟩
    · have := C52_no_inflation guards_vlEnv vlChain vlGenesis_wf vlChain_new vlChain_inRange vlChain_described h
      have e1 : (vlChain.map (Block.destroyed vlRead (fun _ => Accumulator.exCfg) 0)).sum = 26 := by decide +kernel
      have e2 : (vlChain.map fun b => (vlSubsidy b.height : Int)).sum = 103 := by decide +kernel
      have e3 : vlGenesis.holds vlRead 0 = 16000 := by decide +kernel
      rw [e1, e2, e3] at this
      exact this
    · refine (C52_token_caps guards_vlEnv vlGenesis_wf vlChain_new vlChain_inRange vlChain_described h ?_ 20).1 d 600 hd hs
      intro id
      refine ⟨?_, rfl, rfl, rfl⟩
      have : (List.range 8).map (fun j => (txOut 0 j, (⟨coin 2000, 0⟩ : Coin))) = vlGenesis.utxo.utxos.entries := by decide +kernel
      simp only [Ledger.holds, BMap.sumV, ← this]
      simp [vlGenesis, exGenesis, worth, vlRead, coin, val, List.range_succ]
      rfl

end Example

end Verif.Verifier
