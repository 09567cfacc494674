import Verif.Verifier.RangeBlock
import Verif.Verifier.Props
import Verif.Verifier.ValueProps

set_option maxRecDepth 100000

/-!
# C57: balances cannot overflow on a chain
-/

namespace Verif.Verifier
open Verif Verif.Accounting
open Verif.Utxo (OutPoint Coin Output txOut rewardOut LInv)
open Verif.Accumulator (Cur TxOutput val)

/-! ## The tables of staking fit together -/

/-- the coins delegated to a pool -/
def Ledger.delegated (l : Ledger) (p : Nat) : Nat :=
  l.pos.delegationData.sumV fun d x => if x.sourcePool = p then bal l.pos.delegationBalances d else 0

/-- The stored tables of staking agree: the share of a delegation in a pool is its balance, in the pool it was made for, and
nothing in others; only known delegations have coins; and a pool has what its owner has in it and what is delegated to it. -/
structure Ledger.StakingOk (l : Ledger) : Prop where
  shares : ∀ p d, bal l.pos.shares (Pos.key p d) = match l.pos.delegationData.get d with
    | some x => if x.sourcePool = p then bal l.pos.delegationBalances d else 0
    | none => 0
  idle : ∀ d, l.pos.delegationData.get d = none → bal l.pos.delegationBalances d = 0
  pools : ∀ p x, l.pos.poolData.get p = some x → bal l.pos.poolBalances p = x.pledge + x.rewards + l.delegated p

theorem delegated_eq {l : Ledger} {p : Nat} (hs : ∀ d, bal l.pos.shares (Pos.key p d) = match l.pos.delegationData.get d with
    | some x => if x.sourcePool = p then bal l.pos.delegationBalances d else 0
    | none => 0) (F : Finset Nat) (hF : ∀ d, d ∉ F → bal l.pos.shares (Pos.key p d) = 0) :
    l.delegated p = ∑ d ∈ F, bal l.pos.shares (Pos.key p d) := by
  have h1 : (l.delegated p : Int) = ∑ d ∈ F ∪ l.pos.delegationData.keys, (bal l.pos.shares (Pos.key p d) : Int) := by
    have e := sumV_keyed (fun d (x : Pos.DelegationData) => ((if x.sourcePool = p then bal l.pos.delegationBalances d else 0 : Nat) : Int))
      l.pos.delegationData (F ∪ l.pos.delegationData.keys) (by intro x hx; simp [hx])
    have e' : (l.delegated p : Int) = l.pos.delegationData.sumV
        (fun d (x : Pos.DelegationData) => ((if x.sourcePool = p then bal l.pos.delegationBalances d else 0 : Nat) : Int)) := by
      unfold Ledger.delegated BMap.sumV
      rw [sum_nat]
    rw [e', e]
    refine Finset.sum_congr rfl fun d _ => ?_
    rw [hs d]
    cases l.pos.delegationData.get d <;> rfl
  have h2 : ∑ d ∈ F, bal l.pos.shares (Pos.key p d) = ∑ d ∈ F ∪ l.pos.delegationData.keys, bal l.pos.shares (Pos.key p d) := by
    refine Finset.sum_subset Finset.subset_union_left fun d _ hd => hF d hd
  rw [h2]
  exact_mod_cast h1

theorem stakingOk_iff (l : Ledger) : l.StakingOk ↔ Pos.Coh l.st.pos := by
  have key : ∀ {l : Ledger}, Pos.Coh l.st.pos → ∀ p d, bal l.pos.shares (Pos.key p d) = match l.pos.delegationData.get d with
    | some x => if x.sourcePool = p then bal l.pos.delegationBalances d else 0
    | none => 0 := by
    intro l h p d
    cases hd : l.pos.delegationData.get d with
    | none => exact h.shareOut p d (by intro x hx; change l.pos.delegationData.get d = _ at hx; rw [hd] at hx; cases hx)
    | some x =>
      simp only
      split
      · rename_i e
        subst e
        exact h.shareIn d x hd
      · rename_i e
        exact h.shareOut p d (by
          intro y hy
          change l.pos.delegationData.get d = _ at hy
          rw [hd] at hy; cases hy; exact e)
  constructor
  · intro h
    refine ⟨?_, ?_, h.idle, ?_⟩
    · intro d x hd
      have := h.shares x.sourcePool d
      change l.pos.delegationData.get d = _ at hd
      rw [hd] at this
      simp only [if_true] at this
      exact this
    · intro p d hd
      have := h.shares p d
      cases hx : l.pos.delegationData.get d with
      | none => rw [hx] at this; exact this
      | some x =>
        rw [hx] at this
        simp only [hd x hx, if_false] at this
        exact this
    · intro p x hp
      have hF : ∀ d, d ∉ l.pos.delegationData.keys → bal l.pos.shares (Pos.key p d) = 0 := by
        intro d hd
        have := h.shares p d
        rw [BMap.mem_keys, Bool.not_eq_true, Option.isSome_eq_false_iff, Option.isNone_iff_eq_none] at hd
        rw [hd] at this
        exact this
      refine ⟨l.pos.delegationData.keys, hF, ?_⟩
      have := h.pools p x hp
      rw [delegated_eq (h.shares p) _ hF] at this
      exact this
  · intro h
    refine ⟨key h, h.idle, ?_⟩
    intro p x hp
    obtain ⟨F, hF, e⟩ := h.pool p x hp
    rw [delegated_eq (key h p) F hF]
    exact e

/-! ## The coins there are bound everything -/

theorem sumV_ge {K V : Type} [LinearOrder K] {g : K → V → Int} {m : BMap K V} (h : ∀ k, 0 ≤ ((m.get k).map (g k)).getD 0)
    (S : Finset K) : ∑ k ∈ S, ((m.get k).map (g k)).getD 0 ≤ m.sumV g := by
  rw [sumV_keyed g m (S ∪ m.keys) Finset.subset_union_right]
  exact Finset.sum_le_sum_of_subset_of_nonneg Finset.subset_union_left fun k _ _ => h k

theorem bounded_start {read : Nat → TxOutput} {l : Ledger} (hw : l.WF) : Bounded read l.st (l.holds read 0) := by
  intro K F G O
  have hl := hw.rep
  have e1 := sumV_ge (m := l.utxo.utxos) (g := fun _ (x : Coin) => (worth 0 (read x.output.content) : Int))
    (fun k => utxoPart_nonneg read 0 l.st.utxo k) K
  have e2 := sumV_ge (m := l.pos.poolData) (g := fun _ (d : Pos.PoolData) => ((d.pledge + d.rewards : Nat) : Int))
    (fun k => ownPart_nonneg l.st.pos.poolData k) F
  have x : (fun k => ((l.pos.delegationBalances.get k).map fun (n : Nat) => (n : Int)).getD 0) = delPart l.st.pos.delBal := by
    funext k
    unfold delPart
    rw [← hl.pos.delBal k]
    unfold Accounting.bal
    cases l.pos.delegationBalances.get k <;> rfl
  have e3 := sumV_ge (m := l.pos.delegationBalances) (g := fun _ (n : Nat) => (n : Int)) (fun k => by
    have := delPart_nonneg l.st.pos.delBal k
    rw [← x] at this; exact this) G
  have y : (fun k => ((l.orders.data.get k).map (fun d =>
      orderHolds 0 d ((l.orders.ask.get k).getD 0) ((l.orders.give.get k).getD 0))).getD 0) = ordPart 0 l.st.orders := by
    funext k
    unfold ordPart
    rw [← hl.orders.data k, ← hl.orders.ask k, ← hl.orders.give k]
    rfl
  have e4 := sumV_ge (m := l.orders.data)
    (g := fun id (d : Orders.OrderData) => orderHolds 0 d ((l.orders.ask.get id).getD 0) ((l.orders.give.get id).getD 0)) (fun k => by
    have := ordPart_nonneg hl.sound 0 k
    rw [← y] at this; exact this) O
  have x' : ∑ d ∈ G, delPart l.st.pos.delBal d ≤ l.pos.delegationBalances.sumV fun _ (n : Nat) => (n : Int) := by
    rw [← x]; exact e3
  have y' : ∑ o ∈ O, ordPart 0 l.st.orders o ≤ l.orders.data.sumV
      (fun id d => orderHolds 0 d ((l.orders.ask.get id).getD 0) ((l.orders.give.get id).getD 0)) := by
    rw [← y]; exact e4
  have e1' : ∑ k ∈ K, utxoPart read 0 l.st.utxo k ≤ l.utxo.utxos.sumV (fun _ x => (worth 0 (read x.output.content) : Int)) := e1
  have e2' : ∑ k ∈ F, ownPart l.st.pos.poolData k ≤ l.pos.poolData.sumV (fun _ d => ((d.pledge + d.rewards : Nat) : Int)) := e2
  unfold Ledger.holds
  simp only [if_true]
  omega

/-! ## Chains -/

/-- the pool an output creates -/
def Effect.newPool : Effect → Option Nat
  | .createPool p _ => some p
  | _ => Option.none

/-- the pools a block creates -/
def Block.newPools (b : Block) : List Nat := b.txs.flatMap fun t => t.outputs.filterMap fun o => o.effect.newPool

theorem pools_eq (b : Block) : b.pools = b.newPools := by
  unfold Block.pools Block.newPools
  congr 1
  funext t
  unfold Tx.pools
  generalize t.outputs = os
  induction os with
  | nil => rfl
  | cons o os ih =>
    rw [List.flatMap_cons, List.flatMap_append, ih, List.filterMap_cons]
    unfold posOutOps
    cases o.effect <;> rfl

/-- The pools a chain creates are new: no two have the same id, and in the stored state there is no pool with the id and no
delegation to it. -/
structure FreshPools (l : Ledger) (bs : List Block) : Prop where
  nodup : (bs.flatMap Block.newPools).Nodup
  pool : ∀ p ∈ bs.flatMap Block.newPools, l.pos.poolData.get p = none
  delegation : ∀ p ∈ bs.flatMap Block.newPools, ∀ d x, l.pos.delegationData.get d = some x → x.sourcePool ≠ p

theorem FreshPools.new {l : Ledger} {bs : List Block} (h : FreshPools l bs) : NewPools l.st.pos (bs.flatMap Block.pools) := by
  have e : bs.flatMap Block.pools = bs.flatMap Block.newPools := by congr 1; funext b; exact pools_eq b
  rw [e]
  exact ⟨h.nodup, fun p hp => ⟨h.delegation p hp, h.pool p hp⟩⟩

/-- the coins there are and the subsidies of a chain are less than half of what a balance can hold -/
def Affordable (read : Nat → TxOutput) (subsidy : Nat → Nat) (l : Ledger) (bs : List Block) : Prop :=
  2 * (l.holds read 0 + (bs.map fun b => (subsidy b.height : Int)).sum) < 2 ^ 127

/-- what has to hold of a chain for it to stay in range -/
structure Sound (read : Nat → TxOutput) (subsidy : Nat → Nat) (l : Ledger) (bs : List Block) : Prop where
  new : NewChain l bs
  described : ∀ b ∈ bs, Described read b
  pools : FreshPools l bs
  coins : Affordable read subsidy l bs

section
variable {env : Env} {read : Nat → TxOutput} {cfgOf : Src → Accumulator.Config} {feeOf : Nat → Accumulator.Acc} {subsidy : Nat → Nat}

/-- **C57.** If the coins there are and the subsidies to come are less than half of what a balance can hold (2^127), no balance
ever leaves its range while a chain is connected, not even between two operations of one transaction: not those of pools,
delegations, shares and orders, and not the supplies of tokens, for which nothing is assumed.  And the tables of staking still fit
together. -/
theorem C57_in_range (hg : ValueGuards env read cfgOf feeOf subsidy) {bs : List Block} {l l' : Ledger} (hw : l.WF)
    (hk : l.StakingOk) (hs : Sound read subsidy l bs) (h : l.connects env bs = .ok l') :
    ChainInRange env l bs ∧ l'.StakingOk := by
  obtain ⟨a, b⟩ := chain_range hg bs hw hs.new hs.described ((stakingOk_iff l).1 hk) (bounded_start hw)
    (by have := hs.coins; unfold Affordable at this; exact this) hs.pools.new h
  exact ⟨a, (stakingOk_iff l').2 b⟩

/-- **C57** (C49 without a hypothesis about balances).  A chain that was connected can be disconnected, and that restores the stored state. -/
theorem C57_rollback (hg : ValueGuards env read cfgOf feeOf subsidy) {bs : List Block} {l l' : Ledger} (hw : l.WF)
    (hk : l.StakingOk) (hs : Sound read subsidy l bs) (h : l.connects env bs = .ok l') :
    l'.disconnects bs.reverse = .ok l ∧ l'.WF :=
  C49_disconnect_undoes_connect_chain hw hs.new (C57_in_range hg hw hk hs h).1 h

/-- **C57** (C49 without a hypothesis about balances).  A reorganization ends as if the new branch had been followed directly. -/
theorem C57_reorganize (hg : ValueGuards env read cfgOf feeOf subsidy) {old new : List Block} {l l' : Ledger} (hw : l.WF)
    (hk : l.StakingOk) (hs : Sound read subsidy l old) (h : l.connects env old = .ok l') :
    l'.reorganize env old new = l.connects env new :=
  C49_reorganize hw hs.new (C57_in_range hg hw hk hs h).1 h

theorem reaches_inRange (hg : ValueGuards env read cfgOf feeOf subsidy) {l0 l : Ledger} {bs : List Block} (hw : l0.WF)
    (hk : l0.StakingOk) (h : Reaches env l0 (Sound read subsidy l0) bs l) :
    Reaches env l0 (fun bs => NewChain l0 bs ∧ ChainInRange env l0 bs) bs l := by
  induction h with
  | start => exact .start
  | connect _ hok hc ih =>
    refine .connect ih ⟨hok.new, ?_⟩ hc
    exact (C57_in_range hg hw hk hok (connects_snoc.2 ⟨_, (reaches_connects hw ih).2, hc⟩)).1
  | disconnect _ hc ih => exact .disconnect ih hc

/-- **C57** (C49 without a hypothesis about balances).  After any history of connecting and disconnecting blocks the stored state is the one
of the chain, and its tip can be disconnected. -/
theorem C57_state_of_chain (hg : ValueGuards env read cfgOf feeOf subsidy) {l0 l : Ledger} {bs : List Block} (hw : l0.WF)
    (hk : l0.StakingOk) (h : Reaches env l0 (Sound read subsidy l0) bs l) :
    l0.connects env bs = .ok l ∧ ∀ cs b, bs = cs ++ [b] → ∃ l', l.disconnect b = .ok l' := by
  have h' := reaches_inRange hg hw hk h
  refine ⟨C49_state_of_chain hw h', ?_⟩
  rintro cs b rfl
  exact C49_tip_can_be_disconnected hw h'

/-- **C57** (C52 without a hypothesis about balances).  However long the chain, there are no more coins than before and the subsidies, less
what was destroyed. -/
theorem C57_no_inflation (hg : ValueGuards env read cfgOf feeOf subsidy) {bs : List Block} {l l' : Ledger} (hw : l.WF)
    (hk : l.StakingOk) (hs : Sound read subsidy l bs) (h : l.connects env bs = .ok l') :
    l'.holds read 0 + (bs.map (Block.destroyed read cfgOf 0)).sum ≤
      l.holds read 0 + (bs.map fun b => (subsidy b.height : Int)).sum :=
  C52_no_inflation hg bs hw hs.new (C57_in_range hg hw hk hs h).1 hs.described h

/-- **C57** (staking).  What a pool has, on every chain, is what its owner has in it and what is delegated to it: the coins in
pools are all there. -/
theorem C57_pool_balances (hg : ValueGuards env read cfgOf feeOf subsidy) {bs : List Block} {l l' : Ledger} (hw : l.WF)
    (hk : l.StakingOk) (hs : Sound read subsidy l bs) (h : l.connects env bs = .ok l') (p : Nat) (x : Pos.PoolData)
    (hp : l'.pos.poolData.get p = some x) :
    (l'.pos.poolBalances.get p).getD 0 = x.pledge + x.rewards + l'.delegated p :=
  (C57_in_range hg hw hk hs h).2.pools p x hp

end

section Example

theorem vlGenesis_staking : vlGenesis.StakingOk := by
  refine ⟨fun _ _ => rfl, fun _ _ => rfl, ?_⟩
  intro p x h
  simp [vlGenesis, exGenesis] at h

theorem vlChain_sound : Sound vlRead vlSubsidy vlGenesis vlChain where
  new := vlChain_new
  described := vlChain_described
  pools := ⟨by decide +kernel, fun _ _ => rfl, fun _ _ _ _ h => by simp [vlGenesis, exGenesis] at h⟩
  coins := by
    have e2 : (vlChain.map fun b => (vlSubsidy b.height : Int)).sum = 103 := by decide +kernel
    have e3 : vlGenesis.holds vlRead 0 = 16000 := by decide +kernel
    unfold Affordable
    rw [e2, e3]
    norm_num

-- the chain of C52, which creates a pool, delegates to it, rewards it and withdraws from it
example : vlChain.flatMap Block.newPools = [7] := by decide +kernel

example : ∃ l', vlGenesis.connects vlEnv vlChain = .ok l' ∧ ChainInRange vlEnv vlGenesis vlChain ∧
    l'.disconnects vlChain.reverse = .ok vlGenesis ∧ l'.holds vlRead 0 + 26 ≤ 16000 + 103 ∧
    ∀ x, l'.pos.poolData.get 7 = some x → (l'.pos.poolBalances.get 7).getD 0 = x.pledge + x.rewards + l'.delegated 7 := by
  cases h : vlGenesis.connects vlEnv vlChain with
  | error e =>
    have : (vlGenesis.connects vlEnv vlChain).toOption.isSome = true := by decide +kernel
    rw [h] at this; simp [Except.toOption] at this
  | ok l' =>
    refine ⟨l', rfl, (C57_in_range guards_vlEnv vlGenesis_wf vlGenesis_staking vlChain_sound h).1,
      (C57_rollback guards_vlEnv vlGenesis_wf vlGenesis_staking vlChain_sound h).1, ?_,
      C57_pool_balances guards_vlEnv vlGenesis_wf vlGenesis_staking vlChain_sound h 7⟩
    have := C57_no_inflation guards_vlEnv vlGenesis_wf vlGenesis_staking vlChain_sound h
    have e1 : (vlChain.map (Block.destroyed vlRead (fun _ => Accumulator.exCfg) 0)).sum = 26 := by decide +kernel
    have e2 : (vlChain.map fun b => (vlSubsidy b.height : Int)).sum = 103 := by decide +kernel
    have e3 : vlGenesis.holds vlRead 0 = 16000 := by decide +kernel
    rw [e1, e2, e3] at this
    exact this

-- the pool has its owner's part, and what was delegated to it, rewarded, and not withdrawn
example : (vlGenesis.connects vlEnv vlChain).toOption.map (fun l =>
    ((l.pos.poolBalances.get 7).getD 0, ((l.pos.poolData.get 7).map fun x => (x.pledge, x.rewards)), l.delegated 7)) =
    some (1147, some (1000, 82), 65) := by decide +kernel

end Example

end Verif.Verifier
