import Verif.Policy.NodeProps
import Verif.Verifier.RangeProps

/-!
# C57 for the checks of the code
-/

namespace Verif.Policy
open Verif
open Verif.Codec
open Verif.Verifier (Src Effect Out Tx Block Views Env Ledger)
open Verif.Utxo (txOut rewardOut)

namespace Node
variable {N : Node} {env : Env}

/-! ### Pools -/

theorem collect_mem {A U : Type} {f : Verifier.TxVerifier → A → Except Verifier.Err (Verifier.TxVerifier × Option U)} :
    ∀ {xs : List A} {v v' : Verifier.TxVerifier} {us : List U}, Verifier.collect f v xs = .ok (v', us) →
    ∀ x ∈ xs, ∃ v1 r, f v1 x = .ok r
  | [], _, _, _, _, _, hx => by cases hx
  | y :: xs, v, v', us, h, x, hx => by
    simp only [Verifier.collect, bind_eq_ok, Prod.exists] at h
    obtain ⟨v1, o, h1, v2, us', h2, -⟩ := h
    rcases List.mem_cons.1 hx with rfl | hx
    · exact ⟨_, _, h1⟩
    · exact collect_mem h2 x hx

theorem tx_pools {src : Src} {v v' : Verifier.TxVerifier} {t : Tx} {fee : Nat} (h : Verifier.connectTx env src v t = .ok (v', fee)) :
    (∃ w, env.checkInputs w src t = some fee) ∧ ∀ o ∈ t.outputs, ∀ p d, o.effect = .createPool p d → env.checkPool t p d = true := by
  simp only [Verifier.connectTx, bind_eq_ok, okOr_eq_ok, pure_eq_ok, Prod.mk.injEq] at h
  obtain ⟨_, -, v1, h1, f, hf, v2, h2, v3, h3, v4, h4, v5, h5, rfl, rfl⟩ := h
  refine ⟨⟨_, hf⟩, fun o ho p d he => ?_⟩
  simp only [Verifier.connectPos, bind_eq_ok, Prod.exists] at h2
  obtain ⟨w1, us1, -, w2, us2, h2, -⟩ := h2
  obtain ⟨w, r, h⟩ := collect_mem h2 o ho
  simp only [Verifier.posOutput, he] at h
  split at h
  · assumption
  · cases h

theorem txs_pools {src : Src} : ∀ {txs : List Tx} {v v' : Verifier.TxVerifier} {fees : List Nat},
    Verifier.connectTxs env src v txs = .ok (v', fees) → ∀ t ∈ txs, ∃ v1 v2 fee, Verifier.connectTx env src v1 t = .ok (v2, fee)
  | [], _, _, _, _, _, ht => by cases ht
  | tx :: txs, v, v', fees, h, t, ht => by
    simp only [Verifier.connectTxs, bind_eq_ok, pure_eq_ok, Prod.exists, Prod.mk.injEq] at h
    obtain ⟨v1, fee, g1, v2, fees', g2, -, -⟩ := h
    rcases List.mem_cons.1 ht with rfl | ht
    · exact ⟨_, _, _, g1⟩
    · exact txs_pools g2 t ht

theorem chain_txs : ∀ {bs : List Block} {l l' : Ledger}, l.connects env bs = .ok l' → ∀ t ∈ bs.flatMap Block.txs,
    ∃ src v1 v2 fee, Verifier.connectTx env src v1 t = .ok (v2, fee)
  | [], _, _, _, _, ht => by cases ht
  | c :: bs, l, l', h, t, ht => by
    simp only [Ledger.connects, bind_eq_ok] at h
    obtain ⟨l1, g1, g2⟩ := h
    rw [List.flatMap_cons, List.mem_append] at ht
    rcases ht with ht | ht
    · simp only [Ledger.connect, Verifier.connectBlock, bind_eq_ok, Prod.exists] at g1
      obtain ⟨v, ⟨v1, fees, g1, -⟩, -⟩ := g1
      exact ⟨_, txs_pools g1 t ht⟩
    · exact chain_txs g2 t ht

/-- the pools a transaction creates -/
def newPools (t : Tx) : List Nat := t.outputs.filterMap fun o => o.effect.newPool

theorem newPool_some {e : Effect} {p : Nat} (h : e.newPool = some p) : ∃ d, e = .createPool p d := by
  cases e <;> simp only [Effect.newPool, Option.some.injEq, reduceCtorEq] at h
  subst h
  exact ⟨_, rfl⟩

theorem pools_le {s : Src} {c : TransactionV1} {t : Tx} (h : N.tx s c = some t)
    (hi : ¬ Two (fun o => ∃ p d, o = TxOutput.createStakePool p d) c.outputs) : (newPools t).length ≤ 1 := by
  have hl : (c.outputs.filter isPool).length ≤ 1 := by
    by_contra hn
    exact hi ((two_filter _ isPool_iff _).1 hn)
  obtain ⟨-, -, hf⟩ := tx_some h
  refine le_trans ?_ hl
  unfold newPools
  clear hl hi h
  generalize c.outputs = l at hf ⊢
  generalize t.outputs = m at hf ⊢
  induction hf with
  | nil => simp
  | cons hx _ ih =>
    rename_i o x l m _
    obtain ⟨-, hx⟩ := out_some hx
    rw [List.filterMap_cons, List.filter_cons]
    cases ho : x.effect.newPool with
    | none =>
      simp only
      split
      · exact le_trans ih (by simp)
      · exact ih
    | some id =>
      obtain ⟨d, he⟩ := newPool_some ho
      rw [he] at hx
      have : isPool o = true := by
        rw [isPool_iff]
        cases o with
        | createStakePool p d => exact ⟨_, _, rfl⟩
        | burn v => cases v <;> simp [effect] at hx
        | createDelegationId d p => simp [effect, Option.map_eq_some_iff] at hx
        | issueFungibleToken d => simp [effect, Option.map_eq_some_iff] at hx
        | createOrder d => simp [effect, Option.map_eq_some_iff] at hx
        | _ => simp [effect] at hx
      rw [if_pos this]
      simpa using ih

/-- a pool of a transaction has the id made of its first output spent -/
theorem pool_id (he : N.Enforces env) {t : Tx} {src : Src} {v v' : Verifier.TxVerifier} {fee : Nat}
    (h : Verifier.connectTx env src v t = .ok (v', fee)) {s : Src} {c : TransactionV1} (hc : N.tx s c = some t) {p : Nat}
    (hp : p ∈ newPools t) : ∃ o, (Ids.spent c.inputs).head? = some o ∧ p = num (N.H (Ids.hashed .pool o)) := by
  unfold newPools at hp
  rw [List.mem_filterMap] at hp
  obtain ⟨x, hx, hp⟩ := hp
  obtain ⟨d, hp⟩ := newPool_some hp
  obtain ⟨-, s', c', id, -, htx, hid, e⟩ := he.checkPool _ _ _ ((tx_pools h).2 x hx p d hp)
  obtain ⟨o, h1, h2⟩ := Ids.make_ok (c := .pool) hid
  refine ⟨o, ?_, by rw [← e, h2]⟩
  have e1 := spends_of hc
  rw [spends_of htx] at e1
  have e2 := congrArg List.head? e1
  rw [List.head?_map, List.head?_map, h1] at e2
  cases hx : (Ids.spent c.inputs).head? with
  | none => rw [hx] at e2; cases e2
  | some o' =>
    rw [hx] at e2
    rw [outpoint_inj (Option.some.inj e2)]

/-- The state that a chain starts from, as far as staking goes: the tables fit together, nothing is delegated yet, and no pool that is there
has the id of one that the chain creates (the ids of pools are hashes, so this is like `NoClash`). -/
structure Stakers (N : Node) (l : Ledger) (cs : List TransactionV1) : Prop where
  tables : l.StakingOk
  delegations : ∀ d, l.pos.delegationData.get d = none
  pools : ∀ c ∈ cs, ∀ id, Ids.makePoolId N.k N.H c.inputs = .ok id → l.pos.poolData.get (num id) = none

theorem freshPools (he : N.Enforces env) {bs : List Block} {cs : List (List TransactionV1)} {l l' : Ledger} (hw : Written N bs cs)
    (hc : NoClash N cs.flatten) (ho : Origin l) (hi : (l.utxo.best :: bs.map Block.id).Nodup) (hk : Stakers N l cs.flatten)
    (h : l.connects env bs = .ok l') : Verifier.FreshPools l bs := by
  have e : bs.flatMap Block.newPools = (bs.flatMap Block.txs).flatMap newPools := by
    rw [List.flatMap_assoc]; rfl
  have hid : ∀ t ∈ bs.flatMap Block.txs, ∀ p ∈ newPools t, ∃ c ∈ cs.flatten, ∃ o, (Ids.spent c.inputs).head? = some o ∧
      p = num (N.H (Ids.hashed .pool o)) ∧ outpoint o ∈ t.spends := by
    intro t ht p hp
    obtain ⟨c, hm, s, htx⟩ := written_mem hw ht
    obtain ⟨src, v1, v2, fee, hct⟩ := chain_txs h t ht
    obtain ⟨o, h1, h2⟩ := pool_id he hct htx hp
    refine ⟨c, hm, o, h1, h2, ?_⟩
    rw [spends_of htx]
    exact List.mem_map_of_mem (List.mem_of_mem_head? h1)
  refine ⟨?_, ?_, ?_⟩
  · have h2 := (Verifier.C51_no_double_spend (start_of hw hc ho hi) (C55_guards he) h).1
    have h3 : ((bs.flatMap Block.txs).flatMap Tx.spends).Nodup := h2.sublist (Verifier.flatMap_spends_sublist bs)
    rw [e, List.nodup_flatMap]
    rw [List.nodup_flatMap] at h3
    refine ⟨fun t ht => ?_, h3.2.imp_of_mem ?_⟩
    · obtain ⟨src, v1, v2, fee, hct⟩ := chain_txs h t ht
      obtain ⟨w, hin⟩ := (tx_pools hct).1
      obtain ⟨c, -, htx, hpol⟩ := he.checkInputs _ _ _ _ hin
      have hle := pools_le htx (policy_ok hpol).2.2.2.1
      match hx : newPools t, hle with
      | [], _ => exact List.nodup_nil
      | [_], _ => exact List.nodup_singleton _
      | _ :: _ :: _, hle => simp at hle
    · intro t t' ht ht' hd p hp hp'
      obtain ⟨c, hm, o, a1, a2, a3⟩ := hid t ht p hp
      obtain ⟨c', hm', o', b1, b2, b3⟩ := hid t' ht' p hp'
      rw [a2] at b2
      have e := eq_of_hash hc (mem_hashed hm a1 .pool) (mem_hashed hm' b1 .pool) (num_inj b2)
      obtain ⟨-, rfl⟩ := Ids.hashed_inj (Ids.spent_ok (tx_fits (hw.2 c hm)).1 a1) (Ids.spent_ok (tx_fits (hw.2 c' hm')).1 b1) e
      exact hd a3 b3
  · intro p hp
    rw [e, List.mem_flatMap] at hp
    obtain ⟨t, ht, hp⟩ := hp
    obtain ⟨c, hm, o, a1, rfl, -⟩ := hid t ht p hp
    refine hk.pools c hm _ ?_
    show Ids.make N.k N.H .pool c.inputs = _
    rw [Ids.make_eq, a1]
  · intro p hp d x hx
    rw [hk.delegations d] at hx
    cases hx

/-- what has to hold of a chain and the state it starts from -/
structure Fine (N : Node) (l : Ledger) (bs : List Block) (cs : List (List TransactionV1)) : Prop where
  written : Written N bs cs
  noClash : NoClash N cs.flatten
  ids : (l.utxo.best :: bs.map Block.id).Nodup
  linked : Verifier.Linked l.utxo.best bs
  stakers : Stakers N l cs.flatten
  coins : Verifier.Affordable N.read N.subsidy l bs

theorem Fine.sound (he : N.Enforces env) {bs : List Block} {cs : List (List TransactionV1)} {l l' : Ledger} (hf : Fine N l bs cs)
    (ho : Origin l) (h : l.connects env bs = .ok l') : Verifier.Sound N.read N.subsidy l bs where
  new := newChain he hf.written hf.noClash ho hf.ids hf.linked h
  described := described he h
  pools := freshPools he hf.written hf.noClash ho hf.ids hf.stakers h
  coins := hf.coins

/-- **C57** (for the checks of the code).  No balance leaves its range while a node connects a chain, and the tables of staking keep fitting
together – whatever the blocks are, if the coins at the start and the subsidies are less than half of what a balance can hold. -/
theorem C57_node_in_range (he : N.Enforces env) {bs : List Block} {cs : List (List TransactionV1)} {l l' : Ledger} (hwf : l.WF)
    (ho : Origin l) (hf : Fine N l bs cs) (h : l.connects env bs = .ok l') : Verifier.ChainInRange env l bs ∧ l'.StakingOk :=
  Verifier.C57_in_range (C55_value_guards he) hwf hf.stakers.tables (hf.sound he ho h) h

/-- **C57** (for the checks of the code).  A node can disconnect every chain it has connected, and has then exactly what it had before. -/
theorem C57_node_rollback (he : N.Enforces env) {bs : List Block} {cs : List (List TransactionV1)} {l l' : Ledger} (hwf : l.WF)
    (ho : Origin l) (hf : Fine N l bs cs) (h : l.connects env bs = .ok l') : l'.disconnects bs.reverse = .ok l ∧ l'.WF :=
  Verifier.C57_rollback (C55_value_guards he) hwf hf.stakers.tables (hf.sound he ho h) h

theorem reaches_node (he : N.Enforces env) {l0 l : Ledger} {bs : List Block} (hwf : l0.WF) (ho : Origin l0)
    (h : Verifier.Reaches env l0 (fun bs => ∃ cs, Fine N l0 bs cs) bs l) :
    Verifier.Reaches env l0 (fun bs => Verifier.NewChain l0 bs ∧ Verifier.ChainInRange env l0 bs) bs l := by
  induction h with
  | start => exact .start
  | connect _ hok hc ih =>
    obtain ⟨cs, hf⟩ := hok
    have hcon := Verifier.connects_snoc.2 ⟨_, (Verifier.reaches_connects hwf ih).2, hc⟩
    exact .connect ih ⟨(hf.sound he ho hcon).new, (C57_node_in_range he hwf ho hf hcon).1⟩ hc
  | disconnect _ hc ih => exact .disconnect ih hc

/-- **C57** (for the checks of the code).  Whatever blocks a node connected and disconnected, what it has stored depends on the blocks
of its chain only, and its last block can be disconnected. -/
theorem C57_node_history (he : N.Enforces env) {l0 l l' : Ledger} {bs : List Block} (hwf : l0.WF) (ho : Origin l0)
    (h : Verifier.Reaches env l0 (fun bs => ∃ cs, Fine N l0 bs cs) bs l) :
    (Verifier.Reaches env l0 (fun bs => ∃ cs, Fine N l0 bs cs) bs l' → l' = l) ∧
    ∀ cs b, bs = cs ++ [b] → ∃ l', l.disconnect b = .ok l' := by
  have h1 := reaches_node he hwf ho h
  refine ⟨fun h' => Verifier.C49_same_chain_same_state hwf (reaches_node he hwf ho h') h1, ?_⟩
  rintro cs b rfl
  exact Verifier.C49_tip_can_be_disconnected hwf h1

/-- **C57** (for the checks of the code).  With the subsidies of mainnet the bound is met by itself: from a first state with at most the initial
supply, a chain of blocks at heights 1, 2, … stays in range, can be disconnected, and never has more than 599,990,800 coins. -/
theorem C57_mainnet (he : N.Enforces env) {bs : List Block} {cs : List (List TransactionV1)} {l l' : Ledger} (hwf : l.WF)
    (ho : Origin l) (hw : Written N bs cs) (hc : NoClash N cs.flatten) (hi : (l.utxo.best :: bs.map Block.id).Nodup)
    (hl : Verifier.Linked l.utxo.best bs) (hk : Stakers N l cs.flatten)
    (hs : ∀ h, 0 < h → Emission.subsidy (Emission.mainnetTable 120) h = .ok (N.subsidy h))
    (hh : bs.map Block.height = (List.range bs.length).map (· + 1)) (h0 : l.holds N.read 0 ≤ (Emission.coins 400000000 : Nat))
    (h : l.connects env bs = .ok l') :
    Verifier.ChainInRange env l bs ∧ l'.StakingOk ∧ l'.disconnects bs.reverse = .ok l ∧
      l'.holds N.read 0 ≤ (Emission.coins 599990800 : Nat) := by
  have hf : Fine N l bs cs := by
    refine ⟨hw, hc, hi, hl, hk, ?_⟩
    obtain ⟨a, ha, hle, -⟩ := Emission.C27_mainnet_total.2 bs.length
    obtain ⟨a0, h1, h2⟩ := Verifier.subsidies_sum hs bs.length ha
    have e0 : Emission.amountAt (Emission.mainnetTable 120) 0 = .ok (Emission.coins 400000000) := by rfl
    rw [h1] at e0
    cases e0
    have e1 : (bs.map fun b => (N.subsidy b.height : Int)).sum = (((List.range bs.length).map fun i => N.subsidy (i + 1)).sum : Nat) := by
      rw [Verifier.sum_nat]
      have : (bs.map fun b => (N.subsidy b.height : Int)) = (bs.map Block.height).map fun h => (N.subsidy h : Int) := by
        rw [List.map_map]; rfl
      rw [this, hh, List.map_map]
      rfl
    unfold Verifier.Affordable
    rw [e1]
    have e2 : Emission.coins 599990800 < 2 ^ 100 := by decide +kernel
    generalize Emission.coins 400000000 = A at *
    generalize Emission.coins 599990800 = B at *
    omega
  obtain ⟨r1, r2⟩ := C57_node_in_range he hwf ho hf h
  exact ⟨r1, r2, (C57_node_rollback he hwf ho hf h).1, C55_mainnet he hw hc ho hi hl hwf r1 h hs hh h0⟩

/-- **C57** (for the checks of the code).  Of a token with a fixed supply there are never more units than that, without a hypothesis about
balances. -/
theorem C57_token_caps (he : N.Enforces env) {bs : List Block} {cs : List (List TransactionV1)} {l l' : Ledger} (hwf : l.WF)
    (ho : Origin l) (hf : Fine N l bs cs) (h : l.connects env bs = .ok l')
    (h0 : ∀ id, l.holds N.read (id + 1) = 0 ∧ l.tokens.data.get id = none ∧ l.supply id = 0 ∧ l.nfts.get id = none)
    (id limit : Nat) (d : Tokens.TokenData) (hd : l'.tokens.data.get id = some d) (hs : d.totalSupply = .fixed limit) :
    l'.holds N.read (id + 1) ≤ limit + l'.nftCount id :=
  C55_token_caps he hf.written hf.noClash ho hf.ids hf.linked hwf (C57_node_in_range he hwf ho hf h).1 h h0 id limit d hd hs

end Node
end Verif.Policy
