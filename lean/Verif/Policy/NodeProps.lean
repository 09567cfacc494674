import Verif.Policy.NodeLemmas
import Verif.Ids.Props
import Verif.Verifier.ReplayProps
import Verif.Verifier.ValueProps

/-!
# C55: the checks of the code give the guarantees that C51 and C52 rest on
-/

set_option maxRecDepth 100000

namespace Verif.Policy
open Verif
open Verif.Codec
open Verif.Verifier (Src Effect Out Tx Block Views Env Ledger)
open Verif.Utxo (txOut rewardOut)

namespace Node
variable {N : Node} {env : Env}

theorem commands_le {c : TransactionV1} {t : Tx} {s : Src} (h : N.tx s c = some t) (hc : ¬ Two Commands c.inputs) :
    (t.inputs.filter Verifier.Input.isCommand).length ≤ 1 := by
  obtain ⟨-, h, -⟩ := tx_some h
  rw [h, List.filter_map, List.length_map]
  have : (Verifier.Input.isCommand ∘ input N.k) = isCommand := by funext i; exact isCommand_input
  rw [this]
  by_contra hn
  exact hc ((two_filter _ isCommand_iff _).1 hn)

/-- what the inputs spend, in both models -/
theorem spends_eq {c : TransactionV1} {t : Tx} {s : Src} {w : Views} (h : N.tx s c = some t)
    (hu : ∀ o, TxInput.utxo o ∈ c.inputs → ∃ u, (N.chain w).utxo o = some u ∧ CanBeSpent u) :
    t.inputs.map (Verifier.spent N.read w) = c.inputs.map fun i => (spends (N.chain w).utxo i).map (accOut N.k) := by
  obtain ⟨-, h, -⟩ := tx_some h
  rw [h, List.map_map]
  refine List.map_congr_left fun i hi => ?_
  simp only [Function.comp, Verifier.spent, outpoint_input]
  cases i with
  | utxo o =>
    obtain ⟨u, hu, -⟩ := hu o hi
    simp only [Ids.utxoOutpoint, Option.map_some, Option.bind_some, spends, hu]
    simp only [chain, Option.bind_eq_some_iff] at hu
    obtain ⟨x, hx, hu⟩ := hu
    rw [hx, Option.map_some, read_of hu]
  | account a => rfl
  | accountCommand n c => rfl
  | orderAccountCommand c => rfl

theorem toAcc_eq {c : TransactionV1} {t : Tx} {s : Src} (h : N.tx s c = some t) :
    t.inputs.map Verifier.Input.toAcc = c.inputs.map fun i => (input N.k i).toAcc := by
  obtain ⟨-, h, -⟩ := tx_some h
  rw [h, List.map_map]; rfl

theorem adds_up {c : TransactionV1} {t : Tx} {s : Src} {w : Views} {fee : Accumulator.Acc} (hok : (TransactionV1.codec N.k).ok c)
    (h : N.tx s c = some t) (hp : checkTxPolicy N.k (N.rules s) (N.fees s) (N.chain w) c = .ok fee) :
    ∃ i o, Accumulator.fromInputs (N.fees s) w.orders w.pos w.tokens (t.inputs.map Verifier.Input.toAcc)
        (t.inputs.map (Verifier.spent N.read w)) = .ok i ∧
      Accumulator.fromOutputs (N.fees s) (t.outputs.map fun o => N.read o.out.content) = .ok o ∧
      Accumulator.satisfyWith i o = .ok fee := by
  obtain ⟨h1, -, -, -, -, -, -, ⟨i, o, hi, ho, hs⟩, -⟩ := policy_ok hp
  refine ⟨i, o, ?_, ?_, hs⟩
  · rw [spends_eq h h1, toAcc_eq h]; exact hi
  · rw [reads hok h]; exact ho

theorem spendable_acc {u : TxOutput} (h : CanBeSpent u) : Verifier.Spendable (accOut N.k u) := by
  cases h <;> trivial

/-- a transaction with an order between equal currencies is refused -/
theorem differ_of {c : SignedTransaction} {l r x} (h : checkTransaction N.k l r x c = .ok ()) {d : OrderData}
    (hd : TxOutput.createOrder d ∈ c.transaction.outputs) : Verifier.Differ (orderData N.k d) := by
  have hb := C53_accepted_iff.1 h .sameCurrencies
  simp only [Broken, not_exists, not_and] at hb
  have hb := hb d hd
  simp only [not_or, not_exists, not_and] at hb
  obtain ⟨b1, b2, b3⟩ := hb
  unfold Verifier.Differ orderData
  simp only
  cases ha : d.ask <;> cases hg : d.give <;>
    simp only [value, Accumulator.curOf, ne_eq, reduceCtorEq, not_false_eq_true, Option.some.injEq, not_true_eq_false]
  · exact b1 _ _ ha hg
  · simp [Accumulator.coin, Accumulator.token]
  · exact b2 _ _ ha hg
  · simp [Accumulator.coin, Accumulator.token]
  · intro he
    have he' := num_inj (by simpa [Accumulator.token] using he)
    rw [← he'] at hg
    exact b3 _ _ _ ha hg

/-- **C55** (for C51).  Checks that refuse what the code refuses give the guarantees that C51 assumes. -/
theorem C55_guards (he : N.Enforces env) : Verifier.Guards env where
  nonempty s t h := by
    obtain ⟨c, -, ht, hc, -⟩ := he.checkTx s t h
    have hb := C53_accepted_iff.1 hc .emptyInputs
    simp only [Broken] at hb
    obtain ⟨-, hi, -⟩ := tx_some ht
    rw [hi]
    intro h0
    exact hb (by simpa using congrArg List.length h0)
  differ s t o id d h ho hd := by
    obtain ⟨c, -, ht, hc, -⟩ := he.checkTx s t h
    obtain ⟨-, -, hf⟩ := tx_some ht
    obtain ⟨y, hy, hx⟩ := exists_left hf ho
    obtain ⟨-, hx⟩ := out_some hx
    rw [hd] at hx
    cases y with
    | createOrder d' =>
      simp only [effect, Option.map_eq_some_iff, Effect.createOrder.injEq] at hx
      obtain ⟨_, -, -, rfl⟩ := hx
      exact differ_of hc hy
    | burn v => cases v <;> simp [effect] at hx
    | _ => simp [effect] at hx
  policy w s t f h := by
    obtain ⟨c, hok, ht, hp⟩ := he.checkInputs w s t f h
    obtain ⟨i, o, h1, -, -⟩ := adds_up hok ht hp
    exact ⟨commands_le ht (policy_ok hp).2.1, _, _, i, h1⟩


/-! ### Rewards -/

theorem payoutMap_entries (o : Option (BMap Nat Nat)) (rest : Nat) : (payoutMap o rest).entries = Reward.payouts o rest := by
  cases o <;> rfl

theorem planOf_total {v : Pos.View} {pool total : Nat} {ver : Reward.Version} {p : Verifier.Plan}
    (h : planOf v pool total ver = some p) : p.total = total := by
  unfold planOf at h
  split at h
  · split at h
    · split at h
      · simp only [Option.some.injEq] at h
        subst h
        rename_i o _ _ _ _ s _ hs
        have hp := Reward.parts_le o (total - s)
        have : (payoutMap o (total - s)).sumV (fun _ n => n) = Reward.parts o (total - s) := by
          rw [← Reward.payouts_sum, ← payoutMap_entries]; rfl
        simp only [Verifier.Plan.total, this]
        omega
      · cases h
    · cases h
  · cases h

/-- **C55** (rewards).  `planOf` is what the distribution of a staking reward carries out: whenever the distribution succeeds there is a
plan, and the distribution consists of the operations of the plan. -/
theorem C55_plan {c c' : Pos.Cache} {p total : Nat} {ver : Reward.Version} {us : List Pos.Undo} {o : Option (BMap Nat Nat)}
    (ho : c.view.shares p = .ok o) (h : Reward.distribute c p total ver = .ok (c', us)) :
    ∃ plan, planOf c.view p total ver = some plan ∧ plan.pool = p ∧ plan.total = total ∧
      History.run Pos.step c plan.ops = .ok (c', us) := by
  obtain ⟨d, b, s, c1, us1, u, h1, h2, h3, h4, h5, h6, rfl⟩ := Reward.distribute_ok ho h
  have r1 := Reward.delegateAll_run h5
  have r2 : History.run Pos.step c1 [Pos.Op.increaseStakerRewards p (total - Reward.parts o (total - s))] = .ok (c', [u]) := by
    simp only [History.run, bind_eq_ok, pure_eq_ok]
    exact ⟨(c', u), h6, (c', []), rfl, rfl⟩
  have hp : planOf c.view p total ver = some ⟨payoutMap o (total - s), p, total - Reward.parts o (total - s)⟩ := by
    unfold planOf
    rw [h1, h2, ho]
    simp only [h3, h4, if_true]
  refine ⟨_, hp, rfl, planOf_total hp, ?_⟩
  simp only [Verifier.Plan.ops, payoutMap_entries]
  exact Reward.run_append r1 r2

/-! ### What C52 assumes -/

theorem nfts_le {s : Src} {c : TransactionV1} {t : Tx} (h : N.tx s c = some t) (hi : ¬ Two Issues c.outputs) :
    (t.outputs.filterMap fun o => o.effect.nft).length ≤ 1 := by
  have hl : (c.outputs.filter isIssuance).length ≤ 1 := by
    by_contra hn
    exact hi ((two_filter _ issues_iff _).1 hn)
  obtain ⟨-, -, hf⟩ := tx_some h
  refine le_trans ?_ hl
  clear hl hi h
  generalize c.outputs = l at hf ⊢
  generalize t.outputs = m at hf ⊢
  induction hf with
  | nil => simp
  | cons hx _ ih =>
    rename_i o x l m _
    obtain ⟨-, hx⟩ := out_some hx
    rw [List.filterMap_cons, List.filter_cons]
    cases ho : x.effect.nft with
    | none =>
      simp only
      split
      · exact le_trans ih (by simp)
      · exact ih
    | some id =>
      have : isIssuance o = true := by
        rw [issues_iff]
        cases o with
        | issueNft i d e => constructor
        | burn v => cases v <;> simp only [effect, Option.some.injEq] at hx <;> rw [← hx] at ho <;> cases ho
        | createDelegationId d p =>
          simp only [effect, Option.map_eq_some_iff] at hx
          obtain ⟨_, -, hx⟩ := hx
          rw [← hx] at ho; cases ho
        | issueFungibleToken d =>
          simp only [effect, Option.map_eq_some_iff] at hx
          obtain ⟨_, -, hx⟩ := hx
          rw [← hx] at ho; cases ho
        | createOrder d =>
          simp only [effect, Option.map_eq_some_iff] at hx
          obtain ⟨_, -, hx⟩ := hx
          rw [← hx] at ho; cases ho
        | _ => simp only [effect, Option.some.injEq] at hx; rw [← hx] at ho; cases ho
      rw [if_pos this]
      simpa using ih

theorem fill_of_v0 {i : TxInput} {n id a : Nat} (h : input N.k i = .orderV0 n (.fill id a)) :
    ∃ x d, i = .accountCommand n (.fillOrder x a d) := by
  cases i with
  | utxo o => cases h
  | account a => obtain ⟨_, ⟨⟩⟩ := a; cases h
  | accountCommand m c => cases c <;> simp_all [input]
  | orderAccountCommand c => cases c <;> cases h

theorem fill_of_v1 {i : TxInput} {id a : Nat} (h : input N.k i = .order (.fill id a)) :
    ∃ x, i = .orderAccountCommand (.fillOrder x a) := by
  cases i with
  | utxo o => cases h
  | account a => obtain ⟨_, ⟨⟩⟩ := a; cases h
  | accountCommand m c => cases c <;> cases h
  | orderAccountCommand c => cases c <;> simp_all [input]

theorem stake_pool {p : Bytes} {d : Destination} {u : TxOutput} (h : Stake p d u) : (Verifier.poolIn (accOut N.k u)).isSome := by
  cases h <;> rfl

theorem read_coin {o : TxOutput} (h : (TxOutput.codec N.k).ok o) : N.read (N.coin o).content = accOut N.k o := read_content h

/-- **C55** (for C52).  Checks that refuse what the code refuses give the guarantees that C52 assumes. -/
theorem C55_value_guards (he : N.Enforces env) : Verifier.ValueGuards env N.read N.fees N.fee N.subsidy where
  pool := he.poolOf
  oneNft s t h := by
    obtain ⟨c, -, ht, hc, -⟩ := he.checkTx s t h
    exact nfts_le ht (C53_accepted_iff.1 hc .multipleIssuance)
  fillV0 s t n id a h hm := by
    obtain ⟨c, -, ht, hc, -⟩ := he.checkTx s t h
    obtain ⟨-, hi, -⟩ := tx_some ht
    rw [hi, List.mem_map] at hm
    obtain ⟨i, hm, hi⟩ := hm
    obtain ⟨x, d, rfl⟩ := fill_of_v0 hi
    have hb := C53_accepted_iff.1 hc .deprecatedOrders
    rw [N.version]
    cases hv : (N.rules s).ordersVersion with
    | v0 => rfl
    | v1 => exact absurd ⟨hv, .inl ⟨_, _, _, _, hm⟩⟩ hb
  fillV1 s t id a h hm := by
    obtain ⟨c, -, ht, hc, -⟩ := he.checkTx s t h
    obtain ⟨-, hi, -⟩ := tx_some ht
    rw [hi, List.mem_map] at hm
    obtain ⟨i, hm, hi⟩ := hm
    obtain ⟨x, rfl⟩ := fill_of_v1 hi
    have hb := C53_accepted_iff.1 hc .ordersV1NotActivated
    rw [N.version]
    cases hv : (N.rules s).ordersVersion with
    | v1 => rfl
    | v0 => exact absurd ⟨hv, _, hm⟩ hb
  oneCommand w s t f h := by
    obtain ⟨c, hok, ht, hp⟩ := he.checkInputs w s t f h
    exact commands_le ht (policy_ok hp).2.1
  kinds w s t f h i hi o ho := by
    obtain ⟨c, hok, ht, hp⟩ := he.checkInputs w s t f h
    have hu := (policy_ok hp).1
    have hl := spends_eq ht hu
    have hm : Verifier.spent N.read w i ∈ t.inputs.map (Verifier.spent N.read w) := List.mem_map_of_mem hi
    rw [hl, List.mem_map] at hm
    obtain ⟨j, hj, hm⟩ := hm
    rw [ho, Option.map_eq_some_iff] at hm
    obtain ⟨u, hs, rfl⟩ := hm
    cases j with
    | utxo p =>
      obtain ⟨u', hu', hc⟩ := hu p hj
      simp only [spends, hu', Option.some.injEq] at hs
      subst hs
      exact spendable_acc hc
    | account a => cases hs
    | accountCommand n c => cases hs
    | orderAccountCommand c => cases hs
  adds w s t f h := by
    obtain ⟨c, hok, ht, hp⟩ := he.checkInputs w s t f h
    exact adds_up hok ht hp
  reward w b fees h := by
    obtain ⟨n, r, hn, hok, hr, hpos, hc⟩ := he.checkReward w b fees h
    refine ⟨N.maturity b.height, n, hn, ?_, ?_, ?_⟩
    · intro is his k x hk hx
      rcases reward_ok hc with ⟨o, u, p, d, d', h1, h2, h3, -⟩ | ⟨h1, -⟩
      · simp only [hr, reward, h1, Option.map_some, Option.mem_def, Option.some.injEq] at his
        subst his
        simp only [List.map_cons, List.map_nil, input, Verifier.Input.outpoint, List.mem_singleton, Option.some.injEq] at hk
        subst hk
        simp only [chain, hx, Option.bind_some] at h2
        rw [read_of h2]
        exact stake_pool h3
      · simp [hr, reward, h1] at his
    · intro hp
      refine ⟨?_, ?_⟩
      · intro os hos o ho
        rcases reward_ok hc with ⟨o', u, p, d, d', h1, h2, h3, h4, -⟩ | ⟨h1, -⟩
        · simp only [hr, reward, h4, Option.mem_def, Option.some.injEq] at hos
          subst hos
          simp only [List.map_cons, List.map_nil, List.mem_singleton] at ho
          subst ho
          rw [read_coin (hok _ (by simp [h4]))]
          rfl
        · simp [hpos, h1] at hp
      · intro w' p hpl
        obtain ⟨n', ver, hn', hpl⟩ := he.plan w' b fees p hpl
        rw [hn] at hn'
        cases hn'
        exact planOf_total hpl
    · intro hp
      rcases reward_ok hc with ⟨o', u, p, d, d', h1, -⟩ | ⟨h1, h2, -, i, o, f, h3, h4, h5⟩
      · simp [hpos, h1] at hp
      · refine ⟨N.fees b.src, i, o, f, h3, ?_, h5, ?_⟩
        · rw [hr]
          simp only [reward, Option.getD_some, List.map_map]
          rw [← h4]
          unfold outputsWorth
          congr 1
          refine List.map_congr_left fun x hx => ?_
          exact read_coin (hok x hx)
        · intro os hos x hx
          simp only [hr, reward, Option.mem_def, Option.some.injEq] at hos
          subst hos
          obtain ⟨y, hy, rfl⟩ := List.mem_map.1 hx
          rw [read_coin (hok y hy)]
          obtain ⟨v, d, l, rfl⟩ := h2 y hy
          exact ⟨_, _, rfl⟩


/-! ### Chains -/

/-- the transactions of the blocks; what the verifier makes of them is in `bs` -/
def Written (N : Node) (bs : List Block) (cs : List (List TransactionV1)) : Prop :=
  List.Forall₂ (fun b c => b.txs.map some = c.map (N.tx b.src)) bs cs ∧ ∀ c ∈ cs.flatten, (TransactionV1.codec N.k).ok c

/-- the bytes hashed for the ids that a transaction gives rise to: its own, and those of pools, delegations, orders and
tokens -/
def hashedFor (k : Crypto) (c : TransactionV1) : List Bytes :=
  (TransactionV1.codec k).enc c :: (Ids.spent c.inputs).head?.toList.flatMap fun o =>
    [Ids.hashed .pool o, Ids.hashed .delegation o, Ids.hashed .order o, Ids.hashed .token o]

/-- no two of the byte strings hashed for these transactions clash -/
def NoClash (N : Node) (cs : List TransactionV1) : Prop :=
  ∀ x ∈ cs.flatMap (hashedFor N.k), ∀ y ∈ cs.flatMap (hashedFor N.k), ¬ Ids.Clash N.H x y

/-- the state that a chain starts from: all outputs are of the genesis block, and there are no orders, no NFTs and no blocks that could be
disconnected -/
structure Origin (l : Ledger) : Prop where
  utxo : ∀ o, l.utxo.utxos.get o ≠ none → ∃ j, o = rewardOut l.utxo.best j
  orders : ∀ id, l.orders.data.get id = none
  nfts : ∀ id, l.nftByTx.get id = none
  undo : ∀ b, l.utxoUndo.get b = none ∧ l.posUndo.get b = none ∧ l.tokensUndo.get b = none ∧ l.ordersUndo.get b = none

theorem written_mem {bs : List Block} {cs : List (List TransactionV1)} (h : Written N bs cs) {t : Tx} (ht : t ∈ bs.flatMap Block.txs) :
    ∃ c ∈ cs.flatten, ∃ s, N.tx s c = some t := by
  obtain ⟨h, -⟩ := h
  induction h with
  | nil => cases ht
  | cons hx _ ih =>
    rename_i b c bs cs _
    rw [List.flatMap_cons, List.mem_append] at ht
    rcases ht with ht | ht
    · have : some t ∈ c.map (N.tx b.src) := by rw [← hx]; exact List.mem_map_of_mem ht
      obtain ⟨x, hx, e⟩ := List.mem_map.1 this
      exact ⟨x, by simp [hx], _, e⟩
    · obtain ⟨x, hx, e⟩ := ih ht
      exact ⟨x, by simp only [List.flatten_cons, List.mem_append]; exact .inr hx, e⟩

theorem written_ids {bs : List Block} {cs : List (List TransactionV1)} (h : Written N bs cs) :
    (bs.flatMap Block.txs).map Tx.id = cs.flatten.map fun c => num (Ids.transactionId N.k N.H c) := by
  obtain ⟨h, -⟩ := h
  induction h with
  | nil => rfl
  | cons hx _ ih =>
    rename_i b c bs cs _
    rw [List.flatMap_cons, List.map_append, List.flatten_cons, List.map_append, ih]
    congr 1
    clear ih
    generalize b.txs = ts at hx
    induction ts generalizing c with
    | nil => cases c with
      | nil => rfl
      | cons => cases hx
    | cons t ts ih => cases c with
      | nil => cases hx
      | cons x c =>
        simp only [List.map_cons, List.cons.injEq] at hx
        rw [List.map_cons, List.map_cons, ih hx.2, (tx_some hx.1.symm).1]

theorem spends_of {s : Src} {c : TransactionV1} {t : Tx} (h : N.tx s c = some t) : t.spends = (Ids.spent c.inputs).map outpoint := by
  obtain ⟨-, h, -⟩ := tx_some h
  unfold Tx.spends
  rw [h]
  generalize c.inputs = is
  induction is with
  | nil => rfl
  | cons i is ih =>
    rw [List.map_cons, List.filterMap_cons, outpoint_input, ih]
    cases i <;> rfl

theorem written_spends {bs : List Block} {cs : List (List TransactionV1)} (h : Written N bs cs) :
    (bs.flatMap Block.txs).flatMap Tx.spends = (cs.flatten.flatMap fun c => Ids.spent c.inputs).map outpoint := by
  obtain ⟨h, -⟩ := h
  induction h with
  | nil => rfl
  | cons hx _ ih =>
    rename_i b c bs cs _
    rw [List.flatMap_cons, List.flatMap_append, List.flatten_cons, List.flatMap_append, List.map_append, ih]
    congr 1
    clear ih
    generalize b.txs = ts at hx
    induction ts generalizing c with
    | nil => cases c with
      | nil => rfl
      | cons => cases hx
    | cons t ts ih => cases c with
      | nil => cases hx
      | cons x c =>
        simp only [List.map_cons, List.cons.injEq] at hx
        rw [List.flatMap_cons, List.flatMap_cons, List.map_append, ih hx.2, spends_of hx.1.symm]

/-- an order comes from the first output that is spent -/
theorem creates_of {s : Src} {c : TransactionV1} {t : Tx} (h : N.tx s c = some t) {id : Nat} (hi : id ∈ t.creates) :
    ∃ o, (Ids.spent c.inputs).head? = some o ∧ id = num (N.H (Ids.hashed .order o)) := by
  obtain ⟨-, -, h⟩ := tx_some h
  unfold Tx.creates at hi
  rw [List.mem_filterMap] at hi
  obtain ⟨x, hx, he⟩ := hi
  obtain ⟨y, -, h⟩ := exists_left h hx
  obtain ⟨-, h⟩ := out_some h
  cases y with
  | createOrder d =>
    simp only [effect, Option.map_eq_some_iff] at h
    obtain ⟨i, hi, h⟩ := h
    rw [← h] at he
    cases he
    have : Ids.make N.k N.H .order c.inputs = .ok i := by
      cases hm : Ids.makeOrderId N.k N.H c.inputs with
      | error e => rw [hm] at hi; cases hi
      | ok j => rw [hm] at hi; cases hi; exact hm
    obtain ⟨o, h1, h2⟩ := Ids.make_ok this
    exact ⟨o, h1, by rw [h2]⟩
  | burn v => cases v <;> simp only [effect, Option.some.injEq] at h <;> rw [← h] at he <;> cases he
  | createDelegationId d p =>
    simp only [effect, Option.map_eq_some_iff] at h
    obtain ⟨_, -, h⟩ := h
    rw [← h] at he; cases he
  | issueFungibleToken d =>
    simp only [effect, Option.map_eq_some_iff] at h
    obtain ⟨_, -, h⟩ := h
    rw [← h] at he; cases he
  | _ => simp only [effect, Option.some.injEq] at h; rw [← h] at he; cases he

theorem eq_of_hash {cs : List TransactionV1} (h : NoClash N cs) {x y : Bytes} (hx : x ∈ cs.flatMap (hashedFor N.k))
    (hy : y ∈ cs.flatMap (hashedFor N.k)) (e : N.H x = N.H y) : x = y := by
  by_contra hn
  exact h x hx y hy ⟨hn, e⟩

theorem mem_hashed {cs : List TransactionV1} {c : TransactionV1} (hc : c ∈ cs) {o : UtxoOutPoint} (ho : (Ids.spent c.inputs).head? = some o)
    (kind : Ids.Kind) : Ids.hashed kind o ∈ cs.flatMap (hashedFor N.k) := by
  rw [List.mem_flatMap]
  refine ⟨c, hc, ?_⟩
  unfold hashedFor
  rw [ho]
  cases kind <;> simp

theorem sane_of {bs : List Block} {cs : List (List TransactionV1)} {l : Ledger} (hw : Written N bs cs) (hc : NoClash N cs.flatten)
    (ho : Origin l) : Verifier.Sane l.utxo.utxos.get (bs.flatMap Block.txs) where
  ids t ht t' ht' e := by
    obtain ⟨c, hm, s, h⟩ := written_mem hw ht
    obtain ⟨c', hm', s', h'⟩ := written_mem hw ht'
    obtain ⟨e1, e2, -⟩ := tx_some h
    obtain ⟨e1', e2', -⟩ := tx_some h'
    rw [e1, e1'] at e
    have e := num_inj e
    rcases Ids.C50_transaction_id N.k N.H c c' ((TransactionV1.ok_iff _ _).1 (hw.2 c hm)) ((TransactionV1.ok_iff _ _).1 (hw.2 c' hm')) e
      with e | e
    · rw [e2, e2', e]
    · refine absurd e (hc _ ?_ _ ?_)
      · exact List.mem_flatMap.2 ⟨c, hm, by simp [hashedFor]⟩
      · exact List.mem_flatMap.2 ⟨c', hm', by simp [hashedFor]⟩
  fresh t ht j := by
    by_contra hn
    obtain ⟨i, e⟩ := ho.utxo _ hn
    exact Utxo.txOut_ne_rewardOut e
  orders t ht t' ht' id hi hi' := by
    obtain ⟨c, hm, s, h⟩ := written_mem hw ht
    obtain ⟨c', hm', s', h'⟩ := written_mem hw ht'
    obtain ⟨o, a1, a2⟩ := creates_of h hi
    obtain ⟨o', b1, b2⟩ := creates_of h' hi'
    rw [a2] at b2
    have e := eq_of_hash hc (mem_hashed hm a1 .order) (mem_hashed hm' b1 .order) (num_inj b2)
    have f1 := (tx_fits (hw.2 c hm)).1
    have f2 := (tx_fits (hw.2 c' hm')).1
    obtain ⟨-, rfl⟩ := Ids.hashed_inj (Ids.spent_ok f1 a1) (Ids.spent_ok f2 b1) e
    refine ⟨outpoint o, ?_, ?_⟩
    · rw [spends_of h, List.head?_map, a1]; rfl
    · rw [spends_of h', List.head?_map, b1]; rfl

theorem start_of {bs : List Block} {cs : List (List TransactionV1)} {l : Ledger} (hw : Written N bs cs) (hc : NoClash N cs.flatten)
    (ho : Origin l) (hi : (l.utxo.best :: bs.map Block.id).Nodup) : Verifier.Start l bs where
  sane := sane_of hw hc ho
  orders := ho.orders
  ids := (List.nodup_cons.1 hi).2
  reward b hb j := by
    by_contra hn
    obtain ⟨i, e⟩ := ho.utxo _ hn
    exact (List.nodup_cons.1 hi).1 ((Utxo.rewardOut_inj.1 e).1 ▸ List.mem_map_of_mem hb)


/-! ### What follows for chains -/

theorem txs_checked {src : Src} : ∀ {txs : List Tx} {v v' : Verifier.TxVerifier} {fees : List Nat},
    Verifier.connectTxs env src v txs = .ok (v', fees) → ∀ t ∈ txs, env.checkTx src t = true
  | [], _, _, _, _, _, ht => by cases ht
  | tx :: txs, v, v', fees, h, t, ht => by
    simp only [Verifier.connectTxs, bind_eq_ok, pure_eq_ok, Prod.exists, Prod.mk.injEq] at h
    obtain ⟨v1, fee, g1, v2, fees', g2, -, -⟩ := h
    rcases List.mem_cons.1 ht with rfl | ht
    · simp only [Verifier.connectTx, bind_eq_ok, ensure_eq_ok] at g1
      obtain ⟨_, hck, -⟩ := g1
      exact hck
    · exact txs_checked g2 t ht

theorem block_checked {l l' : Ledger} {b : Block} (h : l.connect env b = .ok l') :
    (∀ t ∈ b.txs, env.checkTx b.src t = true) ∧ ∃ w fees, env.checkReward w b fees = true := by
  simp only [Ledger.connect, Verifier.connectBlock, bind_eq_ok, Prod.exists, Verifier.connectReward, ensure_eq_ok] at h
  obtain ⟨v, ⟨v1, fees, g1, v2, ⟨_, hr, -⟩, -⟩, -⟩ := h
  exact ⟨txs_checked g1, _, _, hr⟩

theorem chain_checked : ∀ {bs : List Block} {l l' : Ledger}, l.connects env bs = .ok l' → ∀ b ∈ bs,
    (∀ t ∈ b.txs, env.checkTx b.src t = true) ∧ ∃ w fees, env.checkReward w b fees = true
  | [], _, _, _, _, hb => by cases hb
  | c :: bs, l, l', h, b, hb => by
    simp only [Ledger.connects, bind_eq_ok] at h
    obtain ⟨l1, g1, g2⟩ := h
    rcases List.mem_cons.1 hb with rfl | hb
    · exact block_checked g1
    · exact chain_checked g2 b hb

/-- the outputs of the blocks of a chain are what they seem -/
theorem described (he : N.Enforces env) {bs : List Block} {l l' : Ledger} (h : l.connects env bs = .ok l') :
    ∀ b ∈ bs, Verifier.Described N.read b := by
  intro b hb t ht o ho
  obtain ⟨c, hok, htx, -⟩ := he.checkTx _ _ ((chain_checked h b hb).1 t ht)
  obtain ⟨-, -, hf⟩ := tx_some htx
  obtain ⟨y, hy, hx⟩ := exists_left hf ho
  exact fits_output ((tx_fits (signed_ok hok)).2 y hy) hx

theorem rewards_utxo (he : N.Enforces env) {bs : List Block} {l l' : Ledger} (h : l.connects env bs = .ok l') :
    ∀ b ∈ bs, b.reward.utxoInputs := by
  intro b hb
  obtain ⟨-, w, fees, hr⟩ := chain_checked h b hb
  obtain ⟨n, r, -, -, e, -, hc⟩ := he.checkReward _ _ _ hr
  rw [e]
  rcases reward_ok hc with ⟨o, u, p, d, d', h1, -⟩ | ⟨h1, -⟩
  · simp [reward, Utxo.Reward.utxoInputs, h1, input, Verifier.Input.outpoint]
  · simp [reward, Utxo.Reward.utxoInputs, h1]

/-- **C55** (C51 for the checks of the code).  On a chain of blocks that has been connected no transaction occurs twice, no output is
spent twice by transactions, and no id of a pool, a delegation, an order or a token (by the rules of today) is made twice –
unless two of the byte strings hashed for the ids of its transactions clash. -/
theorem C55_no_replay (he : N.Enforces env) {bs : List Block} {cs : List (List TransactionV1)} {l l' : Ledger} (hw : Written N bs cs)
    (hc : NoClash N cs.flatten) (ho : Origin l) (hi : (l.utxo.best :: bs.map Block.id).Nodup) (h : l.connects env bs = .ok l') :
    cs.flatten.Nodup ∧ (cs.flatten.flatMap fun c => Ids.spent c.inputs).Nodup ∧
    ∀ kind, (cs.flatten.filterMap fun c => (Ids.make N.k N.H kind c.inputs).toOption).Nodup := by
  have hs := start_of hw hc ho hi
  have h1 := Verifier.C51_no_replay hs (C55_guards he) h
  rw [Verifier.txIds_eq, written_ids hw] at h1
  have h2 := (Verifier.C51_no_double_spend hs (C55_guards he) h).1
  have h3 : ((bs.flatMap Block.txs).flatMap Tx.spends).Nodup := h2.sublist (Verifier.flatMap_spends_sublist bs)
  rw [written_spends hw] at h3
  have h4 := List.Nodup.of_map _ h3
  refine ⟨List.Nodup.of_map _ h1, h4, fun kind => ?_⟩
  have h5 : (cs.flatten.filterMap fun c => (Ids.spent c.inputs).head?).Nodup := by
    refine h4.sublist ?_
    clear * -
    generalize cs.flatten = l
    induction l with
    | nil => simp
    | cons c l ih =>
      rw [List.filterMap_cons, List.flatMap_cons]
      cases hc : Ids.spent c.inputs with
      | nil => simpa using ih
      | cons o os =>
        simp only [List.head?_cons, List.cons_append]
        exact (ih.trans (List.sublist_append_right _ _)).cons_cons _
  have h6 : (cs.flatten.filterMap fun c => (Ids.make N.k N.H kind c.inputs).toOption) =
      (cs.flatten.filterMap fun c => (Ids.spent c.inputs).head?).map fun o => N.H (Ids.hashed kind o) := by
    rw [List.map_filterMap]
    congr 1
    funext c
    rw [Ids.make_eq]
    cases (Ids.spent c.inputs).head? <;> rfl
  rw [h6]
  refine h5.map_on ?_
  intro o ho o' ho' e
  rw [List.mem_filterMap] at ho ho'
  obtain ⟨c, hm, ho⟩ := ho
  obtain ⟨c', hm', ho'⟩ := ho'
  have e := eq_of_hash hc (mem_hashed hm ho kind) (mem_hashed hm' ho' kind) e
  exact (Ids.hashed_inj (Ids.spent_ok (tx_fits (hw.2 c hm)).1 ho) (Ids.spent_ok (tx_fits (hw.2 c' hm')).1 ho') e).2

theorem newChain (he : N.Enforces env) {bs : List Block} {cs : List (List TransactionV1)} {l l' : Ledger} (hw : Written N bs cs)
    (hc : NoClash N cs.flatten) (ho : Origin l) (hi : (l.utxo.best :: bs.map Block.id).Nodup) (hl : Verifier.Linked l.utxo.best bs)
    (h : l.connects env bs = .ok l') : Verifier.NewChain l bs :=
  Verifier.C51_connected_chain_is_new (start_of hw hc ho hi) (C55_guards he) h hl (rewards_utxo he h) ho.nfts fun b _ => ho.undo _

/-- **C55** (C52 for the checks of the code).  The coins at the end of a chain, those destroyed on the way included, are no more than the
coins at its start and the subsidies of its blocks. -/
theorem C55_no_inflation (he : N.Enforces env) {bs : List Block} {cs : List (List TransactionV1)} {l l' : Ledger} (hw : Written N bs cs)
    (hc : NoClash N cs.flatten) (ho : Origin l) (hi : (l.utxo.best :: bs.map Block.id).Nodup) (hl : Verifier.Linked l.utxo.best bs)
    (hwf : l.WF) (hr : Verifier.ChainInRange env l bs) (h : l.connects env bs = .ok l') :
    l'.holds N.read 0 + (bs.map (Block.destroyed N.read N.fees 0)).sum ≤
      l.holds N.read 0 + (bs.map fun b => (N.subsidy b.height : Int)).sum :=
  Verifier.C52_no_inflation (C55_value_guards he) bs hwf (newChain he hw hc ho hi hl h) hr (described he h) h

/-- **C55** (C52 for the checks of the code).  Of a token with a fixed supply there are never more units than that, on a chain that started without
tokens (units of an NFT with the same id, which C50 rules out, apart). -/
theorem C55_token_caps (he : N.Enforces env) {bs : List Block} {cs : List (List TransactionV1)} {l l' : Ledger} (hw : Written N bs cs)
    (hc : NoClash N cs.flatten) (ho : Origin l) (hi : (l.utxo.best :: bs.map Block.id).Nodup) (hl : Verifier.Linked l.utxo.best bs)
    (hwf : l.WF) (hr : Verifier.ChainInRange env l bs) (h : l.connects env bs = .ok l')
    (h0 : ∀ id, l.holds N.read (id + 1) = 0 ∧ l.tokens.data.get id = none ∧ l.supply id = 0 ∧ l.nfts.get id = none)
    (id limit : Nat) (d : Tokens.TokenData) (hd : l'.tokens.data.get id = some d) (hs : d.totalSupply = .fixed limit) :
    l'.holds N.read (id + 1) ≤ limit + l'.nftCount id :=
  (Verifier.C52_token_caps (C55_value_guards he) hwf (newChain he hw hc ho hi hl h) hr (described he h) h h0 id).1 d limit hd hs

/-- **C55** (C52 for the checks of the code).  With the subsidies of mainnet, no chain of blocks at heights 1, 2, … brings the
coins above 599,990,800. -/
theorem C55_mainnet (he : N.Enforces env) {bs : List Block} {cs : List (List TransactionV1)} {l l' : Ledger} (hw : Written N bs cs)
    (hc : NoClash N cs.flatten) (ho : Origin l) (hi : (l.utxo.best :: bs.map Block.id).Nodup) (hl : Verifier.Linked l.utxo.best bs)
    (hwf : l.WF) (hr : Verifier.ChainInRange env l bs) (h : l.connects env bs = .ok l')
    (hs : ∀ h, 0 < h → Emission.subsidy (Emission.mainnetTable 120) h = .ok (N.subsidy h))
    (hh : bs.map Block.height = (List.range bs.length).map (· + 1)) (h0 : l.holds N.read 0 ≤ (Emission.coins 400000000 : Nat)) :
    l'.holds N.read 0 ≤ (Emission.coins 599990800 : Nat) :=
  Verifier.C52_mainnet (C55_value_guards he) hs hwf (newChain he hw hc ho hi hl h) hr (described he h) hh h h0

end Node
end Verif.Policy
