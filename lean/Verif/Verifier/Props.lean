import Verif.Verifier.ChainLemmas
import Verif.Verifier.NftLemmas
import Verif.Mempool.AssembleProps

/-!
# The transaction verifier: properties
-/

set_option maxRecDepth 100000

namespace Verif.Verifier
open Verif
open Verif.Utxo (OutPoint Coin Output txOut rewardOut)

/-! ## Disconnecting restores the stored state -/

/-- **C49.** Connecting a new block to a sane stored state and disconnecting it again succeeds and gives back exactly the
stored state from before: every table, including the undo data.  The state in between is sane and has the block as its
best block. -/
theorem C49_disconnect_undoes_connect {env : Env} {l l' : Ledger} {b : Block} (hw : l.WF) (hf : Fresh l b)
    (hr : InRange env l b) (h : l.connect env b = .ok l') :
    l'.disconnect b = .ok l ∧ l'.WF ∧ l'.utxo.best = b.id :=
  let ⟨a1, a2, a3, _⟩ := ledger_connect_spec hw hf hr h
  ⟨a3, a1, a2⟩

/-- **C49.** The same for any number of blocks. -/
theorem C49_disconnect_undoes_connect_chain {env : Env} {l l' : Ledger} {bs : List Block} (hw : l.WF) (hn : NewChain l bs)
    (hr : ChainInRange env l bs) (h : l.connects env bs = .ok l') : l'.disconnects bs.reverse = .ok l ∧ l'.WF :=
  let ⟨a1, a2⟩ := connects_disconnects bs hw hn hr h
  ⟨a2, a1⟩

/-- **C49.** A reorganisation from one branch to another ends exactly as if the other branch had been followed from the fork
directly: it fails exactly if that fails, with the same error, and otherwise gives the same stored state. -/
theorem C49_reorganize {env : Env} {l l' : Ledger} {old new : List Block} (hw : l.WF) (hn : NewChain l old)
    (hr : ChainInRange env l old) (h : l.connects env old = .ok l') : l'.reorganize env old new = l.connects env new := by
  obtain ⟨-, a2⟩ := connects_disconnects old hw hn hr h
  unfold Ledger.reorganize
  rw [a2]
  rfl

/-- **C49.** After any history of connecting blocks and disconnecting the tip, the stored state is the one obtained by
connecting the blocks of the final chain one after another. -/
theorem C49_state_of_chain {env : Env} {l0 l : Ledger} {bs : List Block} (hw : l0.WF)
    (h : Reaches env l0 (fun bs => NewChain l0 bs ∧ ChainInRange env l0 bs) bs l) : l0.connects env bs = .ok l :=
  (reaches_connects hw h).2

/-- **C49.** So two histories that end with the same chain end with the same stored state. -/
theorem C49_same_chain_same_state {env : Env} {l0 l l' : Ledger} {bs : List Block} (hw : l0.WF)
    (h : Reaches env l0 (fun bs => NewChain l0 bs ∧ ChainInRange env l0 bs) bs l)
    (h' : Reaches env l0 (fun bs => NewChain l0 bs ∧ ChainInRange env l0 bs) bs l') : l = l' :=
  Except.ok.inj ((C49_state_of_chain hw h).symm.trans (C49_state_of_chain hw h'))

/-- **C49.** And the tip of the chain can always be disconnected. -/
theorem C49_tip_can_be_disconnected {env : Env} {l0 l : Ledger} {bs : List Block} {b : Block} (hw : l0.WF)
    (h : Reaches env l0 (fun bs => NewChain l0 bs ∧ ChainInRange env l0 bs) (bs ++ [b]) l) : ∃ l', l.disconnect b = .ok l' := by
  obtain ⟨i1, i2⟩ := reaches_connects hw h
  rcases i1 with ⟨hn, hr⟩ | h0
  · obtain ⟨l1, e1, e2⟩ := connects_snoc.1 i2
    exact ⟨l1, disconnect_tip hw hn hr e1 e2⟩
  · simp at h0

/-! ### A concrete case: two blocks with pools, delegations, tokens, orders, NFTs and a staking reward -/

section Example

def coin (n : Nat) : Output := ⟨true, n⟩
def noOut : Output := ⟨false, 0⟩

def pool7 : Pos.PoolData := ⟨1, 1000, 0, 2, 3, 4⟩

def exEnv : Env where
  checkTx := fun _ _ => true
  checkInputs := fun _ _ _ => some 1
  checkFrozen := fun _ _ _ => true
  checkPool := fun _ _ _ => true
  poolOf := fun n => if n = 70 then some 7 else none
  checkReward := fun _ _ _ => true
  plan := fun _ _ _ => some ⟨BMap.ofList [(8, 5)], 7, 6⟩

/-- a stored state with nothing but a few coins -/
def exGenesis : Ledger where
  utxo := ⟨BMap.ofList ((List.range 8).map fun j => (txOut 0 j, ⟨coin 9, 0⟩)), 0⟩
  pos := ⟨BMap.empty, BMap.empty, BMap.empty, BMap.empty, BMap.empty⟩
  tokens := ⟨BMap.empty, BMap.empty⟩
  orders := ⟨BMap.empty, BMap.empty, BMap.empty⟩
  nonces := BMap.empty
  nfts := BMap.empty
  nftByTx := BMap.empty
  utxoUndo := BMap.empty
  posUndo := BMap.empty
  tokensUndo := BMap.empty
  ordersUndo := BMap.empty

def exTx1 : Tx := ⟨1, [.utxo (txOut 0 0)], [⟨coin 70, .createPool 7 pool7⟩, ⟨noOut, .createDelegation 7 8 3⟩]⟩
def exTx2 : Tx := ⟨2, [.utxo (txOut 0 1)], [⟨noOut, .issueToken 20 ⟨1, 2, 3, .lockable, 5, true⟩⟩,
  ⟨noOut, .createOrder 30 ⟨6, .coin 100, .coin 50, false⟩⟩]⟩
def exTx3 : Tx := ⟨3, [.utxo (txOut 0 2)], [⟨coin 1, .issueNft 40⟩]⟩
def exBlock1 : Block := ⟨101, 0, 1, [exTx1, exTx2, exTx3], ⟨none, some [coin 5]⟩, false⟩

def exTx4 : Tx := ⟨4, [.utxo (txOut 0 3)], [⟨noOut, .delegate 8 100⟩]⟩
def exTx5 : Tx := ⟨5, [.token 0 (.mint 20 500), .utxo (rewardOut 101 0)], [⟨coin 2, .none⟩]⟩
def exTx6 : Tx := ⟨6, [.orderV0 0 (.fill 30 10), .token 1 (.lock 20)], [⟨coin 3, .none⟩]⟩
def exTx7 : Tx := ⟨7, [.account 0 8 40, .utxo (txOut 5 0)], [⟨coin 4, .none⟩]⟩
def exTx8 : Tx := ⟨8, [.account 1 8 10, .order (.freeze 30)], [⟨coin 5, .none⟩]⟩
def exBlock2 : Block :=
  ⟨102, 101, 2, [exTx4, exTx5, exTx6, exTx7, exTx8], ⟨some [some (txOut 0 7)], some [coin 70]⟩, true⟩
def exChain : List Block := [exBlock1, exBlock2]

theorem exGenesis_wf : exGenesis.WF := by
  refine ⟨?_, ?_, ?_, ?_, ?_, ?_, ?_, ?_⟩ <;> intros <;> simp_all [exGenesis, Accounting.bal, Orders.Sound]

theorem ofList_utxo_none {k : OutPoint} (h : (ofLex (ofLex k).1) ≠ (0, 0)) : exGenesis.utxo.utxos.get k = none := by
  cases hk : exGenesis.utxo.utxos.get k with
  | none => rfl
  | some v =>
    have hm := BMap.mem_entries.2 hk
    have : ∀ e ∈ exGenesis.utxo.utxos.entries, ofLex (ofLex e.1).1 = (0, 0) := by decide +kernel
    exact absurd (this _ hm) h

theorem exChain_new : NewChain exGenesis exChain where
  linked := ⟨rfl, rfl, trivial⟩
  ids := by decide +kernel
  txs := by decide +kernel
  inputs := by
    intro b hb
    simp only [exChain, List.mem_cons, List.not_mem_nil, or_false] at hb
    rcases hb with rfl | rfl <;> simp [exBlock1, exBlock2, Utxo.Reward.utxoInputs]
  utxo := by
    intro id hi j
    refine ofList_utxo_none ?_
    have : id ≠ 0 := by
      revert id
      decide +kernel
    simp [txOut, this]
  reward := by
    intro b hb j
    refine ofList_utxo_none ?_
    simp [rewardOut]
  nft := fun _ _ => rfl
  undo := fun _ _ => ⟨rfl, rfl, rfl, rfl⟩

theorem inRange_of {env : Env} {l : Ledger} {b : Block}
    (h : (blockTrace env (TxVerifier.new l.base) b).all readableB = true) : InRange env l b :=
  fun w hw => readable_of (over_blockTrace hw) (List.all_eq_true.1 h w hw)

theorem exChain_inRange : ChainInRange exEnv exGenesis exChain := by
  refine ⟨inRange_of (by decide +kernel), fun l1 h1 => ⟨inRange_of ?_, fun _ _ => trivial⟩⟩
  have : ∀ l1 ∈ (exGenesis.connect exEnv exBlock1).toOption,
      (blockTrace exEnv (TxVerifier.new l1.base) exBlock2).all readableB = true := by decide +kernel
  exact this l1 (by rw [h1]; rfl)

-- the chain connects, and it is not a trivial one
example : (exGenesis.connects exEnv exChain).toOption.map (fun l => [l.expects (delegationAccount 8), l.expects (tokenAccount 20),
    l.expects (orderAccount 30), l.utxo.utxos.size]) = some [2, 2, 1, 9] := by decide +kernel
example : (exGenesis.connects exEnv exChain).toOption.map (fun l => [l.pos.delegationBalances.get 8, l.tokens.supply.get 20,
    l.orders.give.get 30, l.nftByTx.get 3]) = some [some 55, some 500, some 45, some 40] := by decide +kernel

-- so all of the theorems above apply to it
example : ∃ l', exGenesis.connects exEnv exChain = .ok l' ∧ l'.disconnects exChain.reverse = .ok exGenesis := by
  cases h : exGenesis.connects exEnv exChain with
  | error e =>
    have : (exGenesis.connects exEnv exChain).toOption.isSome = true := by decide +kernel
    rw [h] at this; simp [Except.toOption] at this
  | ok l' => exact ⟨l', rfl, (C49_disconnect_undoes_connect_chain exGenesis_wf exChain_new exChain_inRange h).1⟩

end Example

/-! ## Nonces -/

/-- **C32.** The transactions accepted by a verifier use each account with the nonces it expects, one after the other, and
the account then expects the next one.  The verifier may work over any storage, in particular over other verifiers. -/
theorem C32_nonces_in_order {env : Env} {src : Src} {v v' : TxVerifier} {txs : List Tx} {fees : List Nat}
    (h : connectTxs env src v txs = .ok (v', fees)) (a : Account) :
    noncesFor a (txs.flatMap Tx.uses) = List.range' (v.expects a) (noncesFor a (txs.flatMap Tx.uses)).length ∧
      v'.expects a = v.expects a + (noncesFor a (txs.flatMap Tx.uses)).length ∧
      ∀ n ∈ noncesFor a (txs.flatMap Tx.uses), n < 2 ^ 64 := by
  have hs := (ns_connectTxs _ h).seq
  have := hs.spec a
  have hl : ∀ n ∈ noncesFor a (txs.flatMap Tx.staged), n < 2 ^ 64 := by
    intro n hn
    simp only [noncesFor, List.mem_map, List.mem_filter] at hn
    obtain ⟨u, ⟨hu, -⟩, rfl⟩ := hn
    exact hs.lt u hu
  rw [noncesFor_flatMap a _ _ (noncesFor_staged a)] at this hl
  exact ⟨this.1, this.2, hl⟩

/-- **C32.** For the stored state: after any history of connecting blocks and disconnecting the tip, the blocks of the
chain use each account with consecutive nonces, starting with the one expected at first, and the account expects the one
after the last. -/
theorem C32_nonces_of_chain {env : Env} {l0 l : Ledger} {bs : List Block} (h : Reaches env l0 (fun _ => True) bs l) (a : Account) :
    noncesFor a (bs.flatMap Block.uses) = List.range' (l0.expects a) (noncesFor a (bs.flatMap Block.uses)).length ∧
      l.expects a = l0.expects a + (noncesFor a (bs.flatMap Block.uses)).length :=
  reaches_nonces h a

/-- **C32.** In particular from a state without nonces they are 0, 1, 2, … -/
theorem C32_nonces_from_zero {env : Env} {l0 l : Ledger} {bs : List Block} (h0 : l0.nonces = BMap.empty)
    (h : Reaches env l0 (fun _ => True) bs l) (a : Account) :
    ∃ k, noncesFor a (bs.flatMap Block.uses) = List.range k ∧ l.expects a = k := by
  obtain ⟨h1, h2⟩ := reaches_nonces h a
  have : l0.expects a = 0 := by simp [Ledger.expects, h0, nextOf]
  rw [this] at h1 h2
  exact ⟨_, by rw [List.range_eq_range']; exact h1, by omega⟩

/-- **C32.** So no account is used twice with the same nonce on a chain: no signed account spend can be replayed. -/
theorem C32_no_replay {env : Env} {l0 l : Ledger} {bs : List Block} (h : Reaches env l0 (fun _ => True) bs l) :
    (bs.flatMap Block.uses).Nodup := by
  rw [List.nodup_iff_count_le_one]
  intro u
  have h1 := (reaches_nonces h u.1).1
  have h2 : (noncesFor u.1 (bs.flatMap Block.uses)).Nodup := by rw [h1]; exact List.nodup_range'
  have h3 := List.nodup_iff_count_le_one.1 h2 u.2
  refine le_trans (le_of_eq ?_) h3
  unfold noncesFor
  generalize bs.flatMap Block.uses = us
  induction us with
  | nil => rfl
  | cons w us ih =>
    rw [List.count_cons, List.filter_cons]
    by_cases hw : w.1 = u.1
    · simp only [hw, decide_true, if_true, List.map_cons, List.count_cons, ih]
      congr 1
      by_cases h2 : w.2 = u.2
      · have : w = u := Prod.ext hw h2
        simp [this]
      · have : w ≠ u := fun e => h2 (by rw [e])
        simp [this, h2]
    · have : w ≠ u := fun e => hw (by rw [e])
      simp [hw, this, ih]

/-- **C32.** A transaction whose first use of an account carries another nonce than the expected one is rejected. -/
theorem C32_wrong_nonce_rejected {env : Env} {src : Src} {v : TxVerifier} {tx : Tx} {a : Account} {n : Nat} {ns : List Nat}
    (hn : noncesFor a tx.uses = n :: ns) (hne : n ≠ v.expects a) (r) : connectTx env src v tx ≠ .ok r := by
  intro h
  obtain ⟨v', fee⟩ := r
  have := ((ns_connectTx h).seq.spec a).1
  rw [noncesFor_staged, hn, List.length_cons, List.range'_succ] at this
  exact hne (List.cons.inj this).1

/-- **C32.** The nonce check itself accepts exactly the expected nonce, as long as it fits 64 bits, and changes nothing
else. -/
theorem C32_nonce_accepted_iff {v : TxVerifier} {a : Account} {n : Nat} (hv : ∀ m, v.nonce a = some m → m < 2 ^ 64) :
    (∃ v', spendNonce v a n = .ok v') ↔ n = v.expects a ∧ n < 2 ^ 64 := by
  constructor
  · rintro ⟨v', h⟩
    obtain ⟨e1, e2, -⟩ := spendNonce_spec h
    exact ⟨e1.symm, e2⟩
  · rintro ⟨rfl, h2⟩
    unfold spendNonce TxVerifier.expects at *
    cases hm : v.nonce a with
    | none =>
      simp only [hm, nextOf] at h2 ⊢
      exact ⟨_, rfl⟩
    | some m =>
      rw [hm] at h2
      simp only [nextOf] at h2
      refine ⟨{ v with nonces := v.nonces.insert a (.write (m + 1)) }, ?_⟩
      simp only [expectedNonce, nextOf]
      rw [if_pos h2]
      simp [ensure, bind, Except.bind, pure, Except.pure]

/-- **C32.** Disconnecting a transaction lowers the nonce that each account expects by the number of its uses: the nonces it
had used are expected again. -/
theorem C32_disconnect_transaction {source : Source} {v v' : TxVerifier} {tx : Tx} (h : disconnectTx source v tx = .ok v')
    (a : Account) : v.expects a = v'.expects a + (noncesFor a tx.uses).length := by
  rw [(nb_disconnectTx h).expects, ← uses_acc]
  rfl

/-- **C32.** The same for a block of the stored state. -/
theorem C32_disconnect_block {l l' : Ledger} {b : Block} (h : l.disconnect b = .ok l') (a : Account) :
    l.expects a = l'.expects a + (noncesFor a b.uses).length := block_unspend h a

/-- **C32.** Layers: a new verifier over a verifier expects the same nonces, and after its nonces have been flushed, the
verifier below expects what the upper one did. -/
theorem C32_layers {p : TxVerifier} {rest : Base} :
    (TxVerifier.new (p.nonceBase rest)).expects = p.expects ∧
      ∀ c : TxVerifier, c.base = p.nonceBase rest → (∀ a n, c.nonces.get a ≠ some (.read n)) →
        ∃ p', flushNonces p c.nonces = .ok p' ∧ p'.expects = c.expects := by
  refine ⟨funext fun a => ?_, fun c hc hn => ?_⟩
  · simp [TxVerifier.expects, TxVerifier.nonce, TxVerifier.new, TxVerifier.nonceBase]
  · obtain ⟨m, hm⟩ := (BMap.mergeM_isOk_iff (fun _ => flushNonce) p.nonces c.nonces).2 (by
        intro k op _
        cases op <;> exact ⟨_, rfl⟩)
    refine ⟨{ p with nonces := m }, ?_, funext fun a => ?_⟩
    · unfold flushNonces; rw [hm]; rfl
    · have := (BMap.mergeM_ok_iff _ _ _ _).1 hm a
      unfold TxVerifier.expects TxVerifier.nonce
      cases h : c.nonces.get a with
      | none =>
        rw [h] at this
        dsimp only at this ⊢
        rw [this, hc]
        rfl
      | some op =>
        rw [h] at this
        cases op with
        | write n => have := Except.ok.inj this; dsimp only at this ⊢; rw [← this]
        | read n => exact absurd h (hn a n)
        | erase => have := Except.ok.inj this; dsimp only at this ⊢; rw [← this]

-- the chain from above
example : noncesFor (delegationAccount 8) (exChain.flatMap Block.uses) = [0, 1] ∧
    noncesFor (tokenAccount 20) (exChain.flatMap Block.uses) = [0, 1] ∧
    noncesFor (orderAccount 30) (exChain.flatMap Block.uses) = [0] := by decide +kernel
-- with the nonces swapped it is rejected
example : (exGenesis.connects exEnv [exBlock1, { exBlock2 with txs := [exTx4, exTx8, exTx7] }]).toOption.isNone := by
  decide +kernel

/-! ## Findings -/

/-- **C49 (finding).** A transaction that issues an NFT cannot be disconnected from the verifier it was connected to: the
cache refuses to look up an NFT that it already has.  The mempool evicts transactions in this way. -/
theorem C49_nft_cannot_be_disconnected {env : Env} {src : Src} {v v' : TxVerifier} {tx : Tx} {fee id : Nat} {source : Source}
    (h : connectTx env src v tx = .ok (v', fee)) (hn : tx.nft = some id) (r) : disconnectTx source v' tx ≠ .ok r :=
  disconnectTx_nft hn (by rw [nft_connectTx h hn]; simp)

def memSrc : Src := ⟨mempool, 1, 0⟩

def disconnectFrom (v : TxVerifier) (tx : Tx) : Option TxVerifier := (disconnectTx mempool v tx).toOption

example : ((connectTx exEnv memSrc (TxVerifier.new exGenesis.base) exTx3).toOption.map
    fun r => (disconnectFrom r.1 exTx3).isNone) = some true := by decide +kernel
-- without an NFT it works
example : ((connectTx exEnv memSrc (TxVerifier.new exGenesis.base) exTx1).toOption.map
    fun r => (disconnectFrom r.1 exTx1).isSome) = some true := by decide +kernel

/-- **C49 (finding).** A transaction that was disconnected from a verifier can in general not be connected to it again: if
the verifier holds undo data of other transactions of the same source, the place of its own counts as taken. -/
theorem C49_reconnect_fails : ∃ (env : Env) (l : Ledger) (t1 t2 : Tx) (v1 v2 v3 : TxVerifier) (f1 f2 : Nat),
    connectTx env memSrc (TxVerifier.new l.base) t1 = .ok (v1, f1) ∧ connectTx env memSrc v1 t2 = .ok (v2, f2) ∧
      disconnectTx mempool v2 t1 = .ok v3 ∧ connectTx env memSrc v3 t1 = .error (.undo .undoAlreadyExists) := by
  have key : ((connectTx exEnv memSrc (TxVerifier.new exGenesis.base) exTx1).toOption.bind fun r1 =>
      (connectTx exEnv memSrc r1.1 exTx2).toOption.bind fun r2 => (disconnectTx mempool r2.1 exTx1).toOption.map fun v3 =>
        match connectTx exEnv memSrc v3 exTx1 with
        | .error e => decide (e = .undo .undoAlreadyExists)
        | .ok _ => false) = some true := by decide +kernel
  refine ⟨exEnv, exGenesis, exTx1, exTx2, ?_⟩
  cases h1 : connectTx exEnv memSrc (TxVerifier.new exGenesis.base) exTx1 with
  | error e => rw [h1] at key; simp [Except.toOption] at key
  | ok r1 =>
    cases h2 : connectTx exEnv memSrc r1.1 exTx2 with
    | error e => rw [h1] at key; simp [Except.toOption, h2] at key
    | ok r2 =>
      cases h3 : disconnectTx mempool r2.1 exTx1 with
      | error e => rw [h1] at key; simp [Except.toOption, h2, h3] at key
      | ok v3 =>
        cases h4 : connectTx exEnv memSrc v3 exTx1 with
        | ok r => rw [h1] at key; simp [Except.toOption, h2, h3, h4] at key
        | error e =>
          rw [h1] at key
          simp [Except.toOption, h2, h3, h4] at key
          subst key
          exact ⟨r1.1, r2.1, v3, r1.2, r2.2, rfl, h2, h3, h4⟩

/-! ### Block assembly with this verifier -/

/-- the stored state: a pool, a delegation with a balance of 100, an order -/
def exBlockD : Block := ⟨102, 101, 2, [exTx4], ⟨none, none⟩, false⟩
def exLedger : Option Ledger := (exGenesis.connects exEnv [exBlock1, exBlockD]).toOption

/-- fills the order and delegates 50 -/
def fillTx : Tx := ⟨11, [.order (.fill 30 10), .utxo (txOut 0 4)], [⟨noOut, .delegate 8 50⟩]⟩
/-- withdraws 150 from the delegation -/
def withdrawTx : Tx := ⟨12, [.account 0 8 150], [⟨coin 3, .none⟩]⟩
/-- freezes the order -/
def freezeTx : Tx := ⟨13, [.order (.freeze 30), .utxo (txOut 0 5)], [⟨coin 3, .none⟩]⟩

def txTable (id : Nat) : Tx := if id = 11 then fillTx else if id = 12 then withdrawTx else freezeTx

def mem11 : Mempool.Tx := ⟨11, 2000, 100, 1, [.orderCommand 30, .utxo (some 0) 4], [.delegateStaking 8], none, none, none⟩
def mem12 : Mempool.Tx := ⟨12, 1000, 100, 2, [.delegation 8 0], [.other], none, none, none⟩
def mem13 : Mempool.Tx := ⟨13, 3000, 100, 3, [.orderCommand 30, .utxo (some 0) 5], [.other], none, none, none⟩

/-- the mempool after the three transactions have arrived in this order -/
def exPool : Option Mempool.Store :=
  (Mempool.add (Mempool.Store.new 10 100) mem11).toOption.bind fun s =>
    (Mempool.add s mem12).toOption.bind fun s => (Mempool.add s mem13).toOption

/-- block assembly's verifier -/
def exConnect (v : TxVerifier) (t : Mempool.Tx) : TxVerifier × Bool := attempt exEnv memSrc v (txTable t.id)

/-- what block assembly selects -/
def exSelected (s : Mempool.Store) (l : Ledger) : Option (List Nat) :=
  (Mempool.collectTxs s exConnect (fun _ => true) (Mempool.Acc.new 1000) (TxVerifier.new l.base) [] true).toOption.map
    fun st => st.acc.txs.map Mempool.Tx.id

/-- a block with the given transactions on top of the stored state -/
def exBlockOf (ids : List Nat) : Block := ⟨103, 102, 3, ids.map txTable, ⟨none, none⟩, false⟩

/-- **C48 (finding).** A transaction that fails leaves its first effects in the verifier of block assembly, and so block
assembly can select transactions that do not form a valid block.  Here a fill of an order with a delegation, a
withdrawal of the delegated amount and a freeze of the order were accepted in this order.  Block assembly selects the
freeze first, for its fee; the fill fails but its delegation remains; so the withdrawal is selected too.  The
block of freeze and withdrawal is invalid. -/
theorem C48_assembled_block_invalid : ∃ (s : Mempool.Store) (l : Ledger), exPool = some s ∧ exLedger = some l ∧
    (∃ r, connectTxs exEnv memSrc (TxVerifier.new l.base) [fillTx, withdrawTx, freezeTx] = .ok r) ∧
    exSelected s l = some [13, 12] ∧ ∃ e, l.connect exEnv (exBlockOf [13, 12]) = .error e := by
  have k1 : exPool.isSome = true := by decide +kernel
  have k2 : exLedger.isSome = true := by decide +kernel
  obtain ⟨s, hs⟩ := Option.isSome_iff_exists.1 k1
  obtain ⟨l, hl⟩ := Option.isSome_iff_exists.1 k2
  have k3 : (exLedger.map fun l => (connectTxs exEnv memSrc (TxVerifier.new l.base) [fillTx, withdrawTx, freezeTx]).toOption.isSome)
      = some true := by decide +kernel
  have k4 : (exPool.bind fun s => exLedger.bind fun l => exSelected s l) = some [13, 12] := by decide +kernel
  have k5 : (exLedger.map fun l => (l.connect exEnv (exBlockOf [13, 12])).toOption.isNone) = some true := by decide +kernel
  refine ⟨s, l, hs, hl, ?_, ?_, ?_⟩
  · rw [hl] at k3
    simp only [Option.map_some, Option.some.injEq] at k3
    cases h : connectTxs exEnv memSrc (TxVerifier.new l.base) [fillTx, withdrawTx, freezeTx] with
    | ok r => exact ⟨r, rfl⟩
    | error e => rw [h] at k3; simp [Except.toOption] at k3
  · rw [hs, hl] at k4; exact k4
  · rw [hl] at k5
    simp only [Option.map_some, Option.some.injEq] at k5
    cases h : l.connect exEnv (exBlockOf [13, 12]) with
    | ok r => rw [h] at k5; simp [Except.toOption] at k5
    | error e => exact ⟨e, rfl⟩

/-- **C48 (finding).** In other words, the condition under which block assembly was shown to be sound does not hold for the
transaction verifier. -/
theorem C48_verifier_not_atomic : ¬ Mempool.Atomic exConnect := by
  intro h
  have k : (exLedger.map fun l =>
      let v := (exConnect (TxVerifier.new l.base) mem13).1
      let r := exConnect v mem11
      (r.2, (r.1.pos.delta.delegationBalances.get 8).isSome, (v.pos.delta.delegationBalances.get 8).isSome))
      = some (false, true, false) := by decide +kernel
  cases hl : exLedger with
  | none => rw [hl] at k; simp at k
  | some l =>
    rw [hl] at k
    simp only [Option.map_some, Option.some.injEq, Prod.mk.injEq] at k
    obtain ⟨k1, k2, k3⟩ := k
    rw [h _ _ k1] at k2
    rw [k2] at k3
    simp at k3

/-- **C48.** A transaction that fails the first checks, before it could change anything, leaves the verifier alone. -/
theorem C48_early_failure_leaves_nothing {env : Env} {src : Src} {v : TxVerifier} {tx : Tx} (hn : tx.nft = none)
    (h : env.checkTx src tx = false ∨ env.checkInputs v.views src tx = none) : attempt env src v tx = (v, false) := by
  have hreg : register v tx src.block = .ok v := by unfold register; rw [hn]
  unfold attempt connectTx connectTxLeft
  rcases h with h | h
  · simp [h, ensure, bind, Except.bind]
  · cases hc : env.checkTx src tx
    · simp [ensure, bind, Except.bind]
    · simp [ensure, hreg, h, okOr, bind, Except.bind]

end Verif.Verifier
