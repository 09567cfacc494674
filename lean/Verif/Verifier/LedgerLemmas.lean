import Verif.Verifier.BlockLemmas

/-!
# The stored state
-/

namespace Verif.Verifier
open Verif Verif.Accounting
open Verif.Utxo (OutPoint Coin Output txOut rewardOut LInv)

/-- a sane stored state: no zero balances are kept, balances are below 2^127, only lockable supplies are locked and
orders hold no more than they started with -/
structure Ledger.WF (l : Ledger) : Prop where
  poolBal : ∀ k n, l.pos.poolBalances.get k = some n → n ≠ 0 ∧ n < 2 ^ 127
  share : ∀ k n, l.pos.shares.get k = some n → n ≠ 0 ∧ n < 2 ^ 127
  delBal : ∀ k n, l.pos.delegationBalances.get k = some n → n ≠ 0 ∧ n < 2 ^ 127
  supply : ∀ k n, l.tokens.supply.get k = some n → n ≠ 0 ∧ n < 2 ^ 127
  ask : ∀ k n, l.orders.ask.get k = some n → n ≠ 0 ∧ n < 2 ^ 127
  give : ∀ k n, l.orders.give.get k = some n → n ≠ 0 ∧ n < 2 ^ 127
  locked : ∀ id d, l.tokens.data.get id = some d → d.locked = true → d.totalSupply = .lockable
  orders : ∀ id, Orders.Sound (l.orders.data.get id) (bal l.orders.ask id) (bal l.orders.give id)

/-- the block is new: its ids are distinct, unknown to the stored state, and it continues the best block -/
structure Fresh (l : Ledger) (b : Block) : Prop where
  prev : b.prev = l.utxo.best
  utxo : ∀ tx ∈ b.txs, ∀ j, l.utxo.utxos.get (txOut tx.id j) = none
  nft : ∀ tx ∈ b.txs, l.nftByTx.get tx.id = none
  nodup : (b.txs.map Tx.id).Nodup
  reward : ∀ j, l.utxo.utxos.get (rewardOut b.id j) = none
  inputs : b.reward.utxoInputs
  utxoUndo : l.utxoUndo.get (chain b.id) = none
  posUndo : l.posUndo.get (chain b.id) = none
  tokensUndo : l.tokensUndo.get (chain b.id) = none
  ordersUndo : l.ordersUndo.get (chain b.id) = none

/-- the stored state holds `s` -/
structure LRep (l : Ledger) (s : St) : Prop where
  utxo : l.utxo.utxos.get = s.utxo
  pos : Pos.DBRep l.pos s.pos
  tokens : Tokens.DBRep l.tokens s.tokens
  orders : Orders.DBRep l.orders s.orders
  locked : s.tokens.LockedOk
  sound : s.orders.Sound
  next : ∀ a, nextOf (l.nonces.get a) = s.next a
  nft : l.nfts.get = s.nft
  nftByTx : l.nftByTx.get = s.nftByTx

/-- what a stored state holds -/
def Ledger.st (l : Ledger) : St where
  utxo := l.utxo.utxos.get
  pos := ⟨l.pos.poolData.get, bal l.pos.poolBalances, bal l.pos.shares, bal l.pos.delegationBalances,
    l.pos.delegationData.get⟩
  tokens := ⟨l.tokens.data.get, bal l.tokens.supply⟩
  orders := ⟨l.orders.data.get, bal l.orders.ask, bal l.orders.give⟩
  next := fun a => nextOf (l.nonces.get a)
  nft := l.nfts.get
  nftByTx := l.nftByTx.get

theorem bal_lt {K : Type} [LinearOrder K] {m : BMap K Nat} (h : ∀ k n, m.get k = some n → n ≠ 0 ∧ n < 2 ^ 127) (k : K) :
    (bal m k : Int) < I128 := by
  unfold bal I128
  cases hk : m.get k with
  | none => simp
  | some n => have := (h k n hk).2; simp only [Option.getD_some]; exact_mod_cast this

theorem bal_pos {K : Type} [LinearOrder K] {m : BMap K Nat} (h : ∀ k n, m.get k = some n → n ≠ 0 ∧ n < 2 ^ 127) (k : K) :
    m.get k ≠ some 0 := fun hk => (h k 0 hk).1 rfl

theorem bal_wf {K : Type} [LinearOrder K] {m : BMap K Nat} {f : K → Nat} (h : ∀ k, bal m k = f k) (h1 : ∀ k, m.get k ≠ some 0)
    (h2 : ∀ k, (f k : Int) < I128) (k : K) (n : Nat) (hk : m.get k = some n) : n ≠ 0 ∧ n < 2 ^ 127 := by
  refine ⟨fun e => h1 k (by rw [hk, e]), ?_⟩
  have h3 := h2 k
  rw [← h k] at h3
  unfold bal at h3
  rw [hk] at h3
  unfold I128 at h3
  simp only [Option.getD_some] at h3
  exact_mod_cast h3

theorem Ledger.WF.rep {l : Ledger} (h : l.WF) : LRep l l.st where
  utxo := rfl
  pos := ⟨fun _ => rfl, fun _ => rfl, fun _ => rfl, fun _ => rfl, fun _ => rfl, bal_pos h.poolBal, bal_pos h.share,
    bal_pos h.delBal, bal_lt h.poolBal, bal_lt h.share, bal_lt h.delBal⟩
  tokens := ⟨fun _ => rfl, fun _ => rfl, bal_pos h.supply, bal_lt h.supply⟩
  orders := ⟨fun _ => rfl, fun _ => rfl, fun _ => rfl, bal_pos h.ask, bal_pos h.give, bal_lt h.ask, bal_lt h.give⟩
  locked := h.locked
  sound := h.orders
  next _ := rfl
  nft := rfl
  nftByTx := rfl

theorem LRep.wf {l : Ledger} {s : St} (h : LRep l s) : l.WF where
  poolBal := bal_wf h.pos.poolBal h.pos.poolBalPos h.pos.poolBalLt
  share := bal_wf h.pos.share h.pos.sharePos h.pos.shareLt
  delBal := bal_wf h.pos.delBal h.pos.delBalPos h.pos.delBalLt
  supply := bal_wf h.tokens.supply h.tokens.supplyPos h.tokens.supplyLt
  ask := bal_wf h.orders.ask h.orders.askPos h.orders.askLt
  give := bal_wf h.orders.give h.orders.givePos h.orders.giveLt
  locked id d hd := h.locked id d (by rw [← h.tokens.data id]; exact hd)
  orders id := by rw [h.orders.data, h.orders.ask, h.orders.give]; exact h.sound id

theorem shown_empty {K A : Type} [LinearOrder K] (base : K → Option A) (k : K) : shown base BMap.empty k = base k := by
  simp [shown]

/-- a new verifier over a stored state -/
theorem LRep.new {l : Ledger} {s : St} (h : LRep l s) : VRep (TxVerifier.new l.base) s where
  uinv := Utxo.new_inv _
  utxo := h.utxo
  pos := h.pos.new
  posp := rfl
  tokens := h.tokens.new
  tokp := rfl
  orders := h.orders.new
  ordp := rfl
  locked := h.locked
  sound := h.sound
  next a := h.next a
  noncesR a n := by simp [TxVerifier.new]
  nft id := by simp only [TxVerifier.new, shown_empty]; exact congrFun h.nft id
  nftR id d hd := by simp [TxVerifier.new] at hd
  nftByTx id := by simp only [TxVerifier.new, shown_empty]; exact congrFun h.nftByTx id
  nftByTxR id d := by simp [TxVerifier.new]

/-- the stored undo data of one source -/
structure LUndo (l : Ledger) (src : Source) (us : US) : Prop where
  utxo : UURep BMap.empty (utxoOfStore l.utxoUndo) src us.uTx us.uRw us.deps
  pos : URep BMap.empty (ofStore l.posUndo) src us.pTx us.pRw
  tokens : URep BMap.empty (ofStore l.tokensUndo) src us.tTx none
  orders : URep BMap.empty (ofStore l.ordersUndo) src us.oTx none

theorem LRep.ready {l : Ledger} {s : St} {src : Source} {us : US} (h : LRep l s) (hu : LUndo l src us) :
    Ready (TxVerifier.new l.base) src s us where
  rep := h.new
  undo := ⟨hu.utxo, hu.pos, hu.tokens, hu.orders⟩
  vac id _ := by simp [TxVerifier.new]
  taken id ht := by
    rcases ht with ht | ht | ht
    · exact absurd ht (not_dead_empty _ _ _)
    · exact absurd ht (not_dead_empty _ _ _)
    · exact absurd ht (not_dead_empty _ _ _)

theorem flush_spec {l : Ledger} {v : TxVerifier} {s0 s : St} {src : Source} {us : US} (h0 : LRep l s0)
    (hbase : v.base = l.base) (hV : VRep v s) (hU : UndoRep v src us) :
    ∃ l', l.flush v = .ok l' ∧ LRep l' s ∧ LUndo l' src us ∧ l'.utxo.best = v.utxo.best ∧
      (∀ x, x ≠ src → l'.utxoUndo.get x = l.utxoUndo.get x ∧ l'.posUndo.get x = l.posUndo.get x ∧
        l'.tokensUndo.get x = l.tokensUndo.get x ∧ l'.ordersUndo.get x = l.ordersUndo.get x) ∧
      (us = US.none → l'.utxoUndo.get src = none ∧ l'.posUndo.get src = none ∧ l'.tokensUndo.get src = none ∧
        l'.ordersUndo.get src = none) := by
  obtain ⟨nfts, e1, r1⟩ := applyOps_spec (store := l.nfts) (c := v.nfts) (fun k a hk => by
    have := hV.nftR k a hk; rw [hbase] at this; exact this)
  obtain ⟨nftByTx, e2, r2⟩ := applyOps_spec (store := l.nftByTx) (c := v.nftByTx) (fun k a hk =>
    absurd hk (hV.nftByTxR k a))
  obtain ⟨nonces, e3, r3⟩ := applyOps_spec (store := l.nonces) (c := v.nonces) (fun k a hk =>
    absurd hk (hV.noncesR k a))
  have hu := hV.uinv
  rw [hbase] at hu
  obtain ⟨utxo, e4, r4⟩ := Utxo.dbWrite_spec (db := l.utxo) hu
  obtain ⟨pos, _, e5, r5⟩ := Pos.Rep.flush h0.pos (by rw [hV.posp, hbase]; rfl) hV.pos
  obtain ⟨tokens, _, e6, r6⟩ := Tokens.Rep.flush h0.tokens (by rw [hV.tokp, hbase]; rfl) hV.tokens
  obtain ⟨orders, _, e7, r7⟩ := Orders.Rep.flush h0.orders (by rw [hV.ordp, hbase]; rfl) hV.orders
  have u1 := hU.utxo; have u2 := hU.pos; have u3 := hU.tokens; have u4 := hU.orders
  rw [hbase] at u1 u2 u3 u4
  obtain ⟨uu, f1, g1, k1, n1⟩ := UURep.flush (store := l.utxoUndo) u1
  obtain ⟨pu, f2, g2, k2, n2⟩ := URep.flush (store := l.posUndo) u2
  obtain ⟨tu, f3, g3, k3, n3⟩ := URep.flush (store := l.tokensUndo) u3
  obtain ⟨ou, f4, g4, k4, n4⟩ := URep.flush (store := l.ordersUndo) u4
  refine ⟨⟨utxo, pos, tokens, orders, nonces, nfts, nftByTx, uu, pu, tu, ou⟩, ?_, ?_, ⟨k1, k2, k3, k4⟩, ?_,
    fun x hx => ⟨g1 x hx, g2 x hx, g3 x hx, g4 x hx⟩, ?_⟩
  · simp only [Ledger.flush, bind_eq_ok, mapErr_ok, pure_eq_ok]
    exact ⟨_, e1, _, e2, _, e4, _, f1, _, e5, _, f2, _, e6, _, f3, _, e3, _, e7, _, f4, rfl⟩
  · refine ⟨?_, r5, r6, r7, hV.locked, hV.sound, ?_, ?_, ?_⟩
    · have := congrArg Utxo.View.utxo r4
      rw [← hV.utxo, hbase]
      exact this
    · intro a
      rw [r3 a, ← hV.next a]
      congr 1
      unfold shown TxVerifier.nonce
      rw [hbase]
      cases v.nonces.get a <;> rfl
    · funext id; rw [r1 id, ← hV.nft id, hbase]; rfl
    · funext id; rw [r2 id, ← hV.nftByTx id, hbase]; rfl
  · exact congrArg Utxo.View.best r4
  · rintro rfl
    exact ⟨n1 (fun _ => rfl) rfl, n2 (fun _ => rfl) rfl, n3 (fun _ => rfl) rfl, n4 (fun _ => rfl) rfl⟩

theorem LRep.ext {l l' : Ledger} {s : St} (h : LRep l s) (h' : LRep l' s) (hb : l.utxo.best = l'.utxo.best)
    (h1 : ∀ x, l.utxoUndo.get x = l'.utxoUndo.get x ∧ l.posUndo.get x = l'.posUndo.get x ∧
      l.tokensUndo.get x = l'.tokensUndo.get x ∧ l.ordersUndo.get x = l'.ordersUndo.get x) : l = l' := by
  obtain ⟨a1, a2, a3, a4, a5, a6, a7, a8, a9, a10, a11⟩ := l
  obtain ⟨b1, b2, b3, b4, b5, b6, b7, b8, b9, b10, b11⟩ := l'
  congr
  · obtain ⟨u, x⟩ := a1
    obtain ⟨u', x'⟩ := b1
    have e1 : u = u' := BMap.ext_get fun k => congrFun (h.utxo.trans h'.utxo.symm) k
    have e2 : x = x' := hb
    rw [e1, e2]
  · exact h.pos.ext h'.pos
  · exact h.tokens.ext h'.tokens
  · exact h.orders.ext h'.orders
  · exact BMap.ext_get fun k => nextOf_inj ((h.next k).trans (h'.next k).symm)
  · exact BMap.ext_get fun k => congrFun (h.nft.trans h'.nft.symm) k
  · exact BMap.ext_get fun k => congrFun (h.nftByTx.trans h'.nftByTx.symm) k
  · exact BMap.ext_get fun k => (h1 k).1
  · exact BMap.ext_get fun k => (h1 k).2.1
  · exact BMap.ext_get fun k => (h1 k).2.2.1
  · exact BMap.ext_get fun k => (h1 k).2.2.2

/-- connecting a new block to a sane stored state: the result is sane, only knows the new ids in addition, and
disconnecting the block gives the stored state back -/
theorem ledger_connect_spec {env : Env} {l l' : Ledger} {b : Block} (hw : l.WF) (hf : Fresh l b)
    (hr : ∀ w ∈ blockTrace env (TxVerifier.new l.base) b, Readable w) (h : l.connect env b = .ok l') :
    l'.WF ∧ l'.utxo.best = b.id ∧ l'.disconnect b = .ok l ∧
      (∀ id, id ∉ b.txs.map Tx.id → l.nftByTx.get id = none → l'.nftByTx.get id = none) ∧
      (∀ k, (∀ tx ∈ b.txs, ∀ j, k ≠ txOut tx.id j) → (∀ j, k ≠ rewardOut b.id j) → l.utxo.utxos.get k = none →
        l'.utxo.utxos.get k = none) ∧
      (∀ x, x ≠ chain b.id → l'.utxoUndo.get x = l.utxoUndo.get x ∧ l'.posUndo.get x = l.posUndo.get x ∧
        l'.tokensUndo.get x = l.tokensUndo.get x ∧ l'.ordersUndo.get x = l.ordersUndo.get x) := by
  simp only [Ledger.connect, bind_eq_ok] at h
  obtain ⟨v, h1, h2⟩ := h
  have hl := hw.rep
  have hno : NoUndo l.base (chain b.id) := by
    refine ⟨?_, ?_, ?_, ?_⟩
    · simp [Ledger.base, utxoOfStore, hf.utxoUndo]
    · simp [Ledger.base, ofStore, hf.posUndo]
    · simp [Ledger.base, ofStore, hf.tokensUndo]
    · simp [Ledger.base, ofStore, hf.ordersUndo]
  obtain ⟨s', us', a1, a2, a3, a4, a5, a6, a7⟩ := connectBlock_spec h1 hr hno hl.new
    ⟨UURep.empty hno.utxo, URep.empty hno.pos, URep.empty hno.tokens, URep.empty hno.orders⟩
    (fun tx ht => ⟨hf.utxo tx ht, rfl, rfl, rfl, rfl, hf.nft tx ht, fun _ _ hd => hd.elim⟩) hf.nodup hf.reward hf.inputs
  obtain ⟨l1, b1, b2, b3, b4, b5, -⟩ := flush_spec hl a3 a1 a2
  rw [h2] at b1
  cases b1
  refine ⟨b2.wf, b4.trans a4, ?_, ?_, ?_, b5⟩
  · obtain ⟨w, c1, c2, c3, c4⟩ := a7 _ (b2.ready b3)
    obtain ⟨l2, d1, d2, d3, d4, d5, d6⟩ := flush_spec b2 c3 c2.rep c2.undo
    have : l2 = l := by
      refine d2.ext hl ((d4.trans c4).trans hf.prev) fun x => ?_
      by_cases hx : x = chain b.id
      · subst hx
        obtain ⟨n1, n2, n3, n4⟩ := d6 rfl
        rw [n1, n2, n3, n4, hf.utxoUndo, hf.posUndo, hf.tokensUndo, hf.ordersUndo]
        exact ⟨rfl, rfl, rfl, rfl⟩
      · obtain ⟨n1, n2, n3, n4⟩ := d5 x hx
        obtain ⟨m1, m2, m3, m4⟩ := b5 x hx
        exact ⟨n1.trans m1, n2.trans m2, n3.trans m3, n4.trans m4⟩
    rw [← this]
    simp only [Ledger.disconnect, bind_eq_ok]
    exact ⟨w, c1, d1⟩
  · intro id hid hs
    rw [b2.nftByTx]
    exact a5 id hid hs
  · intro k hk hk' hs
    rw [b2.utxo]
    exact a6 k hk hk' hs

end Verif.Verifier
