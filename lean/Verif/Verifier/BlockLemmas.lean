import Verif.Verifier.RewardLemmas

/-!
# Connecting and disconnecting blocks
-/

namespace Verif.Verifier
open Verif
open Verif.Utxo (OutPoint Coin Output txOut rewardOut LInv)

/-- the states after each accounting operation of a list of transactions -/
def txsTrace (env : Env) (src : Src) (v : TxVerifier) : List Tx → List TxVerifier
  | [] => []
  | tx :: txs => txTrace env src v tx ++ after (connectTx env src v tx) fun r => txsTrace env src r.1 txs

theorem disconnectTxs_append (source : Source) (a b : List Tx) : ∀ (v : TxVerifier),
    disconnectTxs source v (a ++ b) = (disconnectTxs source v a).bind fun v1 => disconnectTxs source v1 b := by
  induction a with
  | nil => intro v; rfl
  | cons u us ih =>
    intro v
    simp only [List.cons_append, disconnectTxs, bind]
    cases disconnectTx source v u with
    | error e => rfl
    | ok v1 => exact ih v1

theorem connectTxs_spec {env : Env} {src : Src} : ∀ (txs : List Tx) {v v' : TxVerifier} {fees : List Nat} {s : St} {us : US},
    connectTxs env src v txs = .ok (v', fees) → (∀ w ∈ txsTrace env src v txs, Readable w) →
    NoUndo v.base src.source → VRep v s → UndoRep v src.source us → (∀ tx ∈ txs, Pending s us tx.id) →
    (txs.map Tx.id).Nodup →
    ∃ s' us', VRep v' s' ∧ UndoRep v' src.source us' ∧ v'.base = v.base ∧ v'.utxo.best = v.utxo.best ∧
      (∀ id, id ∉ txs.map Tx.id → Pending s us id → Pending s' us' id) ∧
      (∀ k, (∀ tx ∈ txs, ∀ j, k ≠ txOut tx.id j) → s.utxo k = none → s'.utxo k = none) ∧
      (∀ id, id ∉ txs.map Tx.id → s.nftByTx id = none → s'.nftByTx id = none) ∧
      (us'.uRw = us.uRw ∧ us'.pRw = us.pRw) ∧
      ∀ w, Ready w src.source s' us' →
        ∃ w', disconnectTxs src.source w txs.reverse = .ok w' ∧ Ready w' src.source s us ∧ w'.base = w.base ∧
          w'.utxo.best = w.utxo.best
  | [], v, v', fees, s, us, h, _, _, hV, hU, _, _ => by
    cases h
    exact ⟨s, us, hV, hU, rfl, rfl, fun _ _ h => h, fun _ _ h => h, fun _ _ h => h, ⟨rfl, rfl⟩, fun w hw => ⟨w, rfl, hw, rfl, rfl⟩⟩
  | tx :: txs, v, v', fees, s, us, h, hr, hb, hV, hU, hp, hn => by
    simp only [connectTxs, bind_eq_ok, pure_eq_ok, Prod.exists, Prod.mk.injEq] at h
    obtain ⟨v1, fee, h1, v2, fees', h2, rfl, rfl⟩ := h
    simp only [txsTrace, h1, after, List.mem_append] at hr
    simp only [List.map_cons, List.nodup_cons] at hn
    obtain ⟨s1, us1, a1, a2, a3, a4, -, a6, a7, a10, a8, a9⟩ := connectTx_spec h1 (fun w hw => hr w (Or.inl hw)) hb hV hU
      (hp tx (by simp))
    obtain ⟨s2, us2, b1, b2, b3, b4, b6, b7, b10, b8, b9⟩ := connectTxs_spec txs h2 (fun w hw => hr w (Or.inr hw))
      (by rw [a3]; exact hb) a1 a2 (fun t ht => a6 _ (by
        rintro e; exact hn.1 (List.mem_map.2 ⟨t, ht, e⟩)) (hp t (List.mem_cons_of_mem _ ht))) hn.2
    refine ⟨s2, us2, b1, b2, b3.trans a3, b4.trans a4, ?_, ?_, ?_, ⟨b8.1.trans a8.1, b8.2.trans a8.2⟩, ?_⟩
    · intro id hid hpe
      simp only [List.map_cons, List.mem_cons, not_or] at hid
      exact b6 id hid.2 (a6 id hid.1 hpe)
    · intro k hk hs
      exact b7 k (fun t ht => hk t (List.mem_cons_of_mem _ ht)) (a7 k (hk tx (by simp)) hs)
    · intro id hid hs
      simp only [List.map_cons, List.mem_cons, not_or] at hid
      exact b10 id hid.2 (a10 id hid.1 hs)
    · intro w hw
      obtain ⟨w1, c1, c2, c3, c4⟩ := b9 w hw
      obtain ⟨w2, d1, d2, d3, d4⟩ := a9 w1 c2
      refine ⟨w2, ?_, d2, d3.trans c3, d4.trans c4⟩
      rw [List.reverse_cons, disconnectTxs_append, c1]
      simp only [Except.bind, disconnectTxs, bind, d1]

/-- the states after each accounting operation of a block -/
def blockTrace (env : Env) (v : TxVerifier) (b : Block) : List TxVerifier :=
  txsTrace env b.src v b.txs ++ after (connectTxs env b.src v b.txs) fun r =>
    after (rewardUtxo r.1 b) fun v1 => rewardTrace env v1 b r.2

/-- no undo data -/
def US.none : US := ⟨fun _ => .none, .none, fun _ _ => False, fun _ => .none, .none, fun _ => .none, fun _ => .none⟩

theorem VRep.setBest {v : TxVerifier} {s : St} (h : VRep v s) (id : Nat) : VRep (setBest v id) s :=
  { h with }

theorem connectBlock_spec {env : Env} {v v' : TxVerifier} {b : Block} {s : St} (h : connectBlock env v b = .ok v')
    (hr : ∀ w ∈ blockTrace env v b, Readable w) (hb : NoUndo v.base (chain b.id)) (hV : VRep v s)
    (hU : UndoRep v (chain b.id) US.none) (hp : ∀ tx ∈ b.txs, Pending s US.none tx.id) (hn : (b.txs.map Tx.id).Nodup)
    (hf : ∀ j, s.utxo (rewardOut b.id j) = none) (hri : b.reward.utxoInputs) :
    ∃ s' us', VRep v' s' ∧ UndoRep v' (chain b.id) us' ∧ v'.base = v.base ∧ v'.utxo.best = b.id ∧
      (∀ id, id ∉ b.txs.map Tx.id → s.nftByTx id = none → s'.nftByTx id = none) ∧
      (∀ k, (∀ tx ∈ b.txs, ∀ j, k ≠ txOut tx.id j) → (∀ j, k ≠ rewardOut b.id j) → s.utxo k = none →
        s'.utxo k = none) ∧
      ∀ w, Ready w (chain b.id) s' us' →
        ∃ w', disconnectBlock w b = .ok w' ∧ Ready w' (chain b.id) s US.none ∧ w'.base = w.base ∧
          w'.utxo.best = b.prev := by
  simp only [connectBlock, connectReward, bind_eq_ok, pure_eq_ok, Prod.exists] at h
  obtain ⟨v1, fees, h1, v3, ⟨_, -, v2, h2, h3⟩, rfl⟩ := h
  simp only [blockTrace, h1, h2, after, List.mem_append] at hr
  have hne : ∀ i j tid, rewardOut b.id i ≠ txOut tid j := by
    intro i j tid e
    simp only [rewardOut, txOut, toLex_inj, Prod.mk.injEq] at e
    omega
  obtain ⟨s1, us1, a1, a2, a3, a4, a6, a7, a10, a8, a9⟩ := connectTxs_spec b.txs h1 (fun w hw => hr w (Or.inl hw))
    (by exact hb) hV hU hp hn
  have hsrc : b.src.source = chain b.id := rfl
  rw [hsrc] at a2 a9
  have hb1 : NoUndo v1.base (chain b.id) := by rw [a3]; exact hb
  have au : UURep v1.utxoUndo v1.base.utxoUndo (chain b.id) us1.uTx none us1.deps := by
    have := a2.utxo; rw [a8.1] at this; exact this
  have ap : URep v1.posUndo v1.base.posUndo (chain b.id) us1.pTx none := by
    have := a2.pos; rw [a8.2] at this; exact this
  obtain ⟨l, c, u, f, rfl, b1, b2, b3, b4, b5⟩ := rewardUtxo_spec h2 a1 au hb1.utxo
    (fun j => a7 _ (fun tx _ i => hne j i tx.id) (hf j)) hri
  obtain ⟨q, pc, sp, pr, rfl, c1, c2, c3⟩ := rewardPos_spec (us := us1) h3 (fun w hw => hr w (Or.inr hw)) b1 ap hb1.pos
  refine ⟨_, { us1 with uRw := u, pRw := pr }, c1.setBest _, ⟨b3, c2, a2.tokens, a2.orders⟩, a3, rfl, ?_, ?_, ?_⟩
  · intro id hid hs
    exact a10 id hid hs
  · intro k hk hk' hs
    exact b4 k hk' (a7 k hk hs)
  · intro w hw
    obtain ⟨l1, d1, e1, e2, e3, e4⟩ := b5 hw.rep rfl hw.undo.utxo
    obtain ⟨q1, d2, e5, e6, e7, e8⟩ := c3 e2 rfl hw.undo.pos
    obtain ⟨w2, f1, f2, f3, f4⟩ := a9 _ (show Ready _ (chain b.id) s1 us1 from ⟨e6, ⟨by rw [a8.1]; exact e4, by rw [a8.2]; exact e7, hw.undo.tokens,
      hw.undo.orders⟩, hw.vac, fun id ht => hw.taken id (by
        rcases ht with ht | ht | ht
        · exact Or.inl (e8 id ht)
        · exact Or.inr (Or.inl ht)
        · exact Or.inr (Or.inr ht))⟩)
    refine ⟨setBest w2 b.prev, ?_, ⟨f2.rep.setBest _, ⟨f2.undo.utxo, f2.undo.pos, f2.undo.tokens, f2.undo.orders⟩,
      f2.vac, f2.taken⟩, f3, rfl⟩
    simp only [disconnectBlock, disconnectReward, bind_eq_ok, pure_eq_ok]
    exact ⟨_, ⟨_, e1, e5⟩, w2, f1, rfl⟩

end Verif.Verifier
