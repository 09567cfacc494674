import Verif.Policy.FrozenLemmas

/-!
# Frozen tokens: transactions, blocks and chains
-/

namespace Verif.Policy
open Verif
open Verif.Verifier
open Verif.Utxo (OutPoint Coin Output txOut rewardOut)
open Verif.Accumulator (Cur TxOutput)

namespace Node
variable {N : Node} {env : Env} {V : Prop}

theorem not_in {v : Tokens.View} {id : Nat} {d : Tokens.TokenData} (hd : v.data id = .ok (some d)) (hf : d.isFrozen = true)
    {x : Orders.OutputValue} (h : thawedValue v x = true) : ¬ isIn id x := by
  cases x with
  | tokenV1 i n =>
    intro e
    have e : i = id := e
    subst e
    simp [thawedValue, thawed, hd, hf] at h
  | _ => exact fun e => e

theorem not_units {v : Tokens.View} {id : Nat} {d : Tokens.TokenData} (hd : v.data id = .ok (some d)) (hf : d.isFrozen = true)
    {o : TxOutput} (h : thawedOutput v o = true) : units id o = 0 := by
  have key : ∀ x, thawedValue v x = true → unitsIn id x = 0 := by
    intro x hx
    have := not_in hd hf hx
    cases x with
    | tokenV1 i n => exact if_neg this
    | _ => rfl
  cases o <;> first | rfl | exact key _ h

/-- a transaction does not touch a frozen token -/
theorem tx_untouched (he : N.Enforces env) {src : Src} {v v' : TxVerifier} {tx : Tx} {fee : Nat} {s : St}
    (h : connectTx env src v tx = .ok (v', fee)) (hr : ∀ w ∈ txTrace env src v tx, Readable w) (hV : VRep v s)
    (hp : ∀ j, s.utxo (txOut tx.id j) = none) (hd : ∀ o ∈ tx.outputs, Fits o.effect (N.read o.out.content) o.out.inUtxoSet)
    (hv1 : V → N.frozenV1 src = true) {id : Nat} {d : Tokens.TokenData} (ht : s.tokens.data id = some d) (hf : d.isFrozen = true)
    (hu : (∃ n, Input.token n (.unfreeze id) ∈ tx.inputs) → d.frozen = .yes false) :
    ∃ s', VRep v' s' ∧ Untouched N.read V id s s' := by
  simp only [connectTx, bind_eq_ok, okOr_eq_ok, ensure_eq_ok, pure_eq_ok, Prod.mk.injEq] at h
  obtain ⟨_, hck, v1, h1, f, hfee, v2, h2, v3, h3, v4, h4, v5, h5, rfl, rfl⟩ := h
  have hrP : ∀ w ∈ posTrace env v1 tx, Readable w := fun w hw => hr w (by simp [txTrace, after, h1, hw])
  have hrT : ∀ w ∈ tokTrace v2 tx, Readable w := fun w hw => hr w (by simp [txTrace, after, h1, h2, hw])
  have hrO : ∀ w ∈ ordTrace v3 tx, Readable w := fun w hw => hr w (by simp [txTrace, after, h1, h2, h3, hw])
  obtain ⟨na, nb, rfl, r1, -⟩ := register_spec h1 hV
  have es : (s.register tx src.block).utxo = s.utxo ∧ (s.register tx src.block).pos = s.pos ∧
      (s.register tx src.block).tokens = s.tokens ∧ (s.register tx src.block).orders = s.orders := by
    unfold St.register
    split <;> exact ⟨rfl, rfl, rfl, rfl⟩
  generalize s.register tx src.block = s1 at r1 es
  obtain ⟨eu, ep, et, eo⟩ := es
  obtain ⟨p, n2, pu, sp1, sp, nx2, rfl, r2, -⟩ := connectPos_run h2 hrP r1
  -- the check
  have hfr := h3
  simp only [connectTokens, bind_eq_ok, ensure_eq_ok] at hfr
  obtain ⟨_, hfr, -⟩ := hfr
  have hfr := he.checkFrozen _ _ _ hfr
  simp only [checkFrozen, Bool.and_eq_true, List.all_eq_true] at hfr
  obtain ⟨hfi, hfo⟩ := hfr
  have vt : ∀ i, v.tokens.view.data i = .ok (s.tokens.data i) := hV.tokens.vData
  have vo : ∀ i, v.orders.view.data i = .ok (s.orders.data i) := hV.orders.vData
  have vd : v.tokens.view.data id = .ok (some d) := by rw [vt, ht]
  obtain ⟨t, n3, tu, st, nx3, tops, rfl, r3, ct1, ct2⟩ := connectTokens_run h3 hrT r2
  obtain ⟨o, n4, ou, so1, so, nx4, rfl, r4, co1, co2, ro1, hso⟩ := connectOrders_run h4 hrO r3
  dsimp only at r4 ct2 co1
  simp only [connectUtxo, bind_eq_ok, mapErr_ok, pure_eq_ok, Prod.exists] at h5
  obtain ⟨l, u, h5, cu, -, rfl⟩ := h5
  have hfresh : Utxo.TxFresh (v.utxo.view v.base.utxo) tx.utxo.id := by
    intro j; rw [hV.utxo]; exact hp j
  obtain ⟨g1, g2, g3, g4, g5, g6, g7⟩ := Utxo.connectTx_spec hV.uinv hfresh h5
  rw [hV.utxo, Verifier.spends_eq] at g6 g7
  refine ⟨{ s1 with utxo := (l.view v.base.utxo).utxo, pos := sp, tokens := st, orders := so, next := nx4 },
    (r4.withUtxo g1 rfl).withUndo cu pu tu ou, ?_⟩
  obtain ⟨k1, k2⟩ := tok_frozen (by rw [← et]; exact ct2) ⟨_, hV.tokens⟩ ht hf (by
    intro hm
    rw [List.mem_append] at hm
    rcases hm with hm | hm
    · exact hu (tokIns_unfreeze ct1 hm)
    · rw [List.mem_flatMap] at hm
      obtain ⟨x, -, hx⟩ := hm
      unfold tokOutOps at hx
      split at hx <;> simp at hx)
  have hord : SameOrders id s.orders so := by
    rw [eo] at co1
    refine ords_spared co2 (ords_spared co1 ⟨fun i d h _ => ⟨⟨d.isFrozen, h⟩, rfl, rfl⟩, fun i d h h' => ⟨d, h, h'⟩⟩ ⟨_, hV.orders⟩
      hV.sound ?_) ro1 hso ?_
    · intro op hop
      rw [List.mem_flatMap] at hop
      obtain ⟨i, hi, hop⟩ := hop
      have hfi := hfi i hi
      have key : ∀ i, thawedOrder v.views i = true → ∀ d, s.orders.data i = some d → ¬ Trades id d := by
        intro i h d' hd'
        have e : v.views.orders.data i = .ok (some d') := by rw [← hd']; exact vo i
        simp only [thawedOrder, e, Bool.and_eq_true] at h
        rintro (h' | h')
        · exact not_in vd hf h.1 h'
        · exact not_in vd hf h.2 h'
      cases i with
      | orderV0 n c =>
        simp only [ordInOps, List.mem_singleton] at hop
        subst hop
        cases c <;> exact key _ hfi
      | order c =>
        simp only [ordInOps, List.mem_singleton] at hop
        subst hop
        cases c with
        | freeze i => exact trivial
        | _ => exact key _ hfi
      | _ => cases hop
    · intro op hop
      rw [List.mem_flatMap] at hop
      obtain ⟨x, hx, hop⟩ := hop
      unfold ordOutOps at hop
      split at hop
      · rename_i i dd heff
        simp only [List.mem_singleton] at hop
        subst hop
        have hfx := hd x hx
        rw [heff] at hfx
        have hth := hfo x hx
        rw [hfx.1] at hth
        simp only [thawedOutput, Bool.and_eq_true] at hth
        rintro (h' | h')
        · exact not_in vd hf hth.1 h'
        · exact not_in vd hf hth.2 h'
      · cases hop
  have hU : ∀ o x, 0 < units id (N.read x.output.content) →
      ((l.view v.base.utxo).utxo o = some x → s.utxo o = some x) ∧
      (V → s.utxo o = some x → (l.view v.base.utxo).utxo o = some x) := by
    rw [g6]
    refine utxo_untouched (fun i j e => (Utxo.txOut_inj.1 e).2) g7 ?_ ?_
    · intro hv k hk x hx
      have hk' : Input.utxo k ∈ tx.inputs := by
        unfold Tx.spends at hk
        rw [List.mem_filterMap] at hk
        obtain ⟨i, hi, e⟩ := hk
        cases i <;> simp [Input.outpoint] at e
        subst e
        exact hi
      have hth := hfi _ hk'
      have e : v.views.utxo k = some x := by rw [← hx, ← hV.utxo]; rfl
      have hth : N.thawedInput (N.frozenV1 src) v.views (.utxo k) = true := hth
      simp only [thawedInput, hv1 hv, e, Bool.not_true, Bool.false_or] at hth
      exact not_units vd hf hth
    · intro o ho _
      obtain ⟨x, hx, rfl⟩ := List.mem_map.1 (show o ∈ tx.outputs.map Out.out from ho)
      exact not_units vd hf (hfo x hx)
  refine ⟨k1.trans ht.symm, k2, fun o x hx => (hU o x hx).1, fun hv o x hx => (hU o x hx).2 hv, hord.order, hord.noOrder⟩

/-- the transactions of a block do not touch a frozen token -/
theorem txs_untouched (he : N.Enforces env) {src : Src} (hv1 : V → N.frozenV1 src = true) {id : Nat} {d : Tokens.TokenData}
    (hf : d.isFrozen = true) : ∀ (txs : List Tx) {v v' : TxVerifier} {fees : List Nat} {s : St},
    connectTxs env src v txs = .ok (v', fees) → (∀ w ∈ txsTrace env src v txs, Readable w) → VRep v s →
    (∀ tx ∈ txs, ∀ j, s.utxo (txOut tx.id j) = none) → (txs.map Tx.id).Nodup →
    (∀ t ∈ txs, ∀ o ∈ t.outputs, Fits o.effect (N.read o.out.content) o.out.inUtxoSet) → s.tokens.data id = some d →
    ((∃ t ∈ txs, ∃ n, Input.token n (.unfreeze id) ∈ t.inputs) → d.frozen = .yes false) →
    ∃ s', VRep v' s' ∧ Untouched N.read V id s s' ∧
      (∀ k, (∀ tx ∈ txs, ∀ j, k ≠ txOut tx.id j) → s.utxo k = none → s'.utxo k = none)
  | [], v, v', fees, s, h, _, hV, _, _, _, _, _ => by
    cases h
    exact ⟨s, hV, .refl s, fun _ _ h => h⟩
  | tx :: txs, v, v', fees, s, h, hr, hV, hp, hnd, hd, ht, hu => by
    simp only [connectTxs, bind_eq_ok, pure_eq_ok, Prod.exists, Prod.mk.injEq] at h
    obtain ⟨v1, fee, h1, v2, fs, h2, rfl, rfl⟩ := h
    simp only [txsTrace, h1, after, List.mem_append] at hr
    rw [List.map_cons, List.nodup_cons] at hnd
    have r1 := fun w hw => hr w (Or.inl hw)
    obtain ⟨s1, V1, U1⟩ := tx_untouched he h1 r1 hV (hp tx (by simp)) (hd tx (by simp)) hv1 ht hf
      (fun hn => hu ⟨tx, by simp, hn⟩)
    obtain ⟨s1', V1', k1, -⟩ := connectTx_value (C55_value_guards he) h1 r1 hV (hp tx (by simp)) (hd tx (by simp))
    obtain rfl := V1.inj V1'
    obtain ⟨s2, V2, U2, k2⟩ := txs_untouched he hv1 hf txs h2 (fun w hw => hr w (Or.inr hw)) V1 (by
        intro t ht j
        refine k1 _ (fun j' e => ?_) (hp t (by simp [ht]) j)
        exact hnd.1 (List.mem_map.2 ⟨t, ht, (Utxo.txOut_inj.1 e).1⟩)) hnd.2 (fun t ht => hd t (by simp [ht]))
      (U1.data.trans ht) (fun ⟨t, ht, hn⟩ => hu ⟨t, by simp [ht], hn⟩)
    exact ⟨s2, V2, U1.trans U2, fun k hk hs => k2 k (fun t ht => hk t (by simp [ht])) (k1 k (hk tx (by simp)) hs)⟩

/-- a block reward does not touch a token -/
theorem reward_untouched (he : N.Enforces env) {v v' : TxVerifier} {b : Block} {fees : List Nat} {s : St}
    (h : connectReward env v b fees = .ok v')
    (hr : ∀ v1, rewardUtxo v b = .ok v1 → ∀ w ∈ rewardTrace env v1 b fees, Readable w) (hV : VRep v s)
    (hf : ∀ j, s.utxo (rewardOut b.id j) = none) (id : Nat) : ∃ s', VRep v' s' ∧ Untouched N.read V id s s' := by
  have hg := C55_value_guards he
  simp only [connectReward, bind_eq_ok, ensure_eq_ok] at h
  obtain ⟨_, hck, v1, h1, h2⟩ := h
  have hr := hr v1 h1
  obtain ⟨maturity, n, hn, hin, -, -⟩ := hg.reward _ _ _ hck
  have hro := reward_units hg hck id
  obtain ⟨l, cu, u, rfl, hu⟩ := rewardUtxo_eq h1
  have hfr : Utxo.RewardFresh (v.utxo.view v.base.utxo) b.id := by
    intro j; rw [hV.utxo]; exact hf j
  obtain ⟨g1, g2, g3, g4, g5⟩ := Utxo.connectReward_set hV.uinv hfr hu
  rw [hV.utxo] at g3 g4 g5
  have hV1 : VRep { v with utxo := l, utxoUndo := cu } { s with utxo := (l.view v.base.utxo).utxo } :=
    (hV.withUtxo g1 rfl).withUndo cu v.posUndo v.tokensUndo v.ordersUndo
  have hU : ∀ o x, 0 < units id (N.read x.output.content) → 
      ((l.view v.base.utxo).utxo o = some x → s.utxo o = some x) ∧
      (V → s.utxo o = some x → (l.view v.base.utxo).utxo o = some x) := by
    rw [g4]
    refine utxo_untouched (fun i j e => (Utxo.rewardOut_inj.1 e).2) g5 ?_ (fun o ho _ => hro o ho)
    intro _ k hk x hx
    have hk' : ∃ is ∈ b.reward.inputs, some k ∈ is := by
      cases hi : b.reward.inputs with
      | none => rw [hi] at hk; cases hk
      | some is =>
        rw [hi] at hk
        have hk : k ∈ is.filterMap _root_.id := hk
        rw [List.mem_filterMap] at hk
        obtain ⟨o, ho, rfl⟩ := hk
        exact ⟨is, rfl, ho⟩
    obtain ⟨is, his, hk'⟩ := hk'
    exact units_pool (hin is his k x hk' (by show (v.utxo.view v.base.utxo).utxo k = _; rw [hV.utxo, hx])) id
  have fin : ∀ p : Pos.Sv, Untouched N.read V id s { s with utxo := (l.view v.base.utxo).utxo, pos := p } := fun p =>
    { Untouched.refl (read := N.read) (V := V) s with noOutput := fun o x hx => (hU o x hx).1, output := fun hv o x hx => (hU o x hx).2 hv }
  cases hb : b.pos with
  | true =>
    simp only [rewardPos, hb, if_true, bind_eq_ok, okOr_eq_ok, mapErr_ok, pure_eq_ok, Prod.exists] at h2
    obtain ⟨p, hp, v2, us, h2, c, -, rfl⟩ := h2
    simp only [rewardTrace, hb, if_true, hp] at hr
    obtain ⟨q, s1, rfl, r2, ch⟩ := posSteps_run h2 hr hV1
    exact ⟨_, r2.withUndo cu c v.tokensUndo v.ordersUndo, fin s1⟩
  | false =>
    simp only [rewardPos, hb] at h2
    cases h2
    exact ⟨_, hV1, fin s.pos⟩

/-- a block does not touch a frozen token -/
theorem block_untouched (he : N.Enforces env) {l l' : Ledger} {b : Block} (hw : l.WF) (hf : Fresh l b)
    (hd : Described N.read b) (hr : InRange env l b) (hv1 : V → N.frozenV1 b.src = true) {id : Nat} {d : Tokens.TokenData}
    (ht : l.tokens.data.get id = some d) (hz : d.isFrozen = true) (hu : Unfreezes id b → d.frozen = .yes false)
    (h : l.connect env b = .ok l') : Untouched N.read V id l.st l'.st := by
  simp only [Ledger.connect, bind_eq_ok] at h
  obtain ⟨v, h1, h2⟩ := h
  have hl := hw.rep
  have h1' := h1
  simp only [connectBlock, bind_eq_ok, pure_eq_ok, Prod.exists] at h1'
  obtain ⟨v1, fees, t1, v3, t2, rfl⟩ := h1'
  have hr' := hr
  simp only [InRange, blockTrace, t1, after, List.mem_append] at hr'
  obtain ⟨s1, V1, U1, k1⟩ := txs_untouched he hv1 hz b.txs t1 (fun w hw => hr' w (Or.inl hw)) hl.new hf.utxo hf.nodup hd ht hu
  obtain ⟨s2, V2, U2⟩ := reward_untouched he t2 (fun v2 u1 w hw => hr' w (Or.inr (by simpa only [u1] using hw))) V1
    (fun j => k1 _ (fun tx _ j' => Utxo.txOut_ne_rewardOut.symm) (hf.reward j)) id
  have hno : NoUndo l.base (Verifier.chain b.id) := by
    refine ⟨?_, ?_, ?_, ?_⟩
    · simp [Ledger.base, utxoOfStore, hf.utxoUndo]
    · simp [Ledger.base, ofStore, hf.posUndo]
    · simp [Ledger.base, ofStore, hf.tokensUndo]
    · simp [Ledger.base, ofStore, hf.ordersUndo]
  obtain ⟨s', us', a1, a2, a3, -⟩ := connectBlock_spec h1 hr hno hl.new
    ⟨UURep.empty hno.utxo, URep.empty hno.pos, URep.empty hno.tokens, URep.empty hno.orders⟩
    (fun tx ht => ⟨hf.utxo tx ht, rfl, rfl, rfl, rfl, hf.nft tx ht, fun _ _ hd => hd.elim⟩) hf.nodup hf.reward hf.inputs
  obtain ⟨l1, b1, b2, -⟩ := flush_spec hl a3 a1 a2
  rw [h2] at b1
  cases b1
  obtain rfl := a1.inj (V2.setBest b.id)
  have e : l'.st = s' := (b2.wf.rep.new).inj b2.new
  rw [e]
  exact U1.trans U2

/-- a chain does not touch a frozen token -/
theorem chain_untouched (he : N.Enforces env) {id : Nat} {d : Tokens.TokenData} (hz : d.isFrozen = true) :
    ∀ (bs : List Block) {l l' : Ledger}, l.WF → NewChain l bs → (∀ b ∈ bs, Described N.read b) → ChainInRange env l bs →
    (V → ∀ b ∈ bs, N.frozenV1 b.src = true) → l.tokens.data.get id = some d → ((∃ b ∈ bs, Unfreezes id b) → d.frozen = .yes false) →
    l.connects env bs = .ok l' → Untouched N.read V id l.st l'.st
  | [], l, l', _, _, _, _, _, _, _, h => by cases h; exact .refl _
  | b :: bs, l, l', hw, hn, hd, hr, hv, ht, hu, h => by
    simp only [Ledger.connects, bind_eq_ok] at h
    obtain ⟨l1, h1, h2⟩ := h
    have U1 := block_untouched he hw hn.fresh (hd b (by simp)) hr.1 (fun V => hv V b (by simp)) ht hz (fun h => hu ⟨b, by simp, h⟩) h1
    obtain ⟨w1, n1, -⟩ := connect_step hw hn hr.1 h1
    exact U1.trans (chain_untouched he hz bs w1 n1 (fun c hc => hd c (by simp [hc])) (hr.2 l1 h1) (fun V c hc => hv V c (by simp [hc]))
      (U1.data.trans ht) (fun ⟨c, hc, h⟩ => hu ⟨c, by simp [hc], h⟩) h2)

end Node
end Verif.Policy
