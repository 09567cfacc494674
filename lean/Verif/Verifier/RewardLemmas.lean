import Verif.Verifier.TxLemmas

/-!
# Connecting and disconnecting a block reward

The undos of a reward distribution are applied in the order in which the operations were made, not in reverse.  That
restores the state because the operations commute.
-/

namespace Verif.Pos
open Verif Verif.Accounting

/-- the balances after delegating -/
def Sv.del (s : Sv) (d p a : Nat) : Sv :=
  { s with
    delBal := fun k => s.delBal k + if k = d then a else 0
    poolBal := fun k => s.poolBal k + if k = p then a else 0
    share := fun k => s.share k + if k = key p d then a else 0 }

/-- the pool after a reward for its staker -/
def Sv.stk (s : Sv) (p : Nat) (x : PoolData) (a : Nat) : Sv :=
  { s with
    poolData := Function.update s.poolData p (some { x with rewards := x.rewards + a })
    poolBal := fun k => s.poolBal k + if k = p then a else 0 }

theorem update_add {K : Type} [DecidableEq K] (f : K → Nat) (k : K) (a : Nat) :
    Function.update f k (f k + a) = fun x => f x + if x = k then a else 0 := by
  funext x
  by_cases h : x = k
  · subst h; simp
  · simp [h]

theorem del_eq (s : Sv) (d p a : Nat) :
    ({ s with
        delBal := Function.update s.delBal d (s.delBal d + a)
        poolBal := Function.update s.poolBal p (s.poolBal p + a)
        share := Function.update s.share (key p d) (s.share (key p d) + a) } : Sv) = s.del d p a := by
  unfold Sv.del
  rw [update_add, update_add, update_add]

theorem stk_eq (s : Sv) (p : Nat) (x : PoolData) (a : Nat) :
    ({ s with
        poolData := Function.update s.poolData p (some { x with rewards := x.rewards + a })
        poolBal := Function.update s.poolBal p (s.poolBal p + a) } : Sv) = s.stk p x a := by
  unfold Sv.stk
  rw [update_add]

theorem del_comm (s : Sv) (d p a d' p' a' : Nat) : (s.del d p a).del d' p' a' = (s.del d' p' a').del d p a := by
  unfold Sv.del
  dsimp only
  congr 1 <;> (funext k; exact Nat.add_right_comm _ _ _)

theorem del_stk (s : Sv) (d p a q a' : Nat) (x : PoolData) : (s.del d p a).stk q x a' = (s.stk q x a').del d p a := by
  unfold Sv.del Sv.stk
  dsimp only
  congr 1
  funext k; exact Nat.add_right_comm _ _ _

/-- the state after delegating a list of amounts -/
def Sv.dels (s : Sv) : List (Nat × Nat × Nat) → Sv
  | [] => s
  | (d, p, a) :: l => (s.del d p a).dels l

theorem dels_del (l : List (Nat × Nat × Nat)) : ∀ (s : Sv) (d p a : Nat), (s.del d p a).dels l = (s.dels l).del d p a := by
  induction l with
  | nil => intro s d p a; rfl
  | cons x l ih =>
    intro s d p a
    obtain ⟨d', p', a'⟩ := x
    simp only [Sv.dels]
    rw [del_comm, ih]

theorem dels_stk (l : List (Nat × Nat × Nat)) : ∀ (s : Sv) (q : Nat) (x : PoolData) (a : Nat),
    (s.dels l).stk q x a = (s.stk q x a).dels l := by
  induction l with
  | nil => intro s q x a; rfl
  | cons y l ih =>
    intro s q x a
    obtain ⟨d', p', a'⟩ := y
    simp only [Sv.dels]
    rw [ih, del_stk]

theorem dels_delData (l : List (Nat × Nat × Nat)) : ∀ (s : Sv), (s.dels l).delData = s.delData := by
  induction l with
  | nil => intro s; rfl
  | cons y l ih => intro s; exact ih _

theorem dels_poolData (l : List (Nat × Nat × Nat)) : ∀ (s : Sv), (s.dels l).poolData = s.poolData := by
  induction l with
  | nil => intro s; rfl
  | cons y l ih => intro s; exact ih _

theorem back_del {s : Sv} {d a : Nat} {data : DelegationData} (h1 : s.delData d = some data) (t : Cache)
    (ht : Rep t (s.del d data.sourcePool a)) : ∃ t', undo t (.delegateStaking d a) = .ok t' ∧ Rep t' s := by
  rw [← del_eq] at ht
  obtain ⟨db, e1, r1⟩ := ht.delBal.sub (k := d) (a := a) (by simp)
  obtain ⟨pb, e2, r2⟩ := ht.poolBal.sub (k := data.sourcePool) (a := a) (by simp)
  obtain ⟨sh, e3, r3⟩ := ht.share.sub (k := key data.sourcePool d) (a := a) (by simp)
  refine ⟨{ t with delta := { t.delta with delegationBalances := db, poolBalances := pb, shares := sh } }, ?_, ?_⟩
  · simp only [undo, ht.vDelData, bind_eq_ok, okOr_eq_ok, pure_eq_ok, lift_ok]
    exact ⟨_, rfl, data, h1, sh, e3, pb, e2, db, e1, rfl⟩
  · refine ⟨ht.poolData, ?_, ?_, ?_, ht.delData⟩
    · simpa using r2
    · simpa using r3
    · simpa using r1

theorem back_stk {s : Sv} {p a : Nat} {d : PoolData} (h1 : s.poolData p = some d) (t : Cache)
    (ht : Rep t (s.stk p d a)) :
    ∃ t', undo t (.increaseStakerRewards p a ⟨some { d with rewards := d.rewards + a }, some d⟩) = .ok t' ∧ Rep t' s := by
  rw [← stk_eq] at ht
  obtain ⟨bs, e1, r1⟩ := ht.poolBal.sub (k := p) (a := a) (by simp)
  obtain ⟨pd, e2, r2⟩ := ht.poolData.undo (k := p) (u := ⟨some { d with rewards := d.rewards + a }, some d⟩)
    (by simp)
  refine ⟨{ t with delta := { t.delta with poolBalances := bs, poolData := pd } }, ?_, ?_⟩
  · simp only [undo, bind_eq_ok, pure_eq_ok, lift_ok]
    exact ⟨pd, e2, bs, e1, rfl⟩
  · refine ⟨?_, ?_, ht.share, ht.delBal, ht.delData⟩
    · simpa [← h1] using r2
    · simpa using r1

theorem delegate_inv {c c' : Cache} {d a : Nat} {u : Undo} {s : Sv} (h : Rep c s)
    (hs : step c (.delegateStaking d a) = .ok (c', u)) (hr : Readable c') :
    ∃ data, s.delData d = some data ∧ u = .delegateStaking d a ∧ Rep c' (s.del d data.sourcePool a) := by
  have hs' := hs
  obtain ⟨data, db, pb, sh, h1, h2, h3, h4, rfl, rfl⟩ := delegateStaking_ok.1 hs
  rw [h.vDelData] at h1
  obtain ⟨v, hv⟩ := hr.delBal d
  obtain ⟨w, hw⟩ := hr.poolBal data.sourcePool
  obtain ⟨x, hx⟩ := hr.share (key data.sourcePool d)
  have hm := move_delegateStaking (Except.ok.inj h1) (h.delBal.of_add h2 hv).1 (h.poolBal.of_add h3 hw).1
    (h.share.of_add h4 hx).1
  obtain ⟨t', e, r⟩ := hm.fwd _ h
  rw [hs'] at e
  cases e
  rw [del_eq] at r
  exact ⟨data, Except.ok.inj h1, rfl, r⟩

theorem increase_inv {c c' : Cache} {p a : Nat} {u : Undo} {s : Sv} (h : Rep c s)
    (hs : step c (.increaseStakerRewards p a) = .ok (c', u)) (hr : Readable c') :
    ∃ d, s.poolData p = some d ∧
      u = .increaseStakerRewards p a ⟨some { d with rewards := d.rewards + a }, some d⟩ ∧ Rep c' (s.stk p d a) := by
  have hs' := hs
  obtain ⟨d, bs, pd, du, h1, h2, h3, h4, rfl, rfl⟩ := increaseStakerRewards_ok.1 hs
  rw [h.vPoolData] at h1
  have h1 := Except.ok.inj h1
  obtain ⟨v, hv⟩ := hr.poolBal p
  obtain ⟨e1, _⟩ := h.poolBal.of_add h2 hv
  have hm := move_increaseStakerRewards h1 h3 e1
  obtain ⟨t', e, r⟩ := hm.fwd _ h
  rw [hs'] at e
  cases e
  rw [stk_eq] at r
  exact ⟨d, h1, rfl, r⟩

end Verif.Pos

namespace Verif.Verifier
open Verif
open Verif.Utxo (OutPoint Coin Output txOut rewardOut LInv)

/-- the parts of a successful staking operation -/
theorem posStep_child {v v' : TxVerifier} {op : Pos.Op} {o : Option Pos.Undo} {s : Pos.Sv} (h : Pos.Rep v.pos s)
    (hs : posStep v op = .ok (v', o)) (hr : Pos.Readable v'.pos) :
    ∃ p u c, v' = { v with pos := p } ∧ o = some u ∧ p.parent = v.pos.parent ∧
      Pos.step (Pos.Cache.new v.pos.view) op = .ok (c, u) ∧ Pos.Readable c ∧ ∀ s', Pos.Rep c s' → Pos.Rep p s' := by
  obtain ⟨p, u, s', h1, h2, h3, h4, h5⟩ := posStep_spec h hs hr
  obtain ⟨c, e1, e2⟩ := h5.fwd _ h.child
  refine ⟨p, u, c, h1, h2, h3, e1, e2.readable, fun s'' hs'' => ?_⟩
  rw [hs''.inj e2]
  exact h4

/-- undoing these, in this order, leads back -/
def Undoes (s' : Pos.Sv) (us : List Pos.Undo) (s : Pos.Sv) : Prop :=
  ∀ w : TxVerifier, Pos.Rep w.pos s' →
    ∃ p, undoEach posUndo w us = .ok { w with pos := p } ∧ p.parent = w.pos.parent ∧ Pos.Rep p s

theorem Undoes.cons {s s1 s2 : Pos.Sv} {u : Pos.Undo} {us : List Pos.Undo}
    (h : ∀ t, Pos.Rep t s2 → ∃ t', Pos.undo t u = .ok t' ∧ Pos.Rep t' s1) (h' : Undoes s1 us s) :
    Undoes s2 (u :: us) s := by
  intro w hw
  obtain ⟨t', e1, e2⟩ := h _ hw.child
  have hp : t'.parent = w.pos.view := Pos.undo_parent e1
  obtain ⟨r, ru, m1, m2⟩ := hw.layer hp e2
  obtain ⟨q, k1, k2, k3⟩ := h' { w with pos := { w.pos with delta := r } } m2
  refine ⟨q, ?_, k2, k3⟩
  have : posUndo w u = .ok { w with pos := { w.pos with delta := r } } := by
    simp only [posUndo, bind_eq_ok, mapErr_ok, pure_eq_ok]
    exact ⟨_, e1, _, m1, rfl⟩
  simp only [undoEach, bind, Except.bind, this]
  exact k1

theorem Undoes.nil (s : Pos.Sv) : Undoes s [] s := fun w hw => ⟨w.pos, rfl, rfl, hw⟩

theorem rewardDels_spec : ∀ (l : List (Nat × Nat)) {rest : List Pos.Op} {v v' : TxVerifier} {us : List Pos.Undo} {s : St},
    collect posStep v (l.map (fun e => Pos.Op.delegateStaking e.1 e.2) ++ rest) = .ok (v', us) →
    (∀ w ∈ visited posStep v (l.map (fun e => Pos.Op.delegateStaking e.1 e.2) ++ rest), Readable w) → VRep v s →
    ∃ p v1 us2 l', v1 = { v with pos := p } ∧ VRep v1 { s with pos := s.pos.dels l' } ∧
      collect posStep v1 rest = .ok (v', us2) ∧
      (∀ w ∈ visited posStep v1 rest, Readable w) ∧
      us = l'.map (fun e => Pos.Undo.delegateStaking e.1 e.2.2) ++ us2 ∧
      ∀ e ∈ l', ∃ data, s.pos.delData e.1 = some data ∧ data.sourcePool = e.2.1
  | [], rest, v, v', us, s, h, hr, hV => ⟨v.pos, v, us, [], rfl, hV, h, hr, rfl, by simp⟩
  | (d, a) :: l, rest, v, v', us, s, h, hr, hV => by
    simp only [List.map_cons, List.cons_append, collect, bind_eq_ok, pure_eq_ok, Prod.exists, Prod.mk.injEq] at h
    obtain ⟨v1, o, h1, v2, us', h2, rfl, rfl⟩ := h
    simp only [List.map_cons, List.cons_append, visited, h1, List.mem_cons] at hr
    obtain ⟨p, u, c, rfl, rfl, hp, e1, e2, e3⟩ := posStep_child hV.pos h1 (hr v1 (Or.inl rfl)).pos
    obtain ⟨data, d1, rfl, d2⟩ := Pos.delegate_inv hV.pos.child e1 e2
    have hV1 := hV.withPos hp (e3 _ d2)
    obtain ⟨q, v3, us2, l', rfl, g2, g3, g4, rfl, g6⟩ := rewardDels_spec l h2 (fun w hw => hr w (Or.inr hw)) hV1
    refine ⟨q, _, us2, (d, data.sourcePool, a) :: l', rfl, g2, g3, g4, by simp, ?_⟩
    intro e he
    rcases List.mem_cons.1 he with rfl | he
    · exact ⟨data, d1, rfl⟩
    · exact g6 e he

theorem undoes_dels : ∀ (l : List (Nat × Nat × Nat)) {s s0 : Pos.Sv} {us : List Pos.Undo},
    (∀ e ∈ l, ∃ data, s.delData e.1 = some data ∧ data.sourcePool = e.2.1) → Undoes s us s0 →
    Undoes (s.dels l) (l.map (fun e => Pos.Undo.delegateStaking e.1 e.2.2) ++ us) s0
  | [], s, s0, us, _, h => h
  | (d, p, a) :: l, s, s0, us, hl, h => by
    simp only [List.map_cons, List.cons_append, Pos.Sv.dels]
    rw [Pos.dels_del]
    obtain ⟨data, h1, h2⟩ := hl (d, p, a) (by simp)
    dsimp only at h1 h2
    subst h2
    exact Undoes.cons (fun t ht => Pos.back_del (by rw [Pos.dels_delData]; exact h1) t ht)
      (undoes_dels l (fun e he => hl e (List.mem_cons_of_mem _ he)) h)

/-- a whole distribution, undone in the order in which it was made -/
theorem distribution_spec {p : Plan} {v v' : TxVerifier} {us : List Pos.Undo} {s : St}
    (h : collect posStep v p.ops = .ok (v', us)) (hr : ∀ w ∈ visited posStep v p.ops, Readable w) (hV : VRep v s) :
    ∃ q s', v' = { v with pos := q } ∧ VRep v' { s with pos := s' } ∧ Undoes s' us s.pos := by
  obtain ⟨q, v1, us2, l', rfl, g2, g3, g4, rfl, g6⟩ := rewardDels_spec _ h hr hV
  simp only [collect, bind_eq_ok, pure_eq_ok, Prod.exists, Prod.mk.injEq] at g3
  obtain ⟨v2, o, h1, v3, us', ⟨rfl, rfl⟩, rfl, rfl⟩ := g3
  simp only [visited, h1, List.mem_cons] at g4
  obtain ⟨q2, u, c, rfl, rfl, hp, e1, e2, e3⟩ := posStep_child g2.pos h1 (g4 v2 (Or.inl rfl)).pos
  obtain ⟨x, d1, rfl, d2⟩ := Pos.increase_inv g2.pos.child e1 e2
  refine ⟨q2, _, rfl, g2.withPos hp (e3 _ d2), ?_⟩
  dsimp only at d1 ⊢
  rw [Pos.dels_poolData] at d1
  rw [Pos.dels_stk]
  exact undoes_dels l' g6 (Undoes.cons (fun t ht => Pos.back_stk d1 t ht) (Undoes.nil _))

/-! ### The reward -/

/-- the states after each operation of a reward distribution -/
def rewardTrace (env : Env) (v : TxVerifier) (b : Block) (fees : List Nat) : List TxVerifier :=
  if b.pos then
    match env.plan v.views b fees with
    | some p => visited posStep v p.ops
    | none => []
  else []

theorem rewardUtxo_spec {v v' : TxVerifier} {b : Block} {s : St} {us : US} (h : rewardUtxo v b = .ok v') (hV : VRep v s)
    (hU : UURep v.utxoUndo v.base.utxoUndo (chain b.id) us.uTx none us.deps) (hb : v.base.utxoUndo (chain b.id) = none)
    (hf : ∀ j, s.utxo (rewardOut b.id j) = none) (hr : b.reward.utxoInputs) :
    ∃ l c u f, v' = { v with utxo := l, utxoUndo := c } ∧ VRep v' { s with utxo := f } ∧ l.best = v.utxo.best ∧
      UURep c v.base.utxoUndo (chain b.id) us.uTx u us.deps ∧
      (∀ k, (∀ j, k ≠ rewardOut b.id j) → s.utxo k = none → f k = none) ∧
      ∀ {w : TxVerifier} {s0 : St}, VRep w s0 → s0.utxo = f →
        UURep w.utxoUndo w.base.utxoUndo (chain b.id) us.uTx u us.deps →
        ∃ l c, unrewardUtxo w b = .ok { w with utxo := l, utxoUndo := c } ∧
          VRep { w with utxo := l, utxoUndo := c } { s0 with utxo := s.utxo } ∧ l.best = w.utxo.best ∧
          UURep c w.base.utxoUndo (chain b.id) us.uTx none us.deps := by
  simp only [rewardUtxo, bind_eq_ok, mapErr_ok, Prod.exists] at h
  obtain ⟨l, u, h1, h2⟩ := h
  have hf' : Utxo.RewardFresh (v.utxo.view v.base.utxo) b.id := by
    intro j; rw [hV.utxo]; exact hf j
  obtain ⟨g1, g2, g3, g4⟩ := Utxo.connectReward_spec hV.uinv hf' hr h1
  have hc : ∃ c, v' = { v with utxo := l, utxoUndo := c } ∧ UURep c v.base.utxoUndo (chain b.id) us.uTx u us.deps := by
    cases u with
    | none => cases h2; exact ⟨v.utxoUndo, rfl, hU⟩
    | some r =>
      simp only [bind_eq_ok, mapErr_ok, pure_eq_ok] at h2
      obtain ⟨c, h3, rfl⟩ := h2
      exact ⟨c, rfl, (hU.of_addReward hb h3).2⟩
  obtain ⟨c, rfl, hc⟩ := hc
  refine ⟨l, c, u, (l.view v.base.utxo).utxo, rfl, (hV.withUtxo g1 rfl).withUndo c v.posUndo v.tokensUndo v.ordersUndo,
    g2, hc, ?_, ?_⟩
  · intro k hk hn
    exact g3 k hk (by rw [hV.utxo]; exact hn)
  · intro w s0 hw hwf hwu
    obtain ⟨c1, k1, k2⟩ := hwu.takeReward
    obtain ⟨l1, k3, k4, k5, k6⟩ := g4 hw.uinv (hw.utxo.trans hwf)
    rw [hV.utxo] at k6
    refine ⟨l1, c1, ?_, (hw.withUtxo k4 k6).withUndo c1 w.posUndo w.tokensUndo w.ordersUndo, k5, k2⟩
    simp only [unrewardUtxo, k1, bind_eq_ok, mapErr_ok, pure_eq_ok]
    exact ⟨_, k3, rfl⟩

theorem rewardPos_spec {env : Env} {v v' : TxVerifier} {b : Block} {fees : List Nat} {s : St} {us : US}
    (h : rewardPos env v b fees = .ok v') (hr : ∀ w ∈ rewardTrace env v b fees, Readable w) (hV : VRep v s)
    (hU : URep v.posUndo v.base.posUndo (chain b.id) us.pTx none) (hb : v.base.posUndo (chain b.id) = none) :
    ∃ q c s' u, v' = { v with pos := q, posUndo := c } ∧ VRep v' { s with pos := s' } ∧
      URep c v.base.posUndo (chain b.id) us.pTx u ∧
      ∀ {w : TxVerifier} {s0 : St}, VRep w s0 → s0.pos = s' → URep w.posUndo w.base.posUndo (chain b.id) us.pTx u →
        ∃ q c, unrewardPos w b = .ok { w with pos := q, posUndo := c } ∧
          VRep { w with pos := q, posUndo := c } { s0 with pos := s.pos } ∧
          URep c w.base.posUndo (chain b.id) us.pTx none ∧
          ∀ x, Dead c w.base.posUndo (chain b.id) x → Dead w.posUndo w.base.posUndo (chain b.id) x := by
  unfold rewardPos at h
  unfold rewardTrace at hr
  unfold unrewardPos
  by_cases hp : b.pos = true
  · simp only [if_pos hp] at h hr ⊢
    simp only [bind_eq_ok, okOr_eq_ok, mapErr_ok, pure_eq_ok, Prod.exists] at h
    obtain ⟨p, h1, v1, ops, h2, c, h3, rfl⟩ := h
    rw [h1] at hr
    obtain ⟨q, s', rfl, e1, e2⟩ := distribution_spec h2 hr hV
    refine ⟨q, c, s', some ops, rfl, e1.withUndo v.utxoUndo c v.tokensUndo v.ordersUndo, (hU.of_addReward hb h3).2, ?_⟩
    intro w s0 hw hws hwu
    obtain ⟨c1, k1, k2, k3⟩ := hwu.takeReward
    obtain ⟨q1, k4, k5, k6⟩ := e2 { w with posUndo := c1 } (by rw [← hws]; exact hw.pos)
    refine ⟨q1, c1, ?_, (hw.withUndo w.utxoUndo c1 w.tokensUndo w.ordersUndo).withPos k5 k6, k2, k3⟩
    simp only [k1]
    exact k4
  · simp only [if_neg hp] at h ⊢
    cases h
    refine ⟨v.pos, v.posUndo, s.pos, none, rfl, hV, hU, ?_⟩
    intro w s0 hw hws hwu
    exact ⟨w.pos, w.posUndo, rfl, by rw [← hws]; exact hw, hwu, fun x hx => hx⟩

end Verif.Verifier
