import Verif.Verifier.Stage

/-!
# Connecting and disconnecting one transaction
-/

namespace Verif.Verifier
open Verif
open Verif.Utxo (OutPoint Coin Output txOut rewardOut LInv)

variable {R T : Type}

/-! ### Undo data -/

/-- `ops` were stored for `id`, unless there were none -/
def Stored {R U : Type} (c : UndoCache R (List U)) (src : Source) (id : Nat) (ops : List U)
    (c' : UndoCache R (List U)) : Prop :=
  (ops = [] ∧ c' = c) ∨ c.addTx src id ops = .ok c'

theorem Stored.rep {R U : Type} {c c' : UndoCache R (List U)} {base : Source → Option (CBlockUndo R (List U))} {src : Source}
    {id : Nat} {ops : List U} {txs : Nat → Option (List U)} {rw : Option R} (h : Stored c src id ops c')
    (hu : URep c base src txs rw) (hb : base src = none) (hn : txs id = none) :
    ∃ o : Option (List U), o.getD [] = ops ∧ URep c' base src (Function.update txs id o) rw := by
  rcases h with ⟨rfl, rfl⟩ | h
  · exact ⟨none, rfl, by rw [← hn, Function.update_eq_self]; exact hu⟩
  · exact ⟨some ops, rfl, (hu.of_addTx hb h).2⟩

/-- the undo data held for one source -/
structure US where
  uTx : Nat → Option (List (Option Coin))
  uRw : Option (List Coin)
  deps : Nat → Nat → Prop
  pTx : Nat → Option (List Pos.Undo)
  pRw : Option (List Pos.Undo)
  tTx : Nat → Option (List Tokens.Undo)
  oTx : Nat → Option (List Orders.Undo)

/-- the verifier holds this undo data -/
structure UndoRep (v : TxVerifier) (src : Source) (us : US) : Prop where
  utxo : UURep v.utxoUndo v.base.utxoUndo src us.uTx us.uRw us.deps
  pos : URep v.posUndo v.base.posUndo src us.pTx us.pRw
  tokens : URep v.tokensUndo v.base.tokensUndo src us.tTx none
  orders : URep v.ordersUndo v.base.ordersUndo src us.oTx none

/-- some undo data of `id` was taken in this verifier -/
def Taken (v : TxVerifier) (src : Source) (id : Nat) : Prop :=
  Dead v.posUndo v.base.posUndo src id ∨ Dead v.tokensUndo v.base.tokensUndo src id ∨
    Dead v.ordersUndo v.base.ordersUndo src id

/-- nothing is stored for the source below the verifier -/
structure NoUndo (b : Base) (src : Source) : Prop where
  utxo : b.utxoUndo src = none
  pos : b.posUndo src = none
  tokens : b.tokensUndo src = none
  orders : b.ordersUndo src = none

theorem VRep.withUndo {v : TxVerifier} {s : St} (h : VRep v s) (a) (b) (c) (d) :
    VRep { v with utxoUndo := a, posUndo := b, tokensUndo := c, ordersUndo := d } s :=
  { h with }

/-! ### Traces -/

/-- what follows a successful result -/
def after {V W : Type} (x : Except Err V) (f : V → List W) : List W :=
  match x with
  | .ok v => f v
  | .error _ => []

/-- the states after each operation of the staking stage -/
def posTrace (env : Env) (v : TxVerifier) (tx : Tx) : List TxVerifier :=
  visited (posInput env) v tx.inputs ++
    after (collect (posInput env) v tx.inputs) fun r => visited (posOutput env tx) r.1 tx.outputs

/-- the states after each operation of the tokens stage -/
def tokTrace (v : TxVerifier) (tx : Tx) : List TxVerifier :=
  visited (tokInput tx) v tx.inputs ++
    after (collect (tokInput tx) v tx.inputs) fun r => visited tokOutput r.1 tx.outputs

/-- the states after each operation of the orders stage -/
def ordTrace (v : TxVerifier) (tx : Tx) : List TxVerifier :=
  visited ordInput v tx.inputs ++ after (collect ordInput v tx.inputs) fun r => visited ordOutput r.1 tx.outputs

/-- the states after each accounting operation of a transaction -/
def txTrace (env : Env) (src : Src) (v : TxVerifier) (tx : Tx) : List TxVerifier :=
  after (register v tx src.block) fun v1 => posTrace env v1 tx ++
    after (connectPos env src v1 tx) fun v2 => tokTrace v2 tx ++
      after (connectTokens env src v2 tx) fun v3 => ordTrace v3 tx

/-! ### Stages -/

theorem bump_none {A : Type} (next : Account → Nat) (xs : List A) :
    bump next (xs.filterMap fun _ => (none : Option Account)) = next := by
  simp

theorem connectPos_spec {env : Env} {src : Src} {v v' : TxVerifier} {tx : Tx} {s : St}
    (h : connectPos env src v tx = .ok v') (hr : ∀ w ∈ posTrace env v tx, Readable w) (hV : VRep v s) :
    ∃ p n pu s' ops, v' = { v with pos := p, nonces := n, posUndo := pu } ∧
      VRep v' { s with pos := s', next := bump s.next (tx.inputs.filterMap Input.posAcc) } ∧ Chain posB s.pos ops s' ∧
      Stored v.posUndo src.source tx.id ops pu := by
  simp only [connectPos, bind_eq_ok, Prod.exists] at h
  obtain ⟨v1, us1, h1, v2, us2, h2, _, -, h3⟩ := h
  have hr' := hr
  simp only [posTrace, h1, after, List.mem_append] at hr'
  have e1 := collect_spec (P := PosEff Input.posAcc) (PosEff.nil _) (fun hx hg hp => (posInput_spec hx hg).cons hp) h1
    fun w hw => hr' w (Or.inl hw)
  have e2 := collect_spec (P := PosEff fun _ : Out => none) (PosEff.nil _)
    (fun hx hg hp => (posOutput_spec hx hg).cons hp) h2 fun w hw => hr' w (Or.inr hw)
  obtain ⟨p1, n1, s1, rfl, r1, c1⟩ := e1 s hV
  obtain ⟨p2, n2, s2, rfl, r2, c2⟩ := e2 _ r1
  rw [bump_none] at r2
  have hc := c1.append c2
  cases hus : us1 ++ us2 with
  | nil =>
    rw [hus] at h3 hc
    cases h3
    exact ⟨p2, n2, v.posUndo, s2, [], rfl, r2, hc, Or.inl ⟨rfl, rfl⟩⟩
  | cons u us =>
    rw [hus] at h3 hc
    simp only [storePosUndo, bind_eq_ok, mapErr_ok, pure_eq_ok] at h3
    obtain ⟨c, h4, rfl⟩ := h3
    exact ⟨p2, n2, c, s2, u :: us, rfl, r2.withUndo _ _ _ _, hc, Or.inr h4⟩

theorem connectTokens_spec {env : Env} {src : Src} {v v' : TxVerifier} {tx : Tx} {s : St}
    (h : connectTokens env src v tx = .ok v') (hr : ∀ w ∈ tokTrace v tx, Readable w) (hV : VRep v s) :
    ∃ p n pu s' ops, v' = { v with tokens := p, nonces := n, tokensUndo := pu } ∧
      VRep v' { s with tokens := s', next := bump s.next (tx.inputs.filterMap Input.tokAcc) } ∧
      Chain tokB s.tokens ops s' ∧ Stored v.tokensUndo src.source tx.id ops pu := by
  simp only [connectTokens, bind_eq_ok, Prod.exists] at h
  obtain ⟨_, -, v1, us1, h1, v2, us2, h2, h3⟩ := h
  have hr' := hr
  simp only [tokTrace, h1, after, List.mem_append] at hr'
  have e1 := collect_spec (P := TokEff Input.tokAcc) (TokEff.nil _) (fun hx hg hp => (tokInput_spec hx hg).cons hp) h1
    fun w hw => hr' w (Or.inl hw)
  have e2 := collect_spec (P := TokEff fun _ : Out => none) (TokEff.nil _)
    (fun hx hg hp => (tokOutput_spec hx hg).cons hp) h2 fun w hw => hr' w (Or.inr hw)
  obtain ⟨p1, n1, s1, rfl, r1, c1⟩ := e1 s hV
  obtain ⟨p2, n2, s2, rfl, r2, c2⟩ := e2 _ r1
  rw [bump_none] at r2
  have hc := c1.append c2
  cases hus : us1 ++ us2 with
  | nil =>
    rw [hus] at h3 hc
    cases h3
    exact ⟨p2, n2, v.tokensUndo, s2, [], rfl, r2, hc, Or.inl ⟨rfl, rfl⟩⟩
  | cons u us =>
    rw [hus] at h3 hc
    simp only [storeTokUndo, bind_eq_ok, mapErr_ok, pure_eq_ok] at h3
    obtain ⟨c, h4, rfl⟩ := h3
    exact ⟨p2, n2, c, s2, u :: us, rfl, r2.withUndo _ _ _ _, hc, Or.inr h4⟩

theorem connectOrders_spec {src : Src} {v v' : TxVerifier} {tx : Tx} {s : St}
    (h : connectOrders src v tx = .ok v') (hr : ∀ w ∈ ordTrace v tx, Readable w) (hV : VRep v s) :
    ∃ p n pu s' ops, v' = { v with orders := p, nonces := n, ordersUndo := pu } ∧
      VRep v' { s with orders := s', next := bump s.next (tx.inputs.filterMap Input.ordAcc) } ∧
      Chain ordB s.orders ops s' ∧ Stored v.ordersUndo src.source tx.id ops pu := by
  simp only [connectOrders, bind_eq_ok, Prod.exists] at h
  obtain ⟨v1, us1, h1, v2, us2, h2, h3⟩ := h
  have hr' := hr
  simp only [ordTrace, h1, after, List.mem_append] at hr'
  have e1 := collect_spec (P := OrdEff Input.ordAcc) (OrdEff.nil _) (fun hx hg hp => (ordInput_spec hx hg).cons hp) h1
    fun w hw => hr' w (Or.inl hw)
  have e2 := collect_spec (P := OrdEff fun _ : Out => none) (OrdEff.nil _)
    (fun hx hg hp => (ordOutput_spec hx hg).cons hp) h2 fun w hw => hr' w (Or.inr hw)
  obtain ⟨p1, n1, s1, rfl, r1, c1⟩ := e1 s hV
  obtain ⟨p2, n2, s2, rfl, r2, c2⟩ := e2 _ r1
  rw [bump_none] at r2
  have hc := c1.append c2
  cases hus : us1 ++ us2 with
  | nil =>
    rw [hus] at h3 hc
    cases h3
    exact ⟨p2, n2, v.ordersUndo, s2, [], rfl, r2, hc, Or.inl ⟨rfl, rfl⟩⟩
  | cons u us =>
    rw [hus] at h3 hc
    simp only [storeOrdUndo, bind_eq_ok, mapErr_ok, pure_eq_ok] at h3
    obtain ⟨c, h4, rfl⟩ := h3
    exact ⟨p2, n2, c, s2, u :: us, rfl, r2.withUndo _ _ _ _, hc, Or.inr h4⟩

theorem disconnectPos_spec {source : Source} {w : TxVerifier} {tx : Tx} {s0 : St} {s : Pos.Sv}
    {txs : Nat → Option (List Pos.Undo)} {rw : Option (List Pos.Undo)} (hV : VRep w s0)
    (hU : URep w.posUndo w.base.posUndo source txs rw) (hd : ¬ Dead w.posUndo w.base.posUndo source tx.id)
    (hc : Chain posB s ((txs tx.id).getD []) s0.pos) :
    ∃ p pu, disconnectPos source w tx = .ok { w with pos := p, posUndo := pu } ∧
      VRep { w with pos := p, posUndo := pu } { s0 with pos := s } ∧
      URep pu w.base.posUndo source (Function.update txs tx.id none) rw ∧
      ∀ x, Dead pu w.base.posUndo source x → x = tx.id ∨ Dead w.posUndo w.base.posUndo source x := by
  obtain ⟨pu, h1, h2, h3⟩ := hU.takeTx hd
  obtain ⟨p, g1, g2, g3⟩ := posUndos_spec hc (w := { w with posUndo := pu }) hV.pos
  refine ⟨p, pu, ?_, ?_, h2, h3⟩
  · simp only [disconnectPos, bind_eq_ok, mapErr_ok]
    exact ⟨_, h1, g1⟩
  · exact ((hV.withUndo w.utxoUndo pu w.tokensUndo w.ordersUndo).withPos (s' := s) g2 g3)

theorem disconnectTokens_spec {source : Source} {w : TxVerifier} {tx : Tx} {s0 : St} {s : Tokens.Sv}
    {txs : Nat → Option (List Tokens.Undo)} {rw : Option Unit} (hV : VRep w s0) (hl : s.LockedOk)
    (hU : URep w.tokensUndo w.base.tokensUndo source txs rw)
    (hd : ¬ Dead w.tokensUndo w.base.tokensUndo source tx.id)
    (hc : Chain tokB s ((txs tx.id).getD []) s0.tokens) :
    ∃ p pu, disconnectTokens source w tx = .ok { w with tokens := p, tokensUndo := pu } ∧
      VRep { w with tokens := p, tokensUndo := pu } { s0 with tokens := s } ∧
      URep pu w.base.tokensUndo source (Function.update txs tx.id none) rw ∧
      ∀ x, Dead pu w.base.tokensUndo source x → x = tx.id ∨ Dead w.tokensUndo w.base.tokensUndo source x := by
  obtain ⟨pu, h1, h2, h3⟩ := hU.takeTx hd
  obtain ⟨p, g1, g2, g3⟩ := tokUndos_spec hc (w := { w with tokensUndo := pu }) hV.tokens
  refine ⟨p, pu, ?_, ?_, h2, h3⟩
  · simp only [disconnectTokens, bind_eq_ok, mapErr_ok]
    exact ⟨_, h1, g1⟩
  · exact ((hV.withUndo w.utxoUndo w.posUndo pu w.ordersUndo).withTokens (s' := s) g2 g3 hl)

theorem disconnectOrders_spec {source : Source} {w : TxVerifier} {tx : Tx} {s0 : St} {s : Orders.Sv}
    {txs : Nat → Option (List Orders.Undo)} {rw : Option Unit} (hV : VRep w s0) (hl : s.Sound)
    (hU : URep w.ordersUndo w.base.ordersUndo source txs rw)
    (hd : ¬ Dead w.ordersUndo w.base.ordersUndo source tx.id)
    (hc : Chain ordB s ((txs tx.id).getD []) s0.orders) :
    ∃ p pu, disconnectOrders source w tx = .ok { w with orders := p, ordersUndo := pu } ∧
      VRep { w with orders := p, ordersUndo := pu } { s0 with orders := s } ∧
      URep pu w.base.ordersUndo source (Function.update txs tx.id none) rw ∧
      ∀ x, Dead pu w.base.ordersUndo source x → x = tx.id ∨ Dead w.ordersUndo w.base.ordersUndo source x := by
  obtain ⟨pu, h1, h2, h3⟩ := hU.takeTx hd
  obtain ⟨p, g1, g2, g3⟩ := ordUndos_spec hc (w := { w with ordersUndo := pu }) hV.orders
  refine ⟨p, pu, ?_, ?_, h2, h3⟩
  · simp only [disconnectOrders, bind_eq_ok, mapErr_ok]
    exact ⟨_, h1, g1⟩
  · exact ((hV.withUndo w.utxoUndo w.posUndo w.tokensUndo pu).withOrders (s' := s) g2 g3 hl)

/-! ### The NFT index -/

/-- the index after registering -/
def St.register (s : St) (tx : Tx) (block : Nat) : St :=
  match tx.nft with
  | none => s
  | some id => { s with nft := Function.update s.nft id (some (tx.id, block)),
                        nftByTx := Function.update s.nftByTx tx.id (some id) }

theorem shown_insert {K A : Type} [LinearOrder K] (base : K → Option A) (c : BMap K (COp A)) (k : K) (op : COp A) :
    shown base (c.insert k op) = Function.update (shown base c) k op.get := by
  funext x
  unfold shown
  rw [BMap.get_insert]
  by_cases h : x = k
  · subst h; simp
  · simp [h]

theorem register_spec {v v' : TxVerifier} {tx : Tx} {block : Nat} {s : St} (h : register v tx block = .ok v')
    (hV : VRep v s) :
    ∃ a b, v' = { v with nfts := a, nftByTx := b } ∧ VRep v' (s.register tx block) ∧
      ∀ id, tx.nft = some id → s.nft id = none := by
  unfold register at h
  cases hn : tx.nft with
  | none =>
    rw [hn] at h; cases h
    exact ⟨v.nfts, v.nftByTx, rfl, by simpa [St.register, hn] using hV, by simp⟩
  | some id =>
    rw [hn] at h
    simp only [bind_eq_ok] at h
    obtain ⟨v1, h1, h2⟩ := h
    unfold precache at h1
    split at h1
    · cases h1
    · rename_i hg
      split at h1
      · cases h1
        simp [writeIssuance] at h2
      · rename_i hb
        cases h1
        simp only [writeIssuance, hg] at h2
        cases h2
        refine ⟨_, _, rfl, ?_, ?_⟩
        · unfold St.register
          rw [hn]
          exact { hV with
            nft := fun x => by
              dsimp only
              rw [shown_insert, show shown v.base.nft v.nfts = s.nft from funext hV.nft]; rfl
            nftR := fun x d hx => by
              rw [BMap.get_insert] at hx
              split at hx
              · simp at hx
              · exact hV.nftR x d hx
            nftByTx := fun x => by
              dsimp only
              rw [shown_insert, show shown v.base.nftByTx v.nftByTx = s.nftByTx from funext hV.nftByTx]; rfl
            nftByTxR := fun x d => by
              dsimp only
              rw [BMap.get_insert]
              split
              · simp
              · exact hV.nftByTxR x d }
        · intro x hx
          cases hx
          rw [← hV.nft id]
          simp [shown, hg, hb]

/-- the NFT ids shown have no operation in this verifier -/
def Vac (w : TxVerifier) (s : St) : Prop := ∀ id, (s.nft id).isSome = true → w.nfts.get id = none

theorem unregister_spec {w : TxVerifier} {tx : Tx} {block : Nat} {s : St} (hV : VRep w (s.register tx block))
    (hvac : Vac w (s.register tx block)) (hn : ∀ id, tx.nft = some id → s.nft id = none)
    (hf : s.nftByTx tx.id = none) :
    ∃ a b, unregister w tx = .ok { w with nfts := a, nftByTx := b } ∧ VRep { w with nfts := a, nftByTx := b } s ∧
      Vac { w with nfts := a, nftByTx := b } s := by
  unfold unregister
  cases ht : tx.nft with
  | none =>
    simp only [St.register, ht] at hV hvac
    exact ⟨w.nfts, w.nftByTx, rfl, hV, hvac⟩
  | some id =>
    simp only [St.register, ht] at hV hvac
    have hg : w.nfts.get id = none := hvac id (by simp)
    have hb : w.base.nft id = some (tx.id, block) := by
      have := hV.nft id
      simpa [shown, hg] using this
    refine ⟨(w.nfts.insert id (.read (tx.id, block))).insert id .erase, w.nftByTx.insert tx.id .erase, ?_, ?_, ?_⟩
    · simp only [bind_eq_ok]
      refine ⟨{ w with nfts := w.nfts.insert id (.read (tx.id, block)) }, ?_, ?_⟩
      · simp only [precache, hg, hb]
      · simp only [writeUndoIssuance, BMap.get_insert_self]
    · exact { hV with
        nft := fun x => by
          dsimp only
          rw [shown_insert, shown_insert, show shown w.base.nft w.nfts = _ from funext hV.nft]
          by_cases hx : x = id
          · subst hx; simp [hn x ht, COp.get]
          · simp [hx]
        nftR := fun x d hx => by
          rw [BMap.get_insert, BMap.get_insert] at hx
          split at hx
          · simp at hx
          · exact hV.nftR x d hx
        nftByTx := fun x => by
          dsimp only
          rw [shown_insert, show shown w.base.nftByTx w.nftByTx = _ from funext hV.nftByTx]
          by_cases hx : x = tx.id
          · subst hx; simp [hf, COp.get]
          · simp [hx]
        nftByTxR := fun x d => by
          dsimp only
          rw [BMap.get_insert]
          split
          · simp
          · exact hV.nftByTxR x d }
    · intro x hx
      have hne : x ≠ id := by
        rintro rfl
        rw [hn x ht] at hx
        cases hx
      dsimp only
      rw [BMap.get_insert_ne _ _ hne, BMap.get_insert_ne _ _ hne]
      exact hvac x (by simpa [hne] using hx)

/-! ### Transactions -/

/-- nothing is known yet of a transaction with this id -/
structure Pending (s : St) (us : US) (id : Nat) : Prop where
  utxo : ∀ j, s.utxo (txOut id j) = none
  uTx : us.uTx id = none
  pTx : us.pTx id = none
  tTx : us.tTx id = none
  oTx : us.oTx id = none
  nftByTx : s.nftByTx id = none
  deps : ∀ p ch, us.deps p ch → p ≠ id

/-- a verifier ready to disconnect: it shows `s`, holds the undos `us` and has taken none of them -/
structure Ready (w : TxVerifier) (src : Source) (s : St) (us : US) : Prop where
  rep : VRep w s
  undo : UndoRep w src us
  vac : Vac w s
  taken : ∀ id, Taken w src id → us.uTx id = none

theorem parentOf_txOut (p j : Nat) : parentOf (txOut p j) = some p := by simp [parentOf, txOut]

theorem parentOf_some {o : OutPoint} {p : Nat} (h : parentOf o = some p) : ∃ j, o = txOut p j := by
  unfold parentOf at h
  split at h
  · rename_i h0
    cases h
    refine ⟨(ofLex o).2, ?_⟩
    unfold txOut
    rw [← h0]
    rfl
  · cases h

theorem VRep.withNonces {w : TxVerifier} {s : St} (h : VRep w s) {ns : BMap Account (COp Nat)} {next : Account → Nat}
    (h1 : ∀ a, nextOf (TxVerifier.nonce { w with nonces := ns } a) = next a) (h2 : ∀ b n, ns.get b ≠ some (.read n)) :
    VRep { w with nonces := ns } { s with next := next } :=
  { h with next := h1, noncesR := h2 }

theorem VRep.withUtxo {w : TxVerifier} {s : St} (h : VRep w s) {l : Utxo.Layer OutPoint Coin}
    {f : OutPoint → Option Coin} (h1 : LInv w.base.utxo l) (h2 : (l.view w.base.utxo).utxo = f) :
    VRep { w with utxo := l } { s with utxo := f } :=
  { h with uinv := h1, utxo := h2 }

theorem connectUtxo_spec {src : Src} {v v' : TxVerifier} {tx : Tx} {s : St} {us : US}
    (h : connectUtxo src v tx = .ok v') (hV : VRep v s) (hU : UURep v.utxoUndo v.base.utxoUndo src.source us.uTx us.uRw us.deps)
    (hb : v.base.utxoUndo src.source = none) (hp : ∀ j, s.utxo (txOut tx.id j) = none) :
    ∃ l c u f, v' = { v with utxo := l, utxoUndo := c } ∧ VRep v' { s with utxo := f } ∧ l.best = v.utxo.best ∧
      UURep c v.base.utxoUndo src.source (Function.update us.uTx tx.id (some u)) us.uRw
        (fun p ch => us.deps p ch ∨ (ch = tx.id ∧ p ∈ tx.parents)) ∧
      (∀ p ∈ tx.parents, ∃ j, s.utxo (txOut p j) ≠ none) ∧
      (∀ k, (∀ j, k ≠ txOut tx.id j) → s.utxo k = none → f k = none) ∧
      ∀ {w : TxVerifier} {s0 : St}, VRep w s0 → s0.utxo = f →
        ∃ l, disconnectUtxo w tx u = .ok { w with utxo := l } ∧ VRep { w with utxo := l } { s0 with utxo := s.utxo } ∧
          l.best = w.utxo.best := by
  simp only [connectUtxo, bind_eq_ok, mapErr_ok, pure_eq_ok, Prod.exists] at h
  obtain ⟨l, u, h1, c, h2, rfl⟩ := h
  have hf : Utxo.TxFresh (v.utxo.view v.base.utxo) tx.utxo.id := by
    intro j; rw [hV.utxo]; exact hp j
  obtain ⟨g1, g2, g3, g4, g5, g6, g7⟩ := Utxo.connectTx_spec hV.uinv hf h1
  refine ⟨l, c, u, (l.view v.base.utxo).utxo, rfl, ?_, g2, (hU.of_addTx hb h2).2, ?_, ?_, ?_⟩
  · exact (hV.withUtxo g1 rfl).withUndo c v.posUndo v.tokensUndo v.ordersUndo
  · intro p hpm
    simp only [Tx.parents, List.mem_filterMap] at hpm
    obtain ⟨k, ⟨i, hi, hik⟩, hk⟩ := hpm
    obtain ⟨j, rfl⟩ := parentOf_some hk
    have hm : txOut p j ∈ tx.utxo.inputs.filterMap id := by
      simp only [Tx.utxo, List.mem_filterMap, List.mem_map, id]
      exact ⟨some (txOut p j), ⟨i, hi, hik⟩, rfl⟩
    rw [← Utxo.pairs_fst g3, List.mem_map] at hm
    obtain ⟨q, hq, hqe⟩ := hm
    have := g5 q hq
    rw [hV.utxo, hqe] at this
    exact ⟨j, by rw [this]; simp⟩
  · intro k hk hn
    refine Utxo.connectTx_fresh hV.uinv hf h1 hk ?_
    rw [hV.utxo]; exact hn
  · intro w s0 hw hwf
    obtain ⟨c1, k1, k2, k3, k4⟩ := Utxo.disconnectTx_spec hV.uinv hf h1 hw.uinv (hw.utxo.trans hwf)
    rw [hV.utxo] at k4
    refine ⟨c1, ?_, hw.withUtxo k2 k4, k3⟩
    simp only [disconnectUtxo, bind_eq_ok, mapErr_ok, pure_eq_ok]
    exact ⟨c1, k1, rfl⟩

/-- connecting a transaction, and disconnecting it again in any verifier that shows the result -/
theorem connectTx_spec {env : Env} {src : Src} {v v' : TxVerifier} {tx : Tx} {fee : Nat} {s : St} {us : US}
    (h : connectTx env src v tx = .ok (v', fee)) (hr : ∀ w ∈ txTrace env src v tx, Readable w)
    (hb : NoUndo v.base src.source) (hV : VRep v s) (hU : UndoRep v src.source us) (hp : Pending s us tx.id) :
    ∃ s' us', VRep v' s' ∧ UndoRep v' src.source us' ∧ v'.base = v.base ∧ v'.utxo.best = v.utxo.best ∧
      s'.next = bump s.next (tx.inputs.filterMap Input.acc) ∧
      (∀ id, id ≠ tx.id → Pending s us id → Pending s' us' id) ∧
      (∀ k, (∀ j, k ≠ txOut tx.id j) → s.utxo k = none → s'.utxo k = none) ∧
      (∀ id, id ≠ tx.id → s.nftByTx id = none → s'.nftByTx id = none) ∧
      (us'.uRw = us.uRw ∧ us'.pRw = us.pRw) ∧
      ∀ w, Ready w src.source s' us' →
        ∃ w', disconnectTx src.source w tx = .ok w' ∧ Ready w' src.source s us ∧ w'.base = w.base ∧
          w'.utxo.best = w.utxo.best := by
  simp only [connectTx, bind_eq_ok, pure_eq_ok, Prod.mk.injEq] at h
  obtain ⟨_, -, v1, h1, _, -, v2, h2, v3, h3, v4, h4, v5, h5, rfl, -⟩ := h
  have hrP : ∀ w ∈ posTrace env v1 tx, Readable w := fun w hw => hr w (by simp [txTrace, after, h1, hw])
  have hrT : ∀ w ∈ tokTrace v2 tx, Readable w := fun w hw => hr w (by simp [txTrace, after, h1, h2, hw])
  have hrO : ∀ w ∈ ordTrace v3 tx, Readable w := fun w hw => hr w (by simp [txTrace, after, h1, h2, h3, hw])
  obtain ⟨na, nb, rfl, r1, hnft⟩ := register_spec h1 hV
  generalize hs1 : s.register tx src.block = s1 at r1
  have es : s1.utxo = s.utxo ∧ s1.pos = s.pos ∧ s1.tokens = s.tokens ∧ s1.orders = s.orders ∧ s1.next = s.next ∧
      ∀ id, id ≠ tx.id → s.nftByTx id = none → s1.nftByTx id = none := by
    rw [← hs1]; unfold St.register
    split
    · exact ⟨rfl, rfl, rfl, rfl, rfl, fun _ _ h => h⟩
    · exact ⟨rfl, rfl, rfl, rfl, rfl, fun id hi h => by simpa [hi] using h⟩
  obtain ⟨eu, ep, et, eo, en, enft⟩ := es
  obtain ⟨p, n2, pu, sp, pops, rfl, r2, cp, stp⟩ := connectPos_spec h2 hrP r1
  obtain ⟨t, n3, tu, st, tops, rfl, r3, ct, stt⟩ := connectTokens_spec h3 hrT r2
  obtain ⟨o, n4, ou, so, oops, rfl, r4, co, sto⟩ := connectOrders_spec h4 hrO r3
  dsimp only at r4
  rw [bump_accs] at r4
  obtain ⟨l, c, u, f, rfl, r5, hbest, hUU, hpar, hkeep, hback⟩ := connectUtxo_spec (us := us) h5 r4 hU.utxo hb.utxo
    (by intro j; show s1.utxo _ = none; rw [eu]; exact hp.utxo j)
  obtain ⟨po, hpo, hUP⟩ := stp.rep hU.pos hb.pos hp.pTx
  obtain ⟨tk, hto, hUT⟩ := stt.rep hU.tokens hb.tokens hp.tTx
  obtain ⟨oo, hoo, hUO⟩ := sto.rep hU.orders hb.orders hp.oTx
  dsimp only at hpar hkeep hback
  rw [eu] at hpar hkeep hback
  have hndep : ∀ ch, ¬ (us.deps tx.id ch ∨ (ch = tx.id ∧ tx.id ∈ tx.parents)) := by
    rintro ch (hd | ⟨-, hd⟩)
    · exact hp.deps _ _ hd rfl
    · obtain ⟨j, hj⟩ := hpar _ hd
      exact hj (hp.utxo j)
  refine ⟨_, ⟨Function.update us.uTx tx.id (some u), us.uRw, fun p ch => us.deps p ch ∨ (ch = tx.id ∧ p ∈ tx.parents),
    Function.update us.pTx tx.id po, us.pRw, Function.update us.tTx tx.id tk, Function.update us.oTx tx.id oo⟩,
    r5, ⟨hUU, hUP, hUT, hUO⟩, rfl, hbest, by dsimp only; rw [en], ?_, hkeep,
    enft, ⟨rfl, rfl⟩, ?_⟩
  · intro id hid hpe
    refine ⟨fun j => hkeep _ (fun j' e => hid (Utxo.txOut_inj.1 e).1) (hpe.utxo j), ?_, ?_, ?_, ?_,
      enft id hid hpe.nftByTx, ?_⟩
    · exact (Function.update_of_ne hid _ _).trans hpe.uTx
    · exact (Function.update_of_ne hid _ _).trans hpe.pTx
    · exact (Function.update_of_ne hid _ _).trans hpe.tTx
    · exact (Function.update_of_ne hid _ _).trans hpe.oTx
    · rintro q ch (hd | ⟨-, hd⟩)
      · exact hpe.deps _ _ hd
      · rintro rfl
        obtain ⟨j, hj⟩ := hpar _ hd
        exact hj (hpe.utxo j)
  · intro w hw
    have hnt : ¬ Taken w src.source tx.id := fun ht => by
      have := (Function.update_self tx.id (some u) us.uTx).symm.trans (hw.taken _ ht)
      cases this
    simp only [Taken, not_or] at hnt
    obtain ⟨hnt1, hnt2, hnt3⟩ := hnt
    -- UTXO undo
    obtain ⟨c1, k1, k2⟩ := hw.undo.utxo.takeTx (id := tx.id) (t := u) (Function.update_self _ _ _) hndep
    have w1 := hw.rep.withUndo c1 w.posUndo w.tokensUndo w.ordersUndo
    -- nonces
    obtain ⟨ns, k3, k4, k5⟩ := unspendNonces_spec tx.inputs w1.next w1.noncesR
    have w2 := w1.withNonces k4 k5
    have hup : URep w.posUndo w.base.posUndo src.source (Function.update us.pTx tx.id po) us.pRw := hw.undo.pos
    have hut : URep w.tokensUndo w.base.tokensUndo src.source (Function.update us.tTx tx.id tk) none := hw.undo.tokens
    have huo : URep w.ordersUndo w.base.ordersUndo src.source (Function.update us.oTx tx.id oo) none := hw.undo.orders
    -- staking
    obtain ⟨p1, pu1, k6, w3, k7, k8⟩ := disconnectPos_spec (source := src.source) (tx := tx) (s := s.pos) w2 hup hnt1
      (by rw [Function.update_self, hpo, ← ep]; exact cp)
    obtain ⟨t1, tu1, k9, w4, k10, k11⟩ := disconnectTokens_spec (source := src.source) (tx := tx) (s := s.tokens) w3 hV.locked
      hut hnt2 (by rw [Function.update_self, hto, ← et]; exact ct)
    obtain ⟨o1, ou1, k12, w5, k13, k14⟩ := disconnectOrders_spec (source := src.source) (tx := tx) (s := s.orders) w4 hV.sound
      huo hnt3 (by rw [Function.update_self, hoo, ← eo]; exact co)
    obtain ⟨l1, k15, w6, k16⟩ := hback w5 rfl
    have e6 : ({ s1 with utxo := s.utxo, pos := s.pos, tokens := s.tokens, orders := s.orders } : St) = s.register tx src.block := by
      rw [hs1, ← eu, ← ep, ← et, ← eo]
    have w6' := w6
    dsimp only at w6'
    rw [e6] at w6'
    have hvac := hw.vac
    obtain ⟨a, b, k17, w7, k18⟩ := unregister_spec (tx := tx) (block := src.block) (s := s) w6'
      (by rw [← e6]; exact hvac) hnft hp.nftByTx
    refine ⟨_, ?_, ⟨w7, ⟨?_, ?_, ?_, ?_⟩, k18, ?_⟩, rfl, k16⟩
    · simp only [disconnectTx, bind_eq_ok, Prod.exists]
      refine ⟨_, u, ?_, _, k3, _, k6, _, k9, _, k12, _, k15, k17⟩
      simp only [takeUtxoUndo, bind_eq_ok, mapErr_ok, pure_eq_ok]
      exact ⟨_, k1, rfl⟩
    · have hdep : (fun p ch => (us.deps p ch ∨ (ch = tx.id ∧ p ∈ tx.parents)) ∧ ch ≠ tx.id) = us.deps := by
        funext q ch
        refine propext ⟨?_, fun hd => ⟨Or.inl hd, ?_⟩⟩
        · rintro ⟨hd | ⟨rfl, -⟩, hne⟩
          · exact hd
          · exact absurd rfl hne
        · rintro rfl
          have := hU.utxo.child _ _ hd
          rw [hp.uTx] at this
          cases this
      rw [hdep, Function.update_idem, ← hp.uTx, Function.update_eq_self] at k2
      exact k2
    · rw [Function.update_idem, ← hp.pTx, Function.update_eq_self] at k7
      exact k7
    · rw [Function.update_idem, ← hp.tTx, Function.update_eq_self] at k10
      exact k10
    · rw [Function.update_idem, ← hp.oTx, Function.update_eq_self] at k13
      exact k13
    · intro id ht
      have : id = tx.id ∨ Taken w src.source id := by
        rcases ht with ht | ht | ht
        · rcases k8 id ht with e | e
          · exact Or.inl e
          · exact Or.inr (Or.inl e)
        · rcases k11 id ht with e | e
          · exact Or.inl e
          · exact Or.inr (Or.inr (Or.inl e))
        · rcases k14 id ht with e | e
          · exact Or.inl e
          · exact Or.inr (Or.inr (Or.inr e))
      rcases this with rfl | ht
      · exact hp.uTx
      · by_cases hid : id = tx.id
        · subst hid; exact hp.uTx
        · have := hw.taken id ht
          exact (Function.update_of_ne hid _ _).symm.trans this

end Verif.Verifier
