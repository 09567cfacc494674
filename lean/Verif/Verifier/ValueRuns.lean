import Verif.Verifier.ValueMoves
import Verif.Verifier.TxLemmas

/-!
# The accounting operations performed by a transaction, in order
-/

namespace Verif.Verifier
open Verif
open Verif.Utxo (OutPoint Coin Output txOut rewardOut)

def posM (s : Pos.Sv) (op : Pos.Op) (s' : Pos.Sv) : Prop := ∃ u, Pos.Move s op u s'
def tokM (s : Tokens.Sv) (op : Tokens.Op) (s' : Tokens.Sv) : Prop := ∃ u, Tokens.Move s op u s'
def ordM (s : Orders.Sv) (op : Orders.Op) (s' : Orders.Sv) : Prop := ∃ u, Orders.Move s op u s'

theorem Chain.single {S U : Type} {B : S → U → S → Prop} {s s' : S} {u : U} (h : B s u s') : Chain B s [u] s' :=
  .cons h (.nil _)

/-! ### Staking -/

/-- the staking operations of an input -/
def posInOps (env : Env) (U : OutPoint → Option Coin) : Input → List Pos.Op
  | .utxo o => match U o with
    | none => []
    | some x => match env.poolOf x.output.content with
      | none => []
      | some p => [.decommissionPool p]
  | .account _ d a => [.spendShare d a]
  | _ => []

/-- the staking operations of an output -/
def posOutOps (o : Out) : List Pos.Op :=
  match o.effect with
  | .createPool p d => [.createPool p d]
  | .createDelegation p d k => [.createDelegationId p d k]
  | .delegate d a => [.delegateStaking d a]
  | _ => []

theorem posStep_run {v v' : TxVerifier} {op : Pos.Op} {o : Option Pos.Undo} {s : St}
    (h : posStep v op = .ok (v', o)) (hr : Readable v') (hV : VRep v s) :
    ∃ p s1, v' = { v with pos := p } ∧ VRep v' { s with pos := s1 } ∧ Chain posM s.pos [op] s1 := by
  obtain ⟨p, u, s', rfl, rfl, hp, r1, m⟩ := posStep_spec hV.pos h hr.pos
  exact ⟨p, s', rfl, hV.withPos hp r1, .single ⟨u, m⟩⟩

theorem posInput_run {env : Env} {v v' : TxVerifier} {i : Input} {o : Option Pos.Undo} {s : St}
    (h : posInput env v i = .ok (v', o)) (hr : Readable v') (hV : VRep v s) :
    ∃ p n s1 nx, v' = { v with pos := p, nonces := n } ∧ VRep v' { s with pos := s1, next := nx } ∧
      Chain posM s.pos (posInOps env s.utxo i) s1 ∧ ∀ k, i.outpoint = some k → s.utxo k ≠ none := by
  cases i with
  | utxo op =>
    simp only [posInput, posUtxo, bind_eq_ok, okOr_eq_ok, hV.utxo] at h
    obtain ⟨coin, h1, h2⟩ := h
    have hk : ∀ k, (Input.utxo op).outpoint = some k → s.utxo k ≠ none := by
      intro k e; cases e; rw [h1]; simp
    split at h2
    · rename_i p he
      obtain ⟨p', s1, rfl, r1, c1⟩ := posStep_run h2 hr hV
      refine ⟨p', v.nonces, s1, s.next, rfl, r1, ?_, hk⟩
      simpa only [posInOps, h1, he] using c1
    · rename_i he
      cases h2
      refine ⟨v.pos, v.nonces, s.pos, s.next, rfl, hV, ?_, hk⟩
      simp only [posInOps, h1, he]
      exact .nil _
  | account nonce d a =>
    simp only [posInput, bind_eq_ok] at h
    obtain ⟨v1, h1, h2⟩ := h
    obtain ⟨ns, rfl, r1⟩ := hV.spendNonce h1
    obtain ⟨p, s1, rfl, r2, c1⟩ := posStep_run h2 hr r1
    exact ⟨p, ns, s1, _, rfl, r2, c1, by intro k e; cases e⟩
  | token n c => cases h; exact ⟨v.pos, v.nonces, s.pos, s.next, rfl, hV, .nil _, by intro k e; cases e⟩
  | orderV0 n c => cases h; exact ⟨v.pos, v.nonces, s.pos, s.next, rfl, hV, .nil _, by intro k e; cases e⟩
  | order c => cases h; exact ⟨v.pos, v.nonces, s.pos, s.next, rfl, hV, .nil _, by intro k e; cases e⟩

theorem posInputs_run {env : Env} : ∀ {is : List Input} {v v' : TxVerifier} {us : List Pos.Undo} {s : St},
    collect (posInput env) v is = .ok (v', us) → (∀ w ∈ visited (posInput env) v is, Readable w) → VRep v s →
    ∃ p n s1 nx, v' = { v with pos := p, nonces := n } ∧ VRep v' { s with pos := s1, next := nx } ∧
      Chain posM s.pos (is.flatMap (posInOps env s.utxo)) s1 ∧ ∀ i ∈ is, ∀ k, i.outpoint = some k → s.utxo k ≠ none
  | [], v, v', us, s, h, _, hV => by
    cases h
    exact ⟨v.pos, v.nonces, s.pos, s.next, rfl, hV, .nil _, by simp⟩
  | i :: is, v, v', us, s, h, hr, hV => by
    simp only [collect, bind_eq_ok, pure_eq_ok, Prod.exists, Prod.mk.injEq] at h
    obtain ⟨v1, o, h1, v2, us', h2, rfl, rfl⟩ := h
    simp only [visited, h1, List.mem_cons] at hr
    obtain ⟨p, n, s1, nx, rfl, r1, c1, k1⟩ := posInput_run h1 (hr _ (Or.inl rfl)) hV
    obtain ⟨p', n', s2, nx', rfl, r2, c2, k2⟩ := posInputs_run h2 (fun w hw => hr w (Or.inr hw)) r1
    refine ⟨p', n', s2, nx', rfl, r2, c1.append c2, ?_⟩
    intro i' hi
    rcases List.mem_cons.1 hi with rfl | hi
    exacts [k1, k2 i' hi]

theorem posOutput_run {env : Env} {tx : Tx} {v v' : TxVerifier} {x : Out} {o : Option Pos.Undo} {s : St}
    (h : posOutput env tx v x = .ok (v', o)) (hr : Readable v') (hV : VRep v s) :
    ∃ p s1, v' = { v with pos := p } ∧ VRep v' { s with pos := s1 } ∧ Chain posM s.pos (posOutOps x) s1 := by
  unfold posOutput at h
  unfold posOutOps
  cases he : x.effect <;> simp only [he] at h ⊢
  case createPool p d =>
    split at h
    · exact posStep_run h hr hV
    · cases h
  case createDelegation => exact posStep_run h hr hV
  case delegate => exact posStep_run h hr hV
  all_goals (cases h; exact ⟨v.pos, s.pos, rfl, hV, .nil _⟩)

theorem posOutputs_run {env : Env} {tx : Tx} : ∀ {os : List Out} {v v' : TxVerifier} {us : List Pos.Undo} {s : St},
    collect (posOutput env tx) v os = .ok (v', us) → (∀ w ∈ visited (posOutput env tx) v os, Readable w) → VRep v s →
    ∃ p s1, v' = { v with pos := p } ∧ VRep v' { s with pos := s1 } ∧ Chain posM s.pos (os.flatMap posOutOps) s1
  | [], v, v', us, s, h, _, hV => by
    cases h
    exact ⟨v.pos, s.pos, rfl, hV, .nil _⟩
  | o :: os, v, v', us, s, h, hr, hV => by
    simp only [collect, bind_eq_ok, pure_eq_ok, Prod.exists, Prod.mk.injEq] at h
    obtain ⟨v1, u, h1, v2, us', h2, rfl, rfl⟩ := h
    simp only [visited, h1, List.mem_cons] at hr
    obtain ⟨p, s1, rfl, r1, c1⟩ := posOutput_run h1 (hr _ (Or.inl rfl)) hV
    obtain ⟨p', s2, rfl, r2, c2⟩ := posOutputs_run h2 (fun w hw => hr w (Or.inr hw)) r1
    exact ⟨p', s2, rfl, r2, c1.append c2⟩

theorem posSteps_run : ∀ {ops : List Pos.Op} {v v' : TxVerifier} {us : List Pos.Undo} {s : St},
    collect posStep v ops = .ok (v', us) → (∀ w ∈ visited posStep v ops, Readable w) → VRep v s →
    ∃ p s1, v' = { v with pos := p } ∧ VRep v' { s with pos := s1 } ∧ Chain posM s.pos ops s1
  | [], v, v', us, s, h, _, hV => by
    cases h
    exact ⟨v.pos, s.pos, rfl, hV, .nil _⟩
  | op :: ops, v, v', us, s, h, hr, hV => by
    simp only [collect, bind_eq_ok, pure_eq_ok, Prod.exists, Prod.mk.injEq] at h
    obtain ⟨v1, u, h1, v2, us', h2, rfl, rfl⟩ := h
    simp only [visited, h1, List.mem_cons] at hr
    obtain ⟨p, s1, rfl, r1, c1⟩ := posStep_run h1 (hr _ (Or.inl rfl)) hV
    obtain ⟨p', s2, rfl, r2, c2⟩ := posSteps_run h2 (fun w hw => hr w (Or.inr hw)) r1
    exact ⟨p', s2, rfl, r2, c1.append c2⟩

theorem connectPos_run {env : Env} {src : Src} {v v' : TxVerifier} {tx : Tx} {s : St}
    (h : connectPos env src v tx = .ok v') (hr : ∀ w ∈ posTrace env v tx, Readable w) (hV : VRep v s) :
    ∃ p n pu s1 s2 nx, v' = { v with pos := p, nonces := n, posUndo := pu } ∧ VRep v' { s with pos := s2, next := nx } ∧
      Chain posM s.pos (tx.inputs.flatMap (posInOps env s.utxo)) s1 ∧ Chain posM s1 (tx.outputs.flatMap posOutOps) s2 ∧
      (∃ t, Pos.Rep t s1) ∧ ∀ i ∈ tx.inputs, ∀ k, i.outpoint = some k → s.utxo k ≠ none := by
  simp only [connectPos, bind_eq_ok, Prod.exists] at h
  obtain ⟨v1, us1, h1, v2, us2, h2, _, -, h3⟩ := h
  have hr' := hr
  simp only [posTrace, h1, after, List.mem_append] at hr'
  obtain ⟨p, n, s1, nx, rfl, r1, c1, k1⟩ := posInputs_run h1 (fun w hw => hr' w (Or.inl hw)) hV
  obtain ⟨p', s2, rfl, r2, c2⟩ := posOutputs_run h2 (fun w hw => hr' w (Or.inr hw)) r1
  unfold storePosUndo at h3
  split at h3
  · cases h3
    exact ⟨p', n, v.posUndo, s1, s2, nx, rfl, r2, c1, c2, ⟨_, r1.pos⟩, k1⟩
  · simp only [bind_eq_ok, mapErr_ok, pure_eq_ok] at h3
    obtain ⟨c, -, rfl⟩ := h3
    exact ⟨p', n, c, s1, s2, nx, rfl, r2.withUndo _ _ _ _, c1, c2, ⟨_, r1.pos⟩, k1⟩

/-! ### Tokens -/

/-- the operation of a token input -/
inductive TokIn (tx : Tx) : Input → List Tokens.Op → Prop
  | token {n : Nat} {cmd : TokenCmd} {op : Option Tokens.Op} : tokenOp tx cmd = .ok op → TokIn tx (.token n cmd) op.toList
  | other {i : Input} : i.tokAcc = none → TokIn tx i []

/-- the token operations of an output -/
def tokOutOps (o : Out) : List Tokens.Op :=
  match o.effect with
  | .issueToken id i => [.issue id i]
  | _ => []

theorem tokStep_run {v v' : TxVerifier} {op : Tokens.Op} {o : Option Tokens.Undo} {s : St}
    (h : tokStep v op = .ok (v', o)) (hr : Readable v') (hV : VRep v s) :
    ∃ p s1, v' = { v with tokens := p } ∧ VRep v' { s with tokens := s1 } ∧ Chain tokM s.tokens [op] s1 := by
  obtain ⟨p, u, s', rfl, rfl, hp, r1, hl, m⟩ := tokStep_spec hV.tokens hV.locked h hr.tokens
  exact ⟨p, s', rfl, hV.withTokens hp r1 hl, .single ⟨u, m⟩⟩

theorem tokInput_run {tx : Tx} {v v' : TxVerifier} {i : Input} {o : Option Tokens.Undo} {s : St}
    (h : tokInput tx v i = .ok (v', o)) (hr : Readable v') (hV : VRep v s) :
    ∃ p n s1 nx ops, v' = { v with tokens := p, nonces := n } ∧ VRep v' { s with tokens := s1, next := nx } ∧
      TokIn tx i ops ∧ Chain tokM s.tokens ops s1 := by
  cases i with
  | token nonce cmd =>
    simp only [tokInput, bind_eq_ok] at h
    obtain ⟨v1, h1, op, h0, h2⟩ := h
    obtain ⟨ns, rfl, r1⟩ := hV.spendNonce h1
    cases op with
    | none =>
      cases h2
      exact ⟨v.tokens, ns, s.tokens, _, _, rfl, r1, .token h0, .nil _⟩
    | some op =>
      obtain ⟨p, s1, rfl, r2, c1⟩ := tokStep_run h2 hr r1
      exact ⟨p, ns, s1, _, _, rfl, r2, .token h0, c1⟩
  | utxo op => cases h; exact ⟨v.tokens, v.nonces, s.tokens, s.next, _, rfl, hV, .other rfl, .nil _⟩
  | account nonce d a => cases h; exact ⟨v.tokens, v.nonces, s.tokens, s.next, _, rfl, hV, .other rfl, .nil _⟩
  | orderV0 n c => cases h; exact ⟨v.tokens, v.nonces, s.tokens, s.next, _, rfl, hV, .other rfl, .nil _⟩
  | order c => cases h; exact ⟨v.tokens, v.nonces, s.tokens, s.next, _, rfl, hV, .other rfl, .nil _⟩

/-- the token operations of the inputs -/
inductive TokIns (tx : Tx) : List Input → List Tokens.Op → Prop
  | nil : TokIns tx [] []
  | cons {i : Input} {is : List Input} {a b : List Tokens.Op} : TokIn tx i a → TokIns tx is b → TokIns tx (i :: is) (a ++ b)

theorem tokInputs_run {tx : Tx} : ∀ {is : List Input} {v v' : TxVerifier} {us : List Tokens.Undo} {s : St},
    collect (tokInput tx) v is = .ok (v', us) → (∀ w ∈ visited (tokInput tx) v is, Readable w) → VRep v s →
    ∃ p n s1 nx ops, v' = { v with tokens := p, nonces := n } ∧ VRep v' { s with tokens := s1, next := nx } ∧
      TokIns tx is ops ∧ Chain tokM s.tokens ops s1
  | [], v, v', us, s, h, _, hV => by
    cases h
    exact ⟨v.tokens, v.nonces, s.tokens, s.next, [], rfl, hV, .nil, .nil _⟩
  | i :: is, v, v', us, s, h, hr, hV => by
    simp only [collect, bind_eq_ok, pure_eq_ok, Prod.exists, Prod.mk.injEq] at h
    obtain ⟨v1, o, h1, v2, us', h2, rfl, rfl⟩ := h
    simp only [visited, h1, List.mem_cons] at hr
    obtain ⟨p, n, s1, nx, ops, rfl, r1, t1, c1⟩ := tokInput_run h1 (hr _ (Or.inl rfl)) hV
    obtain ⟨p', n', s2, nx', ops', rfl, r2, t2, c2⟩ := tokInputs_run h2 (fun w hw => hr w (Or.inr hw)) r1
    exact ⟨p', n', s2, nx', _, rfl, r2, .cons t1 t2, c1.append c2⟩

theorem tokOutput_run {v v' : TxVerifier} {x : Out} {o : Option Tokens.Undo} {s : St}
    (h : tokOutput v x = .ok (v', o)) (hr : Readable v') (hV : VRep v s) :
    ∃ p s1, v' = { v with tokens := p } ∧ VRep v' { s with tokens := s1 } ∧ Chain tokM s.tokens (tokOutOps x) s1 := by
  unfold tokOutput at h
  unfold tokOutOps
  cases he : x.effect <;> simp only [he] at h ⊢
  case issueToken => exact tokStep_run h hr hV
  all_goals (cases h; exact ⟨v.tokens, s.tokens, rfl, hV, .nil _⟩)

theorem tokOutputs_run : ∀ {os : List Out} {v v' : TxVerifier} {us : List Tokens.Undo} {s : St},
    collect tokOutput v os = .ok (v', us) → (∀ w ∈ visited tokOutput v os, Readable w) → VRep v s →
    ∃ p s1, v' = { v with tokens := p } ∧ VRep v' { s with tokens := s1 } ∧ Chain tokM s.tokens (os.flatMap tokOutOps) s1
  | [], v, v', us, s, h, _, hV => by
    cases h
    exact ⟨v.tokens, s.tokens, rfl, hV, .nil _⟩
  | o :: os, v, v', us, s, h, hr, hV => by
    simp only [collect, bind_eq_ok, pure_eq_ok, Prod.exists, Prod.mk.injEq] at h
    obtain ⟨v1, u, h1, v2, us', h2, rfl, rfl⟩ := h
    simp only [visited, h1, List.mem_cons] at hr
    obtain ⟨p, s1, rfl, r1, c1⟩ := tokOutput_run h1 (hr _ (Or.inl rfl)) hV
    obtain ⟨p', s2, rfl, r2, c2⟩ := tokOutputs_run h2 (fun w hw => hr w (Or.inr hw)) r1
    exact ⟨p', s2, rfl, r2, c1.append c2⟩

theorem connectTokens_run {env : Env} {src : Src} {v v' : TxVerifier} {tx : Tx} {s : St}
    (h : connectTokens env src v tx = .ok v') (hr : ∀ w ∈ tokTrace v tx, Readable w) (hV : VRep v s) :
    ∃ p n pu s2 nx ops, v' = { v with tokens := p, nonces := n, tokensUndo := pu } ∧
      VRep v' { s with tokens := s2, next := nx } ∧ TokIns tx tx.inputs ops ∧
      Chain tokM s.tokens (ops ++ tx.outputs.flatMap tokOutOps) s2 := by
  simp only [connectTokens, bind_eq_ok, Prod.exists] at h
  obtain ⟨_, -, v1, us1, h1, v2, us2, h2, h3⟩ := h
  have hr' := hr
  simp only [tokTrace, h1, after, List.mem_append] at hr'
  obtain ⟨p, n, s1, nx, ops, rfl, r1, t1, c1⟩ := tokInputs_run h1 (fun w hw => hr' w (Or.inl hw)) hV
  obtain ⟨p', s2, rfl, r2, c2⟩ := tokOutputs_run h2 (fun w hw => hr' w (Or.inr hw)) r1
  unfold storeTokUndo at h3
  split at h3
  · cases h3
    exact ⟨p', n, v.tokensUndo, s2, nx, ops, rfl, r2, t1, c1.append c2⟩
  · simp only [bind_eq_ok, mapErr_ok, pure_eq_ok] at h3
    obtain ⟨c, -, rfl⟩ := h3
    exact ⟨p', n, c, s2, nx, ops, rfl, r2.withUndo _ _ _ _, t1, c1.append c2⟩

/-! ### Orders -/

/-- the order operations of an input -/
def ordInOps : Input → List Orders.Op
  | .orderV0 _ cmd => [cmd.op]
  | .order cmd => [cmd.op]
  | _ => []

/-- the order operations of an output -/
def ordOutOps (o : Out) : List Orders.Op :=
  match o.effect with
  | .createOrder id d => [.create id d]
  | _ => []

theorem ordStep_run {v v' : TxVerifier} {op : Orders.Op} {o : Option Orders.Undo} {s : St}
    (h : ordStep v op = .ok (v', o)) (hr : Readable v') (hV : VRep v s) :
    ∃ p s1, v' = { v with orders := p } ∧ VRep v' { s with orders := s1 } ∧ Chain ordM s.orders [op] s1 := by
  obtain ⟨p, u, s', rfl, rfl, hp, r1, hl, m⟩ := ordStep_spec hV.orders hV.sound h hr.orders
  exact ⟨p, s', rfl, hV.withOrders hp r1 hl, .single ⟨u, m⟩⟩

theorem ordInput_run {v v' : TxVerifier} {i : Input} {o : Option Orders.Undo} {s : St}
    (h : ordInput v i = .ok (v', o)) (hr : Readable v') (hV : VRep v s) :
    ∃ p n s1 nx, v' = { v with orders := p, nonces := n } ∧ VRep v' { s with orders := s1, next := nx } ∧
      Chain ordM s.orders (ordInOps i) s1 := by
  cases i with
  | orderV0 nonce cmd =>
    simp only [ordInput, bind_eq_ok] at h
    obtain ⟨v1, h1, h2⟩ := h
    obtain ⟨ns, rfl, r1⟩ := hV.spendNonce h1
    obtain ⟨p, s1, rfl, r2, c1⟩ := ordStep_run h2 hr r1
    exact ⟨p, ns, s1, _, rfl, r2, c1⟩
  | order cmd =>
    obtain ⟨p, s1, rfl, r2, c1⟩ := ordStep_run h hr hV
    exact ⟨p, v.nonces, s1, s.next, rfl, r2, c1⟩
  | utxo op => cases h; exact ⟨v.orders, v.nonces, s.orders, s.next, rfl, hV, .nil _⟩
  | account nonce d a => cases h; exact ⟨v.orders, v.nonces, s.orders, s.next, rfl, hV, .nil _⟩
  | token n c => cases h; exact ⟨v.orders, v.nonces, s.orders, s.next, rfl, hV, .nil _⟩

theorem ordInputs_run : ∀ {is : List Input} {v v' : TxVerifier} {us : List Orders.Undo} {s : St},
    collect ordInput v is = .ok (v', us) → (∀ w ∈ visited ordInput v is, Readable w) → VRep v s →
    ∃ p n s1 nx, v' = { v with orders := p, nonces := n } ∧ VRep v' { s with orders := s1, next := nx } ∧
      Chain ordM s.orders (is.flatMap ordInOps) s1
  | [], v, v', us, s, h, _, hV => by
    cases h
    exact ⟨v.orders, v.nonces, s.orders, s.next, rfl, hV, .nil _⟩
  | i :: is, v, v', us, s, h, hr, hV => by
    simp only [collect, bind_eq_ok, pure_eq_ok, Prod.exists, Prod.mk.injEq] at h
    obtain ⟨v1, o, h1, v2, us', h2, rfl, rfl⟩ := h
    simp only [visited, h1, List.mem_cons] at hr
    obtain ⟨p, n, s1, nx, rfl, r1, c1⟩ := ordInput_run h1 (hr _ (Or.inl rfl)) hV
    obtain ⟨p', n', s2, nx', rfl, r2, c2⟩ := ordInputs_run h2 (fun w hw => hr w (Or.inr hw)) r1
    exact ⟨p', n', s2, nx', rfl, r2, c1.append c2⟩

theorem ordOutput_run {v v' : TxVerifier} {x : Out} {o : Option Orders.Undo} {s : St}
    (h : ordOutput v x = .ok (v', o)) (hr : Readable v') (hV : VRep v s) :
    ∃ p s1, v' = { v with orders := p } ∧ VRep v' { s with orders := s1 } ∧ Chain ordM s.orders (ordOutOps x) s1 := by
  unfold ordOutput at h
  unfold ordOutOps
  cases he : x.effect <;> simp only [he] at h ⊢
  case createOrder => exact ordStep_run h hr hV
  all_goals (cases h; exact ⟨v.orders, s.orders, rfl, hV, .nil _⟩)

theorem ordOutputs_run : ∀ {os : List Out} {v v' : TxVerifier} {us : List Orders.Undo} {s : St},
    collect ordOutput v os = .ok (v', us) → (∀ w ∈ visited ordOutput v os, Readable w) → VRep v s →
    ∃ p s1, v' = { v with orders := p } ∧ VRep v' { s with orders := s1 } ∧ Chain ordM s.orders (os.flatMap ordOutOps) s1
  | [], v, v', us, s, h, _, hV => by
    cases h
    exact ⟨v.orders, s.orders, rfl, hV, .nil _⟩
  | o :: os, v, v', us, s, h, hr, hV => by
    simp only [collect, bind_eq_ok, pure_eq_ok, Prod.exists, Prod.mk.injEq] at h
    obtain ⟨v1, u, h1, v2, us', h2, rfl, rfl⟩ := h
    simp only [visited, h1, List.mem_cons] at hr
    obtain ⟨p, s1, rfl, r1, c1⟩ := ordOutput_run h1 (hr _ (Or.inl rfl)) hV
    obtain ⟨p', s2, rfl, r2, c2⟩ := ordOutputs_run h2 (fun w hw => hr w (Or.inr hw)) r1
    exact ⟨p', s2, rfl, r2, c1.append c2⟩

theorem connectOrders_run {src : Src} {v v' : TxVerifier} {tx : Tx} {s : St}
    (h : connectOrders src v tx = .ok v') (hr : ∀ w ∈ ordTrace v tx, Readable w) (hV : VRep v s) :
    ∃ p n pu s1 s2 nx, v' = { v with orders := p, nonces := n, ordersUndo := pu } ∧
      VRep v' { s with orders := s2, next := nx } ∧ Chain ordM s.orders (tx.inputs.flatMap ordInOps) s1 ∧
      Chain ordM s1 (tx.outputs.flatMap ordOutOps) s2 ∧ (∃ t, Orders.Rep t s1) ∧ s1.Sound := by
  simp only [connectOrders, bind_eq_ok, Prod.exists] at h
  obtain ⟨v1, us1, h1, v2, us2, h2, h3⟩ := h
  have hr' := hr
  simp only [ordTrace, h1, after, List.mem_append] at hr'
  obtain ⟨p, n, s1, nx, rfl, r1, c1⟩ := ordInputs_run h1 (fun w hw => hr' w (Or.inl hw)) hV
  obtain ⟨p', s2, rfl, r2, c2⟩ := ordOutputs_run h2 (fun w hw => hr' w (Or.inr hw)) r1
  unfold storeOrdUndo at h3
  split at h3
  · cases h3
    exact ⟨p', n, v.ordersUndo, s1, s2, nx, rfl, r2, c1, c2, ⟨_, r1.orders⟩, r1.sound⟩
  · simp only [bind_eq_ok, mapErr_ok, pure_eq_ok] at h3
    obtain ⟨c, -, rfl⟩ := h3
    exact ⟨p', n, c, s1, s2, nx, rfl, r2.withUndo _ _ _ _, c1, c2, ⟨_, r1.orders⟩, r1.sound⟩

end Verif.Verifier
