import Verif.Pos.Rep
import Verif.Tokens.Rep
import Verif.Orders.Rep
import Verif.Orders.Invariant
import Verif.Utxo.Lemmas
import Verif.Verifier.Model
import Verif.Verifier.UndoLemmas

/-!
# What the stages of connecting and disconnecting a transaction do to what the verifier shows
-/

namespace Verif.Tokens
open Verif Verif.Accounting

theorem undo_parent {c c' : Cache} {u : Undo} (h : undo c u = .ok c') : c'.parent = c.parent := by
  cases u <;> simp only [undo, undoData, bind_eq_ok, pure_eq_ok] at h
  case issue => obtain ⟨_, _, _, _, _, _, rfl⟩ := h; rfl
  all_goals (obtain ⟨_, _, _, _, _, _, _, _, rfl⟩ := h; rfl)

end Verif.Tokens

namespace Verif.Orders
open Verif Verif.Accounting

theorem undo_parent {c c' : Cache} {u : Undo} (h : undo c u = .ok c') : c'.parent = c.parent := by
  cases u <;> simp only [undo, bind_eq_ok, pure_eq_ok] at h
  case create => obtain ⟨_, _, _, _, _, _, _, _, _, _, _, _, _, _, _, _, _, _, rfl⟩ := h; rfl
  case conclude => obtain ⟨_, _, _, _, _, _, _, _, _, _, _, _, _, _, _, _, _, _, rfl⟩ := h; rfl
  case freeze => obtain ⟨_, _, _, _, _, _, rfl⟩ := h; rfl
  case fill => obtain ⟨_, _, _, _, rfl⟩ := h; rfl

theorem Move.sound {c : Cache} {op : Op} {u : Undo} {s s' : Sv} (hm : Move s op u s') (h : Rep c s) (hs : s.Sound) :
    s'.Sound := by
  have hv : ∀ t : Cache, Rep t s → SoundView t.view := fun t ht id =>
    ⟨s.data id, s.ask id, s.give id, ht.vData id, ht.vAsk id, ht.vGive id, hs id⟩
  obtain ⟨t', h1, h2⟩ := hm.fwd _ h.child
  have := step_sound (hv c h) (hv _ h.child) h1
  intro id
  obtain ⟨od, a, g, e1, e2, e3, e4⟩ := this id
  rw [h2.vData id] at e1; rw [h2.vAsk id] at e2; rw [h2.vGive id] at e3
  cases e1; cases e2; cases e3
  exact e4

end Verif.Orders

namespace Verif.Pos
open Verif Verif.Accounting

theorem undo_parent {c c' : Cache} {u : Undo} (h : undo c u = .ok c') : c'.parent = c.parent := by
  cases u <;> simp only [undo, bind_eq_ok, pure_eq_ok] at h
  case createPool => obtain ⟨_, _, _, _, _, _, _, _, _, _, _, _, rfl⟩ := h; rfl
  case decommissionPool => obtain ⟨_, _, _, _, _, _, _, _, _, _, _, _, rfl⟩ := h; rfl
  case createDelegationId => obtain ⟨_, _, _, _, _, _, rfl⟩ := h; rfl
  case deleteDelegationId => obtain ⟨_, _, _, _, _, _, rfl⟩ := h; rfl
  case delegateStaking => obtain ⟨_, _, _, _, _, _, _, _, _, _, rfl⟩ := h; rfl
  case spendFromShare =>
    obtain ⟨_, _, _, _, _, _, e, _, h⟩ := h
    cases e <;> simp only [Bool.false_eq_true, if_false, if_true, bind_eq_ok, pure_eq_ok] at h
    all_goals (obtain ⟨_, _, _, _, rfl⟩ := h; rfl)
  case increaseStakerRewards => obtain ⟨_, _, _, _, rfl⟩ := h; rfl

end Verif.Pos

namespace Verif.Verifier
open Verif
open Verif.Utxo (OutPoint Coin Output txOut rewardOut LInv)

theorem mapErr_ok {E E' A : Type} {x : Except E A} {w : E → E'} {a : A} :
    x.mapError w = .ok a ↔ x = .ok a := by
  cases x <;> simp [Except.mapError]

/-- the nonce expected next, as a number: how many spends there were -/
def nextOf : Option Nat → Nat
  | none => 0
  | some n => n + 1

theorem nextOf_inj {a b : Option Nat} (h : nextOf a = nextOf b) : a = b := by
  cases a <;> cases b <;> simp [nextOf] at h ⊢
  exact h

/-- what a verifier shows -/
structure St where
  utxo : OutPoint → Option Coin
  pos : Pos.Sv
  tokens : Tokens.Sv
  orders : Orders.Sv
  next : Account → Nat
  nft : Nat → Option (Nat × Nat)
  nftByTx : Nat → Option Nat

/-- the verifier shows `s` -/
structure VRep (v : TxVerifier) (s : St) : Prop where
  uinv : LInv v.base.utxo v.utxo
  utxo : (v.utxo.view v.base.utxo).utxo = s.utxo
  pos : Pos.Rep v.pos s.pos
  posp : v.pos.parent = v.base.pos
  tokens : Tokens.Rep v.tokens s.tokens
  tokp : v.tokens.parent = v.base.tokens
  orders : Orders.Rep v.orders s.orders
  ordp : v.orders.parent = v.base.orders
  locked : s.tokens.LockedOk
  sound : s.orders.Sound
  next : ∀ a, nextOf (v.nonce a) = s.next a
  noncesR : ∀ a n, v.nonces.get a ≠ some (.read n)
  nft : ∀ id, shown v.base.nft v.nfts id = s.nft id
  nftR : ∀ id d, v.nfts.get id = some (.read d) → v.base.nft id = some d
  nftByTx : ∀ id, shown v.base.nftByTx v.nftByTx id = s.nftByTx id
  nftByTxR : ∀ id d, v.nftByTx.get id ≠ some (.read d)

/-- every balance can be read -/
structure Readable (v : TxVerifier) : Prop where
  pos : Pos.Readable v.pos
  tokens : Tokens.Readable v.tokens
  orders : Orders.Readable v.orders

/-! ### Chains of moves -/

inductive Chain {S U : Type} (B : S → U → S → Prop) : S → List U → S → Prop
  | nil (s : S) : Chain B s [] s
  | cons {s s1 s2 : S} {u : U} {us : List U} : B s u s1 → Chain B s1 us s2 → Chain B s (u :: us) s2

theorem Chain.append {S U : Type} {B : S → U → S → Prop} {s s1 s2 : S} {us us' : List U} (h : Chain B s us s1)
    (h' : Chain B s1 us' s2) : Chain B s (us ++ us') s2 := by
  induction h with
  | nil => exact h'
  | cons b _ ih => exact .cons b (ih h')

def posB (s : Pos.Sv) (u : Pos.Undo) (s' : Pos.Sv) : Prop := ∃ op, Pos.Move s op u s'
def tokB (s : Tokens.Sv) (u : Tokens.Undo) (s' : Tokens.Sv) : Prop := ∃ op, Tokens.Move s op u s'
def ordB (s : Orders.Sv) (u : Orders.Undo) (s' : Orders.Sv) : Prop := ∃ op, Orders.Move s op u s'

theorem undoEach_append {V U : Type} (f : V → U → Except Err V) (a b : List U) : ∀ (v : V),
    undoEach f v (a ++ b) = (undoEach f v a).bind fun v1 => undoEach f v1 b := by
  induction a with
  | nil => intro v; rfl
  | cons u us ih =>
    intro v
    simp only [List.cons_append, undoEach, bind]
    cases f v u with
    | error e => rfl
    | ok v1 => exact ih v1

/-! ### Single steps -/

theorem posStep_spec {v v' : TxVerifier} {op : Pos.Op} {o : Option Pos.Undo} {s : Pos.Sv} (h : Pos.Rep v.pos s)
    (hs : posStep v op = .ok (v', o)) (hr : Pos.Readable v'.pos) :
    ∃ p u s', v' = { v with pos := p } ∧ o = some u ∧ p.parent = v.pos.parent ∧ Pos.Rep p s' ∧ Pos.Move s op u s' := by
  simp only [posStep, bind_eq_ok, mapErr_ok, pure_eq_ok, Prod.exists, Prod.mk.injEq] at hs
  obtain ⟨c, u, h1, d, du, h2, rfl, rfl⟩ := hs
  have hcp : c.parent = v.pos.view := Pos.step_parent h1
  have hm := h2
  simp only [Pos.Delta.mergeWithDelta, bind_eq_ok, Pos.lift, mapErr_ok, pure_eq_ok, Prod.exists, Prod.mk.injEq] at h2
  obtain ⟨pb, e1, sh, e2, db, e3, pd, pdu, e4, dd, ddu, e5, rfl, rfl⟩ := h2
  have hrc : Pos.Readable c := by
    constructor
    · intro k
      obtain ⟨x, hx⟩ := hr.poolBal k
      refine ⟨x, ?_⟩
      have hx' : Accounting.getBal .accounting v.pos.parent.poolBalance pb k = .ok x := hx
      have := h.poolBal.child_readable e1 hx'
      simp only [Pos.Cache.view, hcp]
      exact this
    · intro k
      obtain ⟨x, hx⟩ := hr.share k
      refine ⟨x, ?_⟩
      have hx' : Accounting.getBal .accounting v.pos.parent.share sh k = .ok x := hx
      have := h.share.child_readable e2 hx'
      simp only [Pos.Cache.view, hcp]
      exact this
    · intro k
      obtain ⟨x, hx⟩ := hr.delBal k
      refine ⟨x, ?_⟩
      have hx' : Accounting.getBal .accounting v.pos.parent.delegationBalance db k = .ok x := hx
      have := h.delBal.child_readable e3 hx'
      simp only [Pos.Cache.view, hcp]
      exact this
  obtain ⟨s', r1, r2⟩ := Pos.step_move h.child h1 hrc
  obtain ⟨r, ru, m1, m2⟩ := h.layer hcp r1
  rw [hm] at m1
  cases m1
  exact ⟨_, u, s', rfl, rfl, rfl, m2, r2⟩

/-- a staking undo, on any verifier showing the state after the operation -/
theorem posUndo_spec {w : TxVerifier} {op : Pos.Op} {u : Pos.Undo} {s s' : Pos.Sv} (hm : Pos.Move s op u s')
    (h : Pos.Rep w.pos s') :
    ∃ p, posUndo w u = .ok { w with pos := p } ∧ p.parent = w.pos.parent ∧ Pos.Rep p s := by
  obtain ⟨t', h1, h2⟩ := hm.bwd _ h.child
  have hp : t'.parent = w.pos.view := Pos.undo_parent h1
  obtain ⟨r, ru, m1, m2⟩ := h.layer hp h2
  refine ⟨{ w.pos with delta := r }, ?_, rfl, m2⟩
  simp only [posUndo, bind_eq_ok, mapErr_ok, pure_eq_ok]
  exact ⟨_, h1, _, m1, rfl⟩

theorem posUndos_spec {us : List Pos.Undo} {s s' : Pos.Sv} (hc : Chain posB s us s') : ∀ {w : TxVerifier},
    Pos.Rep w.pos s' →
    ∃ p, undoEach posUndo w us.reverse = .ok { w with pos := p } ∧ p.parent = w.pos.parent ∧ Pos.Rep p s := by
  induction hc with
  | nil s => intro w h; exact ⟨w.pos, rfl, rfl, h⟩
  | cons b _ ih =>
    intro w h
    obtain ⟨op, hm⟩ := b
    obtain ⟨p, h1, h2, h3⟩ := ih h
    obtain ⟨q, k1, k2, k3⟩ := posUndo_spec (w := { w with pos := p }) hm h3
    refine ⟨q, ?_, k2.trans h2, k3⟩
    rw [List.reverse_cons, undoEach_append, h1]
    simp only [Except.bind, undoEach, bind, k1]

theorem tokStep_spec {v v' : TxVerifier} {op : Tokens.Op} {o : Option Tokens.Undo} {s : Tokens.Sv}
    (h : Tokens.Rep v.tokens s) (hl : s.LockedOk) (hs : tokStep v op = .ok (v', o)) (hr : Tokens.Readable v'.tokens) :
    ∃ p u s', v' = { v with tokens := p } ∧ o = some u ∧ p.parent = v.tokens.parent ∧ Tokens.Rep p s' ∧ s'.LockedOk ∧
      Tokens.Move s op u s' := by
  simp only [tokStep, bind_eq_ok, mapErr_ok, pure_eq_ok, Prod.exists, Prod.mk.injEq] at hs
  obtain ⟨c, u, h1, rfl, rfl⟩ := hs
  obtain ⟨s', r1, r2, r3⟩ := Tokens.step_move h hl h1 hr
  exact ⟨c, u, s', rfl, rfl, Tokens.step_parent h1, r1, r2, r3⟩

theorem tokUndo_spec {w : TxVerifier} {op : Tokens.Op} {u : Tokens.Undo} {s s' : Tokens.Sv} (hm : Tokens.Move s op u s')
    (h : Tokens.Rep w.tokens s') :
    ∃ p, tokUndo w u = .ok { w with tokens := p } ∧ p.parent = w.tokens.parent ∧ Tokens.Rep p s := by
  obtain ⟨t', h1, h2⟩ := hm.bwd _ h
  refine ⟨t', ?_, Tokens.undo_parent h1, h2⟩
  simp only [tokUndo, bind_eq_ok, mapErr_ok, pure_eq_ok]
  exact ⟨_, h1, rfl⟩

theorem tokUndos_spec {us : List Tokens.Undo} {s s' : Tokens.Sv} (hc : Chain tokB s us s') : ∀ {w : TxVerifier},
    Tokens.Rep w.tokens s' →
    ∃ p, undoEach tokUndo w us.reverse = .ok { w with tokens := p } ∧ p.parent = w.tokens.parent ∧ Tokens.Rep p s := by
  induction hc with
  | nil s => intro w h; exact ⟨w.tokens, rfl, rfl, h⟩
  | cons b _ ih =>
    intro w h
    obtain ⟨op, hm⟩ := b
    obtain ⟨p, h1, h2, h3⟩ := ih h
    obtain ⟨q, k1, k2, k3⟩ := tokUndo_spec (w := { w with tokens := p }) hm h3
    refine ⟨q, ?_, k2.trans h2, k3⟩
    rw [List.reverse_cons, undoEach_append, h1]
    simp only [Except.bind, undoEach, bind, k1]

theorem ordStep_spec {v v' : TxVerifier} {op : Orders.Op} {o : Option Orders.Undo} {s : Orders.Sv}
    (h : Orders.Rep v.orders s) (hl : s.Sound) (hs : ordStep v op = .ok (v', o)) (hr : Orders.Readable v'.orders) :
    ∃ p u s', v' = { v with orders := p } ∧ o = some u ∧ p.parent = v.orders.parent ∧ Orders.Rep p s' ∧ s'.Sound ∧
      Orders.Move s op u s' := by
  simp only [ordStep, bind_eq_ok, mapErr_ok, pure_eq_ok, Prod.exists, Prod.mk.injEq] at hs
  obtain ⟨c, u, h1, rfl, rfl⟩ := hs
  obtain ⟨s', r1, r3⟩ := Orders.step_move h hl h1 hr
  exact ⟨c, u, s', rfl, rfl, Orders.step_parent h1, r1, r3.sound h hl, r3⟩

theorem ordUndo_spec {w : TxVerifier} {op : Orders.Op} {u : Orders.Undo} {s s' : Orders.Sv} (hm : Orders.Move s op u s')
    (h : Orders.Rep w.orders s') :
    ∃ p, ordUndo w u = .ok { w with orders := p } ∧ p.parent = w.orders.parent ∧ Orders.Rep p s := by
  obtain ⟨t', h1, h2⟩ := hm.bwd _ h
  refine ⟨t', ?_, Orders.undo_parent h1, h2⟩
  simp only [ordUndo, bind_eq_ok, mapErr_ok, pure_eq_ok]
  exact ⟨_, h1, rfl⟩

theorem ordUndos_spec {us : List Orders.Undo} {s s' : Orders.Sv} (hc : Chain ordB s us s') : ∀ {w : TxVerifier},
    Orders.Rep w.orders s' →
    ∃ p, undoEach ordUndo w us.reverse = .ok { w with orders := p } ∧ p.parent = w.orders.parent ∧ Orders.Rep p s := by
  induction hc with
  | nil s => intro w h; exact ⟨w.orders, rfl, rfl, h⟩
  | cons b _ ih =>
    intro w h
    obtain ⟨op, hm⟩ := b
    obtain ⟨p, h1, h2, h3⟩ := ih h
    obtain ⟨q, k1, k2, k3⟩ := ordUndo_spec (w := { w with orders := p }) hm h3
    refine ⟨q, ?_, k2.trans h2, k3⟩
    rw [List.reverse_cons, undoEach_append, h1]
    simp only [Except.bind, undoEach, bind, k1]

/-! ### Nonces -/

/-- spends recorded against accounts -/
def bump (next : Account → Nat) (as : List Account) : Account → Nat := fun a => next a + as.count a

@[simp] theorem bump_nil (next : Account → Nat) : bump next [] = next := by funext a; simp [bump]

theorem bump_append (next : Account → Nat) (l l' : List Account) : bump next (l ++ l') = bump (bump next l) l' := by
  funext a; simp [bump, List.count_append, Nat.add_assoc]

theorem nonce_insert (v : TxVerifier) (a b : Account) (op : COp Nat) :
    TxVerifier.nonce { v with nonces := v.nonces.insert a op } b = if b = a then op.get else v.nonce b := by
  unfold TxVerifier.nonce
  rw [BMap.get_insert]
  by_cases h : b = a
  · simp [h]
  · simp [h]

theorem expectedNonce_ok {o : Option Nat} {n : Nat} (h : expectedNonce o = .ok n) : nextOf o = n ∧ n < 2 ^ 64 := by
  cases o with
  | none => cases h; simp [nextOf]
  | some m =>
    simp only [expectedNonce] at h
    split at h
    · cases h; exact ⟨rfl, by assumption⟩
    · cases h

/-- a successful spend used exactly the next nonce -/
theorem spendNonce_spec {v v' : TxVerifier} {a : Account} {n : Nat} (h : spendNonce v a n = .ok v') :
    nextOf (v.nonce a) = n ∧ n < 2 ^ 64 ∧ v' = { v with nonces := v.nonces.insert a (.write n) } ∧
      ∀ b, nextOf (v'.nonce b) = bump (fun a => nextOf (v.nonce a)) [a] b := by
  simp only [spendNonce, bind_eq_ok, pure_eq_ok, ensure_eq_ok] at h
  obtain ⟨e, h1, _, h2, rfl⟩ := h
  subst h2
  obtain ⟨g1, g2⟩ := expectedNonce_ok h1
  refine ⟨g1, g2, rfl, fun b => ?_⟩
  rw [nonce_insert]
  unfold bump
  by_cases hb : b = a
  · subst hb; simp [g1]; rfl
  · have : a ≠ b := fun e => hb e.symm
    simp [hb, this]

theorem unspendNonce_spec {w : TxVerifier} {a : Account} {k : Nat} (h : nextOf (w.nonce a) = k + 1) :
    ∃ ns, unspendNonce w a = .ok { w with nonces := ns } ∧
      (∀ b, nextOf (TxVerifier.nonce { w with nonces := ns } b) = if b = a then k else nextOf (w.nonce b)) ∧
      ((∀ b n, w.nonces.get b ≠ some (.read n)) → ∀ b n, ns.get b ≠ some (.read n)) := by
  cases hn : w.nonce a with
  | none => rw [hn] at h; cases h
  | some n =>
    rw [hn] at h
    have hk : n = k := by simpa [nextOf] using h
    subst hk
    refine ⟨w.nonces.insert a (previousNonce n), ?_, fun b => ?_, fun hr b m => ?_⟩
    · simp only [unspendNonce, bind_eq_ok, pure_eq_ok, okOr_eq_ok]
      exact ⟨n, hn, rfl⟩
    · rw [nonce_insert]
      by_cases hb : b = a
      · simp only [hb, if_true, previousNonce]
        by_cases h0 : n = 0
        · simp [h0, COp.get, nextOf]
        · simp only [if_neg h0, COp.get, nextOf]; omega
      · simp [hb]
    · rw [BMap.get_insert]
      by_cases hb : b = a
      · simp only [hb, if_true, previousNonce]
        split <;> simp
      · simp only [hb, if_false]; exact hr b m

theorem unspendNonces_spec : ∀ (is : List Input) {w : TxVerifier} {next : Account → Nat},
    (∀ a, nextOf (w.nonce a) = bump next (is.filterMap Input.acc) a) →
    (∀ b n, w.nonces.get b ≠ some (.read n)) →
    ∃ ns, unspendNonces w is = .ok { w with nonces := ns } ∧
      (∀ a, nextOf (TxVerifier.nonce { w with nonces := ns } a) = next a) ∧
      (∀ b n, ns.get b ≠ some (.read n))
  | [], w, next, h, hr => ⟨w.nonces, rfl, fun a => by simpa using h a, hr⟩
  | i :: is, w, next, h, hr => by
    cases hi : i.acc with
    | none =>
      simp only [List.filterMap_cons, hi] at h
      obtain ⟨ns, h1, h2, h3⟩ := unspendNonces_spec is h hr
      refine ⟨ns, ?_, h2, h3⟩
      unfold unspendNonces
      rw [hi]
      exact h1
    | some a =>
      simp only [List.filterMap_cons, hi] at h
      have ha := h a
      unfold bump at ha
      rw [List.count_cons_self, ← Nat.add_assoc] at ha
      obtain ⟨ns, h1, h2, h3⟩ := unspendNonce_spec ha
      obtain ⟨ns', k1, k2, k3⟩ := unspendNonces_spec is (w := { w with nonces := ns }) (next := next) (by
        intro b
        rw [h2 b]
        by_cases hb : b = a
        · subst hb; rw [if_pos rfl]; rfl
        · rw [if_neg hb, h b]
          unfold bump
          rw [List.count_cons_of_ne (fun e => hb e.symm)]) (h3 hr)
      refine ⟨ns', ?_, k2, k3⟩
      unfold unspendNonces
      simp only [hi, bind, h1, Except.bind]
      exact k1

/-! ### Stages of connecting -/

/-- the states reached by the steps of `collect` -/
def visited {V A U : Type} (f : V → A → Except Err (V × Option U)) (v : V) : List A → List V
  | [] => []
  | x :: xs => match f v x with
    | .ok (v1, _) => v1 :: visited f v1 xs
    | .error _ => []

theorem collect_spec {V A U : Type} {f : V → A → Except Err (V × Option U)} {Good : V → Prop}
    {P : V → List A → List U → V → Prop} (hnil : ∀ v, P v [] [] v)
    (hcons : ∀ {v v1 v2 x o xs us}, f v x = .ok (v1, o) → Good v1 → P v1 xs us v2 → P v (x :: xs) (o.toList ++ us) v2) :
    ∀ {xs : List A} {v v' : V} {us : List U}, collect f v xs = .ok (v', us) → (∀ w ∈ visited f v xs, Good w) →
      P v xs us v'
  | [], v, v', us, h, _ => by cases h; exact hnil v
  | x :: xs, v, v', us, h, hg => by
    simp only [collect, bind_eq_ok, pure_eq_ok, Prod.exists, Prod.mk.injEq] at h
    obtain ⟨v1, o, h1, v2, us', h2, rfl, rfl⟩ := h
    simp only [visited, h1, List.mem_cons] at hg
    exact hcons h1 (hg v1 (Or.inl rfl)) (collect_spec hnil hcons h2 fun w hw => hg w (Or.inr hw))

/-- the account an input uses in the staking stage -/
def Input.posAcc : Input → Option Account
  | .account _ d _ => some (delegationAccount d)
  | _ => none

def Input.tokAcc : Input → Option Account
  | .token _ c => some (tokenAccount c.token)
  | _ => none

def Input.ordAcc : Input → Option Account
  | .orderV0 _ c => some (orderAccount c.order)
  | _ => none

theorem bump_filterMap_cons {A : Type} (next : Account → Nat) (g : A → Option Account) (x : A) (xs : List A) :
    bump next ((x :: xs).filterMap g) = bump (bump next (g x).toList) (xs.filterMap g) := by
  rw [← bump_append]
  cases h : g x <;> simp [h]

theorem bump_accs (is : List Input) (next : Account → Nat) :
    bump (bump (bump next (is.filterMap Input.posAcc)) (is.filterMap Input.tokAcc)) (is.filterMap Input.ordAcc) =
      bump next (is.filterMap Input.acc) := by
  funext a
  simp only [bump]
  induction is with
  | nil => simp
  | cons i is ih =>
    cases i <;> simp only [List.filterMap_cons, Input.posAcc, Input.tokAcc, Input.ordAcc, Input.acc, List.count_cons] <;>
      omega

/-- effect of staking steps -/
def PosEff {A : Type} (acc : A → Option Account) (v : TxVerifier) (xs : List A) (us : List Pos.Undo)
    (v' : TxVerifier) : Prop :=
  ∀ s, VRep v s → ∃ p n s', v' = { v with pos := p, nonces := n } ∧
    VRep v' { s with pos := s', next := bump s.next (xs.filterMap acc) } ∧ Chain posB s.pos us s'

theorem PosEff.nil {A : Type} (acc : A → Option Account) (v : TxVerifier) : PosEff acc v [] [] v :=
  fun s h => ⟨v.pos, v.nonces, s.pos, rfl, by simpa using h, .nil _⟩

theorem PosEff.cons {A : Type} {acc : A → Option Account} {v v1 v2 : TxVerifier} {x : A} {xs : List A}
    {us us' : List Pos.Undo} (h : PosEff acc v [x] us v1) (h' : PosEff acc v1 xs us' v2) :
    PosEff acc v (x :: xs) (us ++ us') v2 := by
  intro s hs
  obtain ⟨p, n, s1, e1, r1, c1⟩ := h s hs
  obtain ⟨p', n', s2, e2, r2, c2⟩ := h' _ r1
  refine ⟨p', n', s2, by rw [e2, e1], ?_, c1.append c2⟩
  rw [bump_filterMap_cons]
  have : ([x] : List A).filterMap acc = (acc x).toList := by cases h : acc x <;> simp [h]
  rw [this] at r2
  exact r2

theorem PosEff.skip {A : Type} {acc : A → Option Account} {v : TxVerifier} {x : A} (ha : acc x = none) :
    PosEff acc v [x] (none : Option Pos.Undo).toList v := by
  intro s h
  exact ⟨v.pos, v.nonces, s.pos, rfl, by simpa [ha] using h, .nil _⟩

theorem VRep.withPos {v : TxVerifier} {s : St} {p : Pos.Cache} {s' : Pos.Sv} (h : VRep v s) (hp : p.parent = v.pos.parent)
    (hr : Pos.Rep p s') : VRep { v with pos := p } { s with pos := s' } :=
  { h with pos := hr, posp := hp.trans h.posp }

theorem VRep.withTokens {v : TxVerifier} {s : St} {p : Tokens.Cache} {s' : Tokens.Sv} (h : VRep v s)
    (hp : p.parent = v.tokens.parent) (hr : Tokens.Rep p s') (hl : s'.LockedOk) :
    VRep { v with tokens := p } { s with tokens := s' } :=
  { h with tokens := hr, tokp := hp.trans h.tokp, locked := hl }

theorem VRep.withOrders {v : TxVerifier} {s : St} {p : Orders.Cache} {s' : Orders.Sv} (h : VRep v s)
    (hp : p.parent = v.orders.parent) (hr : Orders.Rep p s') (hl : s'.Sound) :
    VRep { v with orders := p } { s with orders := s' } :=
  { h with orders := hr, ordp := hp.trans h.ordp, sound := hl }

theorem VRep.spendNonce {v v' : TxVerifier} {s : St} {a : Account} {n : Nat} (h : VRep v s)
    (hs : Verifier.spendNonce v a n = .ok v') :
    ∃ ns, v' = { v with nonces := ns } ∧ VRep v' { s with next := bump s.next [a] } := by
  obtain ⟨-, -, rfl, h2⟩ := spendNonce_spec hs
  refine ⟨_, rfl, { h with next := fun b => ?_, noncesR := fun b m => ?_ }⟩
  · rw [h2 b]
    have : (fun a => nextOf (v.nonce a)) = s.next := funext h.next
    rw [this]
  · simp only [BMap.get_insert]
    split
    · simp
    · exact h.noncesR b m

theorem posEff_step {A : Type} {acc : A → Option Account} {v v' : TxVerifier} {x : A} {op : Pos.Op}
    {o : Option Pos.Undo} (ha : acc x = none) (h : posStep v op = .ok (v', o)) (hr : Readable v') :
    PosEff acc v [x] o.toList v' := by
  intro s hs
  obtain ⟨p, u, s', rfl, rfl, hp, r1, m⟩ := posStep_spec hs.pos h hr.pos
  exact ⟨p, v.nonces, s', rfl, by simpa [ha] using hs.withPos hp r1, .cons ⟨op, m⟩ (.nil _)⟩

theorem posInput_spec {env : Env} {v v' : TxVerifier} {i : Input} {o : Option Pos.Undo}
    (h : posInput env v i = .ok (v', o)) (hr : Readable v') : PosEff Input.posAcc v [i] o.toList v' := by
  cases i with
  | utxo op =>
    simp only [posInput, posUtxo, bind_eq_ok, okOr_eq_ok] at h
    obtain ⟨coin, -, h2⟩ := h
    split at h2
    · exact posEff_step rfl h2 hr
    · cases h2; exact PosEff.skip rfl
  | account nonce d a =>
    simp only [posInput, bind_eq_ok] at h
    obtain ⟨v1, h1, h2⟩ := h
    intro s hs
    obtain ⟨ns, rfl, r1⟩ := hs.spendNonce h1
    obtain ⟨p, u, s', rfl, rfl, hp, r2, m⟩ := posStep_spec r1.pos h2 hr.pos
    exact ⟨p, ns, s', rfl, by simpa [Input.posAcc] using r1.withPos hp r2, .cons ⟨_, m⟩ (.nil _)⟩
  | token n c => cases h; exact PosEff.skip rfl
  | orderV0 n c => cases h; exact PosEff.skip rfl
  | order c => cases h; exact PosEff.skip rfl

theorem posOutput_spec {env : Env} {tx : Tx} {v v' : TxVerifier} {x : Out} {o : Option Pos.Undo}
    (h : posOutput env tx v x = .ok (v', o)) (hr : Readable v') :
    PosEff (fun _ : Out => none) v [x] o.toList v' := by
  unfold posOutput at h
  split at h
  · split at h
    · exact posEff_step rfl h hr
    · cases h
  · exact posEff_step rfl h hr
  · exact posEff_step rfl h hr
  · cases h; exact PosEff.skip rfl

/-- effect of token steps -/
def TokEff {A : Type} (acc : A → Option Account) (v : TxVerifier) (xs : List A) (us : List Tokens.Undo)
    (v' : TxVerifier) : Prop :=
  ∀ s, VRep v s → ∃ p n s', v' = { v with tokens := p, nonces := n } ∧
    VRep v' { s with tokens := s', next := bump s.next (xs.filterMap acc) } ∧ Chain tokB s.tokens us s'

theorem TokEff.nil {A : Type} (acc : A → Option Account) (v : TxVerifier) : TokEff acc v [] [] v :=
  fun s h => ⟨v.tokens, v.nonces, s.tokens, rfl, by simpa using h, .nil _⟩

theorem TokEff.cons {A : Type} {acc : A → Option Account} {v v1 v2 : TxVerifier} {x : A} {xs : List A}
    {us us' : List Tokens.Undo} (h : TokEff acc v [x] us v1) (h' : TokEff acc v1 xs us' v2) :
    TokEff acc v (x :: xs) (us ++ us') v2 := by
  intro s hs
  obtain ⟨p, n, s1, e1, r1, c1⟩ := h s hs
  obtain ⟨p', n', s2, e2, r2, c2⟩ := h' _ r1
  refine ⟨p', n', s2, by rw [e2, e1], ?_, c1.append c2⟩
  rw [bump_filterMap_cons]
  have : ([x] : List A).filterMap acc = (acc x).toList := by cases h : acc x <;> simp [h]
  rw [this] at r2
  exact r2

theorem TokEff.skip {A : Type} {acc : A → Option Account} {v : TxVerifier} {x : A} (ha : acc x = none) :
    TokEff acc v [x] (none : Option Tokens.Undo).toList v := by
  intro s h
  exact ⟨v.tokens, v.nonces, s.tokens, rfl, by simpa [ha] using h, .nil _⟩

theorem tokInput_spec {tx : Tx} {v v' : TxVerifier} {i : Input} {o : Option Tokens.Undo}
    (h : tokInput tx v i = .ok (v', o)) (hr : Readable v') : TokEff Input.tokAcc v [i] o.toList v' := by
  cases i with
  | token nonce cmd =>
    simp only [tokInput, bind_eq_ok] at h
    obtain ⟨v1, h1, op, -, h2⟩ := h
    intro s hs
    obtain ⟨ns, rfl, r1⟩ := hs.spendNonce h1
    cases op with
    | none =>
      cases h2
      exact ⟨v.tokens, ns, s.tokens, rfl, by simpa [Input.tokAcc] using r1, .nil _⟩
    | some op =>
      obtain ⟨p, u, s', rfl, rfl, hp, r2, hl, m⟩ := tokStep_spec r1.tokens r1.locked h2 hr.tokens
      exact ⟨p, ns, s', rfl, by simpa [Input.tokAcc] using r1.withTokens hp r2 hl, .cons ⟨_, m⟩ (.nil _)⟩
  | utxo op => cases h; exact TokEff.skip rfl
  | account nonce d a => cases h; exact TokEff.skip rfl
  | orderV0 n c => cases h; exact TokEff.skip rfl
  | order c => cases h; exact TokEff.skip rfl

theorem tokOutput_spec {v v' : TxVerifier} {x : Out} {o : Option Tokens.Undo}
    (h : tokOutput v x = .ok (v', o)) (hr : Readable v') :
    TokEff (fun _ : Out => none) v [x] o.toList v' := by
  unfold tokOutput at h
  split at h
  · intro s hs
    obtain ⟨p, u, s', rfl, rfl, hp, r1, hl, m⟩ := tokStep_spec hs.tokens hs.locked h hr.tokens
    exact ⟨p, v.nonces, s', rfl, by simpa using hs.withTokens hp r1 hl, .cons ⟨_, m⟩ (.nil _)⟩
  · cases h; exact TokEff.skip rfl

/-- effect of order steps -/
def OrdEff {A : Type} (acc : A → Option Account) (v : TxVerifier) (xs : List A) (us : List Orders.Undo)
    (v' : TxVerifier) : Prop :=
  ∀ s, VRep v s → ∃ p n s', v' = { v with orders := p, nonces := n } ∧
    VRep v' { s with orders := s', next := bump s.next (xs.filterMap acc) } ∧ Chain ordB s.orders us s'

theorem OrdEff.nil {A : Type} (acc : A → Option Account) (v : TxVerifier) : OrdEff acc v [] [] v :=
  fun s h => ⟨v.orders, v.nonces, s.orders, rfl, by simpa using h, .nil _⟩

theorem OrdEff.cons {A : Type} {acc : A → Option Account} {v v1 v2 : TxVerifier} {x : A} {xs : List A}
    {us us' : List Orders.Undo} (h : OrdEff acc v [x] us v1) (h' : OrdEff acc v1 xs us' v2) :
    OrdEff acc v (x :: xs) (us ++ us') v2 := by
  intro s hs
  obtain ⟨p, n, s1, e1, r1, c1⟩ := h s hs
  obtain ⟨p', n', s2, e2, r2, c2⟩ := h' _ r1
  refine ⟨p', n', s2, by rw [e2, e1], ?_, c1.append c2⟩
  rw [bump_filterMap_cons]
  have : ([x] : List A).filterMap acc = (acc x).toList := by cases h : acc x <;> simp [h]
  rw [this] at r2
  exact r2

theorem OrdEff.skip {A : Type} {acc : A → Option Account} {v : TxVerifier} {x : A} (ha : acc x = none) :
    OrdEff acc v [x] (none : Option Orders.Undo).toList v := by
  intro s h
  exact ⟨v.orders, v.nonces, s.orders, rfl, by simpa [ha] using h, .nil _⟩

theorem ordInput_spec {v v' : TxVerifier} {i : Input} {o : Option Orders.Undo}
    (h : ordInput v i = .ok (v', o)) (hr : Readable v') : OrdEff Input.ordAcc v [i] o.toList v' := by
  cases i with
  | orderV0 nonce cmd =>
    simp only [ordInput, bind_eq_ok] at h
    obtain ⟨v1, h1, h2⟩ := h
    intro s hs
    obtain ⟨ns, rfl, r1⟩ := hs.spendNonce h1
    obtain ⟨p, u, s', rfl, rfl, hp, r2, hl, m⟩ := ordStep_spec r1.orders r1.sound h2 hr.orders
    exact ⟨p, ns, s', rfl, by simpa [Input.ordAcc] using r1.withOrders hp r2 hl, .cons ⟨_, m⟩ (.nil _)⟩
  | order cmd =>
    intro s hs
    obtain ⟨p, u, s', rfl, rfl, hp, r2, hl, m⟩ := ordStep_spec hs.orders hs.sound h hr.orders
    refine ⟨p, v.nonces, s', rfl, ?_, .cons ⟨_, m⟩ (.nil _)⟩
    have : [Input.order cmd].filterMap Input.ordAcc = [] := rfl
    rw [this, bump_nil]
    exact hs.withOrders hp r2 hl
  | utxo op => cases h; exact OrdEff.skip rfl
  | account nonce d a => cases h; exact OrdEff.skip rfl
  | token n c => cases h; exact OrdEff.skip rfl

theorem ordOutput_spec {v v' : TxVerifier} {x : Out} {o : Option Orders.Undo}
    (h : ordOutput v x = .ok (v', o)) (hr : Readable v') :
    OrdEff (fun _ : Out => none) v [x] o.toList v' := by
  unfold ordOutput at h
  split at h
  · intro s hs
    obtain ⟨p, u, s', rfl, rfl, hp, r1, hl, m⟩ := ordStep_spec hs.orders hs.sound h hr.orders
    exact ⟨p, v.nonces, s', rfl, by simpa using hs.withOrders hp r1 hl, .cons ⟨_, m⟩ (.nil _)⟩
  · cases h; exact OrdEff.skip rfl

end Verif.Verifier
