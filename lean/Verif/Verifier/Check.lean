import Verif.Verifier.NonceLemmas

/-!
# Deciding that the balances of a block stay in range
-/

namespace Verif.Verifier
open Verif Verif.Accounting
open Verif.Utxo (OutPoint Coin Output txOut rewardOut LInv)

/-- the accounting caches of `w` are layers over the same views as those of `v` -/
structure Over (v w : TxVerifier) : Prop where
  pos : w.pos.parent = v.pos.parent
  tokens : w.tokens.parent = v.tokens.parent
  orders : w.orders.parent = v.orders.parent

theorem Over.refl (v : TxVerifier) : Over v v := ⟨rfl, rfl, rfl⟩
theorem Over.trans {u v w : TxVerifier} (h : Over u v) (h' : Over v w) : Over u w :=
  ⟨h'.pos.trans h.pos, h'.tokens.trans h.tokens, h'.orders.trans h.orders⟩

theorem over_spendNonce {v v' : TxVerifier} {a : Account} {n : Nat} (h : spendNonce v a n = .ok v') : Over v v' := by
  obtain ⟨-, -, rfl, -⟩ := spendNonce_spec h; exact ⟨rfl, rfl, rfl⟩

theorem over_posStep {v v' : TxVerifier} {op : Pos.Op} {o} (h : posStep v op = .ok (v', o)) : Over v v' := by
  simp only [posStep, bind_eq_ok, mapErr_ok, pure_eq_ok, Prod.exists, Prod.mk.injEq] at h
  obtain ⟨c, u, h1, d, du, h2, rfl, rfl⟩ := h
  exact ⟨rfl, rfl, rfl⟩

theorem over_tokStep {v v' : TxVerifier} {op : Tokens.Op} {o} (h : tokStep v op = .ok (v', o)) : Over v v' := by
  simp only [tokStep, bind_eq_ok, mapErr_ok, pure_eq_ok, Prod.exists, Prod.mk.injEq] at h
  obtain ⟨c, u, h1, rfl, rfl⟩ := h
  exact ⟨rfl, Tokens.step_parent h1, rfl⟩

theorem over_ordStep {v v' : TxVerifier} {op : Orders.Op} {o} (h : ordStep v op = .ok (v', o)) : Over v v' := by
  simp only [ordStep, bind_eq_ok, mapErr_ok, pure_eq_ok, Prod.exists, Prod.mk.injEq] at h
  obtain ⟨c, u, h1, rfl, rfl⟩ := h
  exact ⟨rfl, rfl, Orders.step_parent h1⟩

theorem over_posInput {env : Env} {v : TxVerifier} {i : Input} {v' : TxVerifier} {o} (h : posInput env v i = .ok (v', o)) :
    Over v v' := by
  cases i with
  | utxo op =>
    simp only [posInput, posUtxo, bind_eq_ok, okOr_eq_ok] at h
    obtain ⟨coin, -, h2⟩ := h
    split at h2
    · exact over_posStep h2
    · cases h2; exact .refl _
  | account nonce d a =>
    simp only [posInput, bind_eq_ok] at h
    obtain ⟨v1, h1, h2⟩ := h
    exact (over_spendNonce h1).trans (over_posStep h2)
  | token n c => cases h; exact .refl _
  | orderV0 n c => cases h; exact .refl _
  | order c => cases h; exact .refl _

theorem over_posOutput {env : Env} {tx : Tx} {v : TxVerifier} {x : Out} {v' : TxVerifier} {o}
    (h : posOutput env tx v x = .ok (v', o)) : Over v v' := by
  unfold posOutput at h
  split at h
  · split at h
    · exact over_posStep h
    · cases h
  · exact over_posStep h
  · exact over_posStep h
  · cases h; exact .refl _

theorem over_tokInput {tx : Tx} {v : TxVerifier} {i : Input} {v' : TxVerifier} {o} (h : tokInput tx v i = .ok (v', o)) :
    Over v v' := by
  cases i with
  | token nonce cmd =>
    simp only [tokInput, bind_eq_ok] at h
    obtain ⟨v1, h1, op, -, h2⟩ := h
    refine (over_spendNonce h1).trans ?_
    cases op with
    | none => cases h2; exact .refl _
    | some op => exact over_tokStep h2
  | utxo op => cases h; exact .refl _
  | account nonce d a => cases h; exact .refl _
  | orderV0 n c => cases h; exact .refl _
  | order c => cases h; exact .refl _

theorem over_tokOutput {v : TxVerifier} {x : Out} {v' : TxVerifier} {o} (h : tokOutput v x = .ok (v', o)) : Over v v' := by
  unfold tokOutput at h
  split at h
  · exact over_tokStep h
  · cases h; exact .refl _

theorem over_ordInput {v : TxVerifier} {i : Input} {v' : TxVerifier} {o} (h : ordInput v i = .ok (v', o)) : Over v v' := by
  cases i with
  | orderV0 nonce cmd =>
    simp only [ordInput, bind_eq_ok] at h
    obtain ⟨v1, h1, h2⟩ := h
    exact (over_spendNonce h1).trans (over_ordStep h2)
  | order c => exact over_ordStep h
  | utxo op => cases h; exact .refl _
  | account nonce d a => cases h; exact .refl _
  | token n c => cases h; exact .refl _

theorem over_ordOutput {v : TxVerifier} {x : Out} {v' : TxVerifier} {o} (h : ordOutput v x = .ok (v', o)) : Over v v' := by
  unfold ordOutput at h
  split at h
  · exact over_ordStep h
  · cases h; exact .refl _

theorem over_collect {A U : Type} {f : TxVerifier → A → Except Err (TxVerifier × Option U)}
    (hf : ∀ v x v' o, f v x = .ok (v', o) → Over v v') {xs : List A} {v v' : TxVerifier} {us : List U}
    (h : collect f v xs = .ok (v', us)) : Over v v' :=
  collect_spec (Good := fun _ => True) (P := fun v _ _ v' => Over v v') Over.refl
    (fun {v v1 v2 x o xs us} hx _ hp => (hf _ _ _ _ hx).trans hp) h (fun _ _ => trivial)

theorem over_visited {A U : Type} {f : TxVerifier → A → Except Err (TxVerifier × Option U)}
    (hf : ∀ v x v' o, f v x = .ok (v', o) → Over v v') : ∀ (xs : List A) (v w : TxVerifier), w ∈ visited f v xs → Over v w
  | [], v, w, h => by simp [visited] at h
  | x :: xs, v, w, h => by
    unfold visited at h
    cases hx : f v x with
    | error e => rw [hx] at h; simp at h
    | ok r =>
      obtain ⟨v1, o⟩ := r
      rw [hx] at h
      simp only [List.mem_cons] at h
      rcases h with rfl | h
      · exact hf _ _ _ _ hx
      · exact (hf _ _ _ _ hx).trans (over_visited hf xs v1 w h)

theorem over_after {X : Type} {x : Except Err X} {f : X → List TxVerifier} {v w : TxVerifier}
    (h : w ∈ after x f) (hf : ∀ r, x = .ok r → w ∈ f r → Over v w) : Over v w := by
  unfold after at h
  cases hx : x with
  | error e => rw [hx] at h; simp at h
  | ok r => rw [hx] at h; exact hf r hx h

theorem over_connectPos {env : Env} {src : Src} {v v' : TxVerifier} {tx : Tx} (h : connectPos env src v tx = .ok v') :
    Over v v' := by
  simp only [connectPos, bind_eq_ok, Prod.exists] at h
  obtain ⟨v1, us1, h1, v2, us2, h2, _, -, h3⟩ := h
  refine ((over_collect (fun _ _ _ _ => over_posInput) h1).trans (over_collect (fun _ _ _ _ => over_posOutput) h2)).trans ?_
  unfold storePosUndo at h3
  split at h3
  · cases h3; exact .refl _
  · simp only [bind_eq_ok, mapErr_ok, pure_eq_ok] at h3
    obtain ⟨_, -, rfl⟩ := h3; exact ⟨rfl, rfl, rfl⟩

theorem over_connectTokens {env : Env} {src : Src} {v v' : TxVerifier} {tx : Tx} (h : connectTokens env src v tx = .ok v') :
    Over v v' := by
  simp only [connectTokens, bind_eq_ok, Prod.exists] at h
  obtain ⟨_, -, v1, us1, h1, v2, us2, h2, h3⟩ := h
  refine ((over_collect (fun _ _ _ _ => over_tokInput) h1).trans (over_collect (fun _ _ _ _ => over_tokOutput) h2)).trans ?_
  unfold storeTokUndo at h3
  split at h3
  · cases h3; exact .refl _
  · simp only [bind_eq_ok, mapErr_ok, pure_eq_ok] at h3
    obtain ⟨_, -, rfl⟩ := h3; exact ⟨rfl, rfl, rfl⟩

theorem over_connectOrders {src : Src} {v v' : TxVerifier} {tx : Tx} (h : connectOrders src v tx = .ok v') :
    Over v v' := by
  simp only [connectOrders, bind_eq_ok, Prod.exists] at h
  obtain ⟨v1, us1, h1, v2, us2, h2, h3⟩ := h
  refine ((over_collect (fun _ _ _ _ => over_ordInput) h1).trans (over_collect (fun _ _ _ _ => over_ordOutput) h2)).trans ?_
  unfold storeOrdUndo at h3
  split at h3
  · cases h3; exact .refl _
  · simp only [bind_eq_ok, mapErr_ok, pure_eq_ok] at h3
    obtain ⟨_, -, rfl⟩ := h3; exact ⟨rfl, rfl, rfl⟩

theorem over_register {v v' : TxVerifier} {tx : Tx} {block : Nat} (h : register v tx block = .ok v') : Over v v' := by
  obtain ⟨a, b, rfl⟩ := register_eq h; exact ⟨rfl, rfl, rfl⟩

theorem over_connectTx {env : Env} {src : Src} {v v' : TxVerifier} {tx : Tx} {fee : Nat}
    (h : connectTx env src v tx = .ok (v', fee)) : Over v v' := by
  simp only [connectTx, bind_eq_ok, pure_eq_ok, Prod.mk.injEq] at h
  obtain ⟨_, -, v1, h1, _, -, v2, h2, v3, h3, v4, h4, v5, h5, rfl, -⟩ := h
  refine ((((over_register h1).trans (over_connectPos h2)).trans (over_connectTokens h3)).trans (over_connectOrders h4)).trans ?_
  simp only [connectUtxo, bind_eq_ok, mapErr_ok, pure_eq_ok, Prod.exists] at h5
  obtain ⟨l, u, -, c, -, rfl⟩ := h5
  exact ⟨rfl, rfl, rfl⟩

theorem over_connectTxs {env : Env} {src : Src} : ∀ (txs : List Tx) {v v' : TxVerifier} {fees : List Nat},
    connectTxs env src v txs = .ok (v', fees) → Over v v'
  | [], v, v', fees, h => by cases h; exact .refl _
  | tx :: txs, v, v', fees, h => by
    simp only [connectTxs, bind_eq_ok, pure_eq_ok, Prod.exists, Prod.mk.injEq] at h
    obtain ⟨v1, fee, h1, v2, fees', h2, rfl, rfl⟩ := h
    exact (over_connectTx h1).trans (over_connectTxs txs h2)

theorem over_txTrace {env : Env} {src : Src} {v w : TxVerifier} {tx : Tx} (h : w ∈ txTrace env src v tx) : Over v w := by
  unfold txTrace at h
  refine over_after h fun v1 h1 h => (over_register h1).trans ?_
  rcases List.mem_append.1 h with h | h
  · rcases List.mem_append.1 h with h | h
    · exact over_visited (fun _ _ _ _ => over_posInput) _ _ _ h
    · refine over_after h fun r hr h => ?_
      exact (over_collect (fun _ _ _ _ => over_posInput) hr).trans (over_visited (fun _ _ _ _ => over_posOutput) _ _ _ h)
  · refine over_after h fun v2 h2 h => (over_connectPos h2).trans ?_
    rcases List.mem_append.1 h with h | h
    · rcases List.mem_append.1 h with h | h
      · exact over_visited (fun _ _ _ _ => over_tokInput) _ _ _ h
      · refine over_after h fun r hr h => ?_
        exact (over_collect (fun _ _ _ _ => over_tokInput) hr).trans
          (over_visited (fun _ _ _ _ => over_tokOutput) _ _ _ h)
    · refine over_after h fun v3 h3 h => (over_connectTokens h3).trans ?_
      rcases List.mem_append.1 h with h | h
      · exact over_visited (fun _ _ _ _ => over_ordInput) _ _ _ h
      · refine over_after h fun r hr h => ?_
        exact (over_collect (fun _ _ _ _ => over_ordInput) hr).trans
          (over_visited (fun _ _ _ _ => over_ordOutput) _ _ _ h)

theorem over_txsTrace {env : Env} {src : Src} : ∀ (txs : List Tx) {v w : TxVerifier}, w ∈ txsTrace env src v txs → Over v w
  | [], v, w, h => by simp [txsTrace] at h
  | tx :: txs, v, w, h => by
    unfold txsTrace at h
    rcases List.mem_append.1 h with h | h
    · exact over_txTrace h
    · exact over_after h fun r hr h => (over_connectTx hr).trans (over_txsTrace txs h)

theorem over_blockTrace {env : Env} {v w : TxVerifier} {b : Block} (h : w ∈ blockTrace env v b) : Over v w := by
  unfold blockTrace at h
  rcases List.mem_append.1 h with h | h
  · exact over_txsTrace _ h
  · refine over_after h fun r hr h => (over_connectTxs _ hr).trans ?_
    refine over_after h fun r' hr' h => ?_
    have o : Over r.1 r' := by
      simp only [rewardUtxo, bind_eq_ok, mapErr_ok, Prod.exists] at hr'
      obtain ⟨l, u, -, h3⟩ := hr'
      cases u with
      | none => cases h3; exact ⟨rfl, rfl, rfl⟩
      | some r =>
        simp only [bind_eq_ok, mapErr_ok, pure_eq_ok] at h3
        obtain ⟨c, -, rfl⟩ := h3; exact ⟨rfl, rfl, rfl⟩
    refine o.trans ?_
    unfold rewardTrace at h
    split at h
    · split at h
      · exact over_visited (fun _ _ _ _ => over_posStep) _ _ _ h
      · simp at h
    · simp at h

/-- every balance that was touched can be read -/
def readsAll {K E : Type} [LinearOrder K] (f : K → Except E Nat) (d : AmountColl K) : Bool :=
  d.entries.all fun e => (f e.1).isOk

def readableB (v : TxVerifier) : Bool :=
  readsAll v.pos.view.poolBalance v.pos.delta.poolBalances && readsAll v.pos.view.share v.pos.delta.shares &&
    readsAll v.pos.view.delegationBalance v.pos.delta.delegationBalances &&
    readsAll v.tokens.view.supply v.tokens.delta.supply && readsAll v.orders.view.ask v.orders.delta.ask &&
    readsAll v.orders.view.give v.orders.delta.give

theorem readsAll_spec {K E : Type} [LinearOrder K] {p : K → Except E Nat} {d : AmountColl K} {wrap : Accounting.Err → E}
    (hp : ∀ k, ∃ n, p k = .ok n) (h : readsAll (getBal wrap p d) d = true) (k : K) : ∃ n, getBal wrap p d k = .ok n := by
  cases hk : d.get k with
  | none =>
    obtain ⟨n, hn⟩ := hp k
    refine ⟨n, ?_⟩
    unfold getBal
    rw [hn, hk]
    rfl
  | some x =>
    unfold readsAll at h
    have := List.all_eq_true.1 h (k, x) (BMap.mem_entries.2 hk)
    beta_reduce at this
    cases hg : getBal wrap p d k with
    | ok n => exact ⟨n, rfl⟩
    | error e => rw [hg] at this; simp [Except.isOk, Except.toBool] at this

theorem readable_of {l : Ledger} {w : TxVerifier} (ho : Over (TxVerifier.new l.base) w) (h : readableB w = true) : Readable w := by
  simp only [readableB, Bool.and_eq_true] at h
  obtain ⟨⟨⟨⟨⟨h1, h2⟩, h3⟩, h4⟩, h5⟩, h6⟩ := h
  have e1 := ho.pos
  have e2 := ho.tokens
  have e3 := ho.orders
  refine ⟨⟨?_, ?_, ?_⟩, ?_, ?_, ?_⟩
  · exact readsAll_spec (by rw [e1]; exact fun k => ⟨_, rfl⟩) h1
  · exact readsAll_spec (by rw [e1]; exact fun k => ⟨_, rfl⟩) h2
  · exact readsAll_spec (by rw [e1]; exact fun k => ⟨_, rfl⟩) h3
  · exact readsAll_spec (by rw [e2]; exact fun k => ⟨_, rfl⟩) h4
  · exact readsAll_spec (by rw [e3]; exact fun k => ⟨_, rfl⟩) h5
  · exact readsAll_spec (by rw [e3]; exact fun k => ⟨_, rfl⟩) h6

end Verif.Verifier
