import Verif.Verifier.NonceLemmas

/-!
# What changes the cache of NFT issuances
-/

namespace Verif.Verifier
open Verif

/-- the cache of NFT issuances is the same -/
def SameNft (v w : TxVerifier) : Prop := w.nfts = v.nfts

theorem same_collect {A U : Type} {f : TxVerifier → A → Except Err (TxVerifier × Option U)}
    (hf : ∀ v x v' o, f v x = .ok (v', o) → SameNft v v') {xs : List A} {v v' : TxVerifier} {us : List U}
    (h : collect f v xs = .ok (v', us)) : SameNft v v' :=
  collect_spec (Good := fun _ => True) (P := fun v _ _ v' => SameNft v v') (fun _ => rfl)
    (fun {v v1 v2 x o xs us} hx _ hp => Eq.trans hp (hf _ _ _ _ hx)) h (fun _ _ => trivial)

theorem same_spendNonce {v v' : TxVerifier} {a : Account} {n : Nat} (h : spendNonce v a n = .ok v') : SameNft v v' := by
  obtain ⟨-, -, rfl, -⟩ := spendNonce_spec h; exact rfl

theorem same_posStep {v v' : TxVerifier} {op : Pos.Op} {o} (h : posStep v op = .ok (v', o)) : SameNft v v' := by
  obtain ⟨p, rfl⟩ := posStep_eq h; exact rfl
theorem same_tokStep {v v' : TxVerifier} {op : Tokens.Op} {o} (h : tokStep v op = .ok (v', o)) : SameNft v v' := by
  obtain ⟨p, rfl⟩ := tokStep_eq h; exact rfl
theorem same_ordStep {v v' : TxVerifier} {op : Orders.Op} {o} (h : ordStep v op = .ok (v', o)) : SameNft v v' := by
  obtain ⟨p, rfl⟩ := ordStep_eq h; exact rfl

theorem same_posInput {env : Env} {v : TxVerifier} {i : Input} {v' : TxVerifier} {o} (h : posInput env v i = .ok (v', o)) :
    SameNft v v' := by
  cases i with
  | utxo op =>
    simp only [posInput, posUtxo, bind_eq_ok, okOr_eq_ok] at h
    obtain ⟨coin, -, h2⟩ := h
    split at h2
    · exact same_posStep h2
    · cases h2; exact rfl
  | account nonce d a =>
    simp only [posInput, bind_eq_ok] at h
    obtain ⟨v1, h1, h2⟩ := h
    exact Eq.trans (same_posStep h2) (same_spendNonce h1)
  | token n c => cases h; exact rfl
  | orderV0 n c => cases h; exact rfl
  | order c => cases h; exact rfl

theorem same_posOutput {env : Env} {tx : Tx} {v : TxVerifier} {x : Out} {v' : TxVerifier} {o}
    (h : posOutput env tx v x = .ok (v', o)) : SameNft v v' := by
  unfold posOutput at h
  split at h
  · split at h
    · exact same_posStep h
    · cases h
  · exact same_posStep h
  · exact same_posStep h
  · cases h; exact rfl

theorem same_tokInput {tx : Tx} {v : TxVerifier} {i : Input} {v' : TxVerifier} {o} (h : tokInput tx v i = .ok (v', o)) :
    SameNft v v' := by
  cases i with
  | token nonce cmd =>
    simp only [tokInput, bind_eq_ok] at h
    obtain ⟨v1, h1, op, -, h2⟩ := h
    refine Eq.trans ?_ (same_spendNonce h1)
    cases op with
    | none => cases h2; exact rfl
    | some op => exact same_tokStep h2
  | utxo op => cases h; exact rfl
  | account nonce d a => cases h; exact rfl
  | orderV0 n c => cases h; exact rfl
  | order c => cases h; exact rfl

theorem same_tokOutput {v : TxVerifier} {x : Out} {v' : TxVerifier} {o} (h : tokOutput v x = .ok (v', o)) : SameNft v v' := by
  unfold tokOutput at h
  split at h
  · exact same_tokStep h
  · cases h; exact rfl

theorem same_ordInput {v : TxVerifier} {i : Input} {v' : TxVerifier} {o} (h : ordInput v i = .ok (v', o)) : SameNft v v' := by
  cases i with
  | orderV0 nonce cmd =>
    simp only [ordInput, bind_eq_ok] at h
    obtain ⟨v1, h1, h2⟩ := h
    exact Eq.trans (same_ordStep h2) (same_spendNonce h1)
  | order c => exact same_ordStep h
  | utxo op => cases h; exact rfl
  | account nonce d a => cases h; exact rfl
  | token n c => cases h; exact rfl

theorem same_ordOutput {v : TxVerifier} {x : Out} {v' : TxVerifier} {o} (h : ordOutput v x = .ok (v', o)) : SameNft v v' := by
  unfold ordOutput at h
  split at h
  · exact same_ordStep h
  · cases h; exact rfl

theorem same_connectPos {env : Env} {src : Src} {v v' : TxVerifier} {tx : Tx} (h : connectPos env src v tx = .ok v') :
    SameNft v v' := by
  simp only [connectPos, bind_eq_ok, Prod.exists] at h
  obtain ⟨v1, us1, h1, v2, us2, h2, _, -, h3⟩ := h
  refine Eq.trans ?_ (Eq.trans (same_collect (fun _ _ _ _ => same_posOutput) h2) (same_collect (fun _ _ _ _ => same_posInput) h1))
  unfold storePosUndo at h3
  split at h3
  · cases h3; exact rfl
  · simp only [bind_eq_ok, mapErr_ok, pure_eq_ok] at h3
    obtain ⟨_, -, rfl⟩ := h3; exact rfl

theorem same_connectTokens {env : Env} {src : Src} {v v' : TxVerifier} {tx : Tx} (h : connectTokens env src v tx = .ok v') :
    SameNft v v' := by
  simp only [connectTokens, bind_eq_ok, Prod.exists] at h
  obtain ⟨_, -, v1, us1, h1, v2, us2, h2, h3⟩ := h
  refine Eq.trans ?_ (Eq.trans (same_collect (fun _ _ _ _ => same_tokOutput) h2) (same_collect (fun _ _ _ _ => same_tokInput) h1))
  unfold storeTokUndo at h3
  split at h3
  · cases h3; exact rfl
  · simp only [bind_eq_ok, mapErr_ok, pure_eq_ok] at h3
    obtain ⟨_, -, rfl⟩ := h3; exact rfl

theorem same_connectOrders {src : Src} {v v' : TxVerifier} {tx : Tx} (h : connectOrders src v tx = .ok v') :
    SameNft v v' := by
  simp only [connectOrders, bind_eq_ok, Prod.exists] at h
  obtain ⟨v1, us1, h1, v2, us2, h2, h3⟩ := h
  refine Eq.trans ?_ (Eq.trans (same_collect (fun _ _ _ _ => same_ordOutput) h2) (same_collect (fun _ _ _ _ => same_ordInput) h1))
  unfold storeOrdUndo at h3
  split at h3
  · cases h3; exact rfl
  · simp only [bind_eq_ok, mapErr_ok, pure_eq_ok] at h3
    obtain ⟨_, -, rfl⟩ := h3; exact rfl

theorem nft_connectTx {env : Env} {src : Src} {v v' : TxVerifier} {tx : Tx} {fee id : Nat}
    (h : connectTx env src v tx = .ok (v', fee)) (hn : tx.nft = some id) : v'.nfts.get id = some (.write (tx.id, src.block)) := by
  simp only [connectTx, bind_eq_ok, pure_eq_ok, Prod.mk.injEq] at h
  obtain ⟨_, -, v1, h1, _, -, v2, h2, v3, h3, v4, h4, v5, h5, rfl, -⟩ := h
  have e1 : v1.nfts.get id = some (.write (tx.id, src.block)) := by
    unfold register at h1
    rw [hn] at h1
    simp only [bind_eq_ok] at h1
    obtain ⟨w, -, h1⟩ := h1
    unfold writeIssuance at h1
    split at h1
    · cases h1
    · cases h1
    · cases h1; simp
  have e5 : v5.nfts = v4.nfts := by
    simp only [connectUtxo, bind_eq_ok, mapErr_ok, pure_eq_ok, Prod.exists] at h5
    obtain ⟨l, u, -, c, -, rfl⟩ := h5
    rfl
  rw [e5, same_connectOrders h4, same_connectTokens h3, same_connectPos h2, e1]

theorem same_undoEach {U : Type} {f : TxVerifier → U → Except Err TxVerifier} (hf : ∀ v u v', f v u = .ok v' → SameNft v v') :
    ∀ (us : List U) {v v' : TxVerifier}, undoEach f v us = .ok v' → SameNft v v'
  | [], v, v', h => by cases h; exact rfl
  | u :: us, v, v', h => by
    simp only [undoEach, bind_eq_ok] at h
    obtain ⟨v1, h1, h2⟩ := h
    exact Eq.trans (same_undoEach hf us h2) (hf _ _ _ h1)

theorem same_posUndo {v v' : TxVerifier} {u : Pos.Undo} (h : posUndo v u = .ok v') : SameNft v v' := by
  simp only [posUndo, bind_eq_ok, mapErr_ok, pure_eq_ok, Prod.exists] at h
  obtain ⟨_, -, _, _, -, rfl⟩ := h; exact rfl
theorem same_tokUndo {v v' : TxVerifier} {u : Tokens.Undo} (h : tokUndo v u = .ok v') : SameNft v v' := by
  simp only [tokUndo, bind_eq_ok, mapErr_ok, pure_eq_ok] at h
  obtain ⟨_, -, rfl⟩ := h; exact rfl
theorem same_ordUndo {v v' : TxVerifier} {u : Orders.Undo} (h : ordUndo v u = .ok v') : SameNft v v' := by
  simp only [ordUndo, bind_eq_ok, mapErr_ok, pure_eq_ok] at h
  obtain ⟨_, -, rfl⟩ := h; exact rfl

theorem same_unspendNonces : ∀ (is : List Input) {v v' : TxVerifier}, unspendNonces v is = .ok v' → SameNft v v'
  | [], v, v', h => by cases h; exact rfl
  | i :: is, v, v', h => by
    unfold unspendNonces at h
    cases hi : i.acc with
    | none => rw [hi] at h; exact same_unspendNonces is h
    | some a =>
      rw [hi] at h
      simp only [unspendNonce, bind_eq_ok, pure_eq_ok] at h
      obtain ⟨v1, ⟨_, -, rfl⟩, h2⟩ := h
      exact Eq.trans (same_unspendNonces is h2) rfl

/-- a transaction that issues an NFT cannot be disconnected from a verifier that has its NFT in the cache -/
theorem disconnectTx_nft {source : Source} {v v' : TxVerifier} {tx : Tx} {id : Nat} (hn : tx.nft = some id)
    (hv : v.nfts.get id ≠ none) : disconnectTx source v tx ≠ .ok v' := by
  intro h
  simp only [disconnectTx, bind_eq_ok, Prod.exists] at h
  obtain ⟨v1, u, h1, v2, h2, v3, h3, v4, h4, v5, h5, v6, h6, h7⟩ := h
  have n1 : v1.nfts = v.nfts := by
    simp only [takeUtxoUndo, bind_eq_ok, mapErr_ok, pure_eq_ok, Prod.exists, Prod.mk.injEq] at h1
    obtain ⟨_, _, -, rfl, -⟩ := h1; rfl
  have n3 : v3.nfts = v2.nfts := by
    simp only [disconnectPos, bind_eq_ok, mapErr_ok, Prod.exists] at h3
    obtain ⟨c, us, -, h3⟩ := h3
    have e := same_undoEach (f := posUndo) (fun _ _ _ h => same_posUndo h) _ h3
    exact e
  have n4 : v4.nfts = v3.nfts := by
    simp only [disconnectTokens, bind_eq_ok, mapErr_ok, Prod.exists] at h4
    obtain ⟨c, us, -, h4⟩ := h4
    have e := same_undoEach (f := tokUndo) (fun _ _ _ h => same_tokUndo h) _ h4
    exact e
  have n5 : v5.nfts = v4.nfts := by
    simp only [disconnectOrders, bind_eq_ok, mapErr_ok, Prod.exists] at h5
    obtain ⟨c, us, -, h5⟩ := h5
    have e := same_undoEach (f := ordUndo) (fun _ _ _ h => same_ordUndo h) _ h5
    exact e
  have n6 : v6.nfts = v5.nfts := by
    simp only [disconnectUtxo, bind_eq_ok, mapErr_ok, pure_eq_ok] at h6
    obtain ⟨_, -, rfl⟩ := h6; rfl
  have e : v6.nfts = v.nfts := by rw [n6, n5, n4, n3, same_unspendNonces _ h2, n1]
  unfold unregister at h7
  rw [hn] at h7
  simp only [bind_eq_ok] at h7
  obtain ⟨w, h8, -⟩ := h7
  unfold precache at h8
  rw [e] at h8
  split at h8
  · cases h8
  · contradiction

end Verif.Verifier
