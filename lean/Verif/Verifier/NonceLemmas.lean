import Verif.Verifier.LedgerLemmas

/-!
# Nonces over histories
-/

namespace Verif.Verifier
open Verif
open Verif.Utxo (OutPoint Coin Output txOut rewardOut LInv)

/-- a use of an account with a nonce -/
abbrev Use := Account × Nat

/-- the account and nonce of an input, if it has them -/
def Input.use : Input → Option Use
  | .utxo _ => none
  | .account n d _ => some (delegationAccount d, n)
  | .token n c => some (tokenAccount c.token, n)
  | .orderV0 n c => some (orderAccount c.order, n)
  | .order _ => none

/-- the nonces with which a list of uses uses an account -/
def noncesFor (a : Account) (us : List Use) : List Nat := (us.filter fun u => u.1 = a).map Prod.snd

def Tx.uses (tx : Tx) : List Use := tx.inputs.filterMap Input.use

/-- the nonce an account expects next -/
def TxVerifier.expects (v : TxVerifier) (a : Account) : Nat := nextOf (v.nonce a)

/-- uses in an order that the verifier accepts -/
inductive Seq : (Account → Nat) → List Use → (Account → Nat) → Prop
  | nil (f) : Seq f [] f
  | cons {f g a n us} : f a = n → n < 2 ^ 64 → Seq (bump f [a]) us g → Seq f ((a, n) :: us) g

theorem Seq.append {f g h us us'} (h1 : Seq f us g) (h2 : Seq g us' h) : Seq f (us ++ us') h := by
  induction h1 with
  | nil => exact h2
  | cons e l _ ih => exact .cons e l (ih h2)

theorem Seq.spec {f g us} (h : Seq f us g) (a : Account) :
    noncesFor a us = List.range' (f a) (noncesFor a us).length ∧ g a = f a + (noncesFor a us).length := by
  induction h with
  | nil f => simp [noncesFor]
  | @cons f g b n us e _ _ ih =>
    obtain ⟨i1, i2⟩ := ih
    by_cases hab : b = a
    · subst hab
      have hc : noncesFor b ((b, n) :: us) = n :: noncesFor b us := by simp [noncesFor]
      have hb : bump f [b] b = f b + 1 := by simp [bump]
      rw [hb] at i1 i2
      rw [hc, List.length_cons, List.range'_succ, e]
      rw [e] at i1 i2
      exact ⟨by rw [← i1], by rw [i2]; omega⟩
    · have hc : noncesFor a ((b, n) :: us) = noncesFor a us := by simp [noncesFor, hab]
      have hb : bump f [b] a = f a := by simp [bump, hab]
      rw [hb] at i1 i2
      rw [hc]
      exact ⟨i1, i2⟩

theorem Seq.lt {f g us} (h : Seq f us g) : ∀ u ∈ us, u.2 < 2 ^ 64 := by
  induction h with
  | nil f => simp
  | cons e l _ ih =>
    intro u hu
    rcases List.mem_cons.1 hu with rfl | hu
    · exact l
    · exact ih u hu

/-- a step that uses accounts -/
structure NS (v : TxVerifier) (us : List Use) (v' : TxVerifier) : Prop where
  base : v'.base = v.base
  noRead : (∀ a n, v.nonces.get a ≠ some (.read n)) → ∀ a n, v'.nonces.get a ≠ some (.read n)
  seq : Seq v.expects us v'.expects

theorem NS.of_eq {v v' : TxVerifier} (h1 : v'.base = v.base) (h2 : v'.nonces = v.nonces) : NS v [] v' where
  base := h1
  noRead := by rw [h2]; exact id
  seq := by
    have : v'.expects = v.expects := by
      funext a; unfold TxVerifier.expects TxVerifier.nonce; rw [h1, h2]
    rw [this]; exact .nil _

theorem NS.append {v v1 v2 : TxVerifier} {us us' : List Use} (h : NS v us v1) (h' : NS v1 us' v2) : NS v (us ++ us') v2 where
  base := h'.base.trans h.base
  noRead := fun hn => h'.noRead (h.noRead hn)
  seq := h.seq.append h'.seq

theorem ns_spendNonce {v v' : TxVerifier} {a : Account} {n : Nat} (h : spendNonce v a n = .ok v') : NS v [(a, n)] v' := by
  obtain ⟨e1, e2, rfl, e3⟩ := spendNonce_spec h
  refine ⟨rfl, fun hn b m => ?_, ?_⟩
  · simp only [BMap.get_insert]
    split
    · simp
    · exact hn b m
  · have : TxVerifier.expects { v with nonces := v.nonces.insert a (.write n) } = bump v.expects [a] := funext e3
    rw [this]
    exact .cons e1 e2 (.nil _)

theorem posStep_eq {v v' : TxVerifier} {op : Pos.Op} {o} (h : posStep v op = .ok (v', o)) :
    ∃ p, v' = { v with pos := p } := by
  simp only [posStep, bind_eq_ok, mapErr_ok, pure_eq_ok, Prod.exists, Prod.mk.injEq] at h
  obtain ⟨c, u, h1, d, du, h2, rfl, rfl⟩ := h
  exact ⟨_, rfl⟩

theorem tokStep_eq {v v' : TxVerifier} {op : Tokens.Op} {o} (h : tokStep v op = .ok (v', o)) :
    ∃ p, v' = { v with tokens := p } := by
  simp only [tokStep, bind_eq_ok, mapErr_ok, pure_eq_ok, Prod.exists, Prod.mk.injEq] at h
  obtain ⟨c, u, h1, rfl, rfl⟩ := h
  exact ⟨_, rfl⟩

theorem ordStep_eq {v v' : TxVerifier} {op : Orders.Op} {o} (h : ordStep v op = .ok (v', o)) :
    ∃ p, v' = { v with orders := p } := by
  simp only [ordStep, bind_eq_ok, mapErr_ok, pure_eq_ok, Prod.exists, Prod.mk.injEq] at h
  obtain ⟨c, u, h1, rfl, rfl⟩ := h
  exact ⟨_, rfl⟩

theorem ns_posStep {v v' : TxVerifier} {op : Pos.Op} {o} (h : posStep v op = .ok (v', o)) : NS v [] v' := by
  obtain ⟨p, rfl⟩ := posStep_eq h; exact .of_eq rfl rfl

theorem ns_tokStep {v v' : TxVerifier} {op : Tokens.Op} {o} (h : tokStep v op = .ok (v', o)) : NS v [] v' := by
  obtain ⟨p, rfl⟩ := tokStep_eq h; exact .of_eq rfl rfl

theorem ns_ordStep {v v' : TxVerifier} {op : Orders.Op} {o} (h : ordStep v op = .ok (v', o)) : NS v [] v' := by
  obtain ⟨p, rfl⟩ := ordStep_eq h; exact .of_eq rfl rfl

def Input.posUse : Input → Option Use
  | .account n d _ => some (delegationAccount d, n)
  | _ => none
def Input.tokUse : Input → Option Use
  | .token n c => some (tokenAccount c.token, n)
  | _ => none
def Input.ordUse : Input → Option Use
  | .orderV0 n c => some (orderAccount c.order, n)
  | _ => none

theorem ns_collect {A U : Type} {f : TxVerifier → A → Except Err (TxVerifier × Option U)} {use : A → Option Use}
    (hf : ∀ v x v' o, f v x = .ok (v', o) → NS v (use x).toList v') {xs : List A} {v v' : TxVerifier} {us : List U}
    (h : collect f v xs = .ok (v', us)) : NS v (xs.filterMap use) v' :=
  collect_spec (Good := fun _ => True) (P := fun v xs _ v' => NS v (xs.filterMap use) v')
    (fun v => .of_eq rfl rfl) (fun {v v1 v2 x o xs us} hx _ hp => by
      have := (hf _ _ _ _ hx).append hp
      cases hu : use x <;> simp only [hu, Option.toList, List.filterMap_cons] at this ⊢ <;> exact this) h (fun _ _ => trivial)

theorem ns_posInput {env : Env} {v : TxVerifier} {i : Input} {v' : TxVerifier} {o} (h : posInput env v i = .ok (v', o)) :
    NS v i.posUse.toList v' := by
  cases i with
  | utxo op =>
    simp only [posInput, posUtxo, bind_eq_ok, okOr_eq_ok] at h
    obtain ⟨coin, -, h2⟩ := h
    split at h2
    · exact ns_posStep h2
    · cases h2; exact .of_eq rfl rfl
  | account nonce d a =>
    simp only [posInput, bind_eq_ok] at h
    obtain ⟨v1, h1, h2⟩ := h
    exact (ns_spendNonce h1).append (ns_posStep h2)
  | token n c => cases h; exact .of_eq rfl rfl
  | orderV0 n c => cases h; exact .of_eq rfl rfl
  | order c => cases h; exact .of_eq rfl rfl

theorem ns_posOutput {env : Env} {tx : Tx} {v : TxVerifier} {x : Out} {v' : TxVerifier} {o}
    (h : posOutput env tx v x = .ok (v', o)) : NS v [] v' := by
  unfold posOutput at h
  split at h
  · split at h
    · exact ns_posStep h
    · cases h
  · exact ns_posStep h
  · exact ns_posStep h
  · cases h; exact .of_eq rfl rfl

theorem ns_connectPos {env : Env} {src : Src} {v v' : TxVerifier} {tx : Tx} (h : connectPos env src v tx = .ok v') :
    NS v (tx.inputs.filterMap Input.posUse) v' := by
  simp only [connectPos, bind_eq_ok, Prod.exists] at h
  obtain ⟨v1, us1, h1, v2, us2, h2, _, -, h3⟩ := h
  have a := ns_collect (use := Input.posUse) (fun _ _ _ _ hx => ns_posInput hx) h1
  have b := ns_collect (use := fun _ : Out => none) (fun _ _ _ _ hx => ns_posOutput hx) h2
  have c : NS v2 [] v' := by
    unfold storePosUndo at h3
    split at h3
    · cases h3; exact .of_eq rfl rfl
    · simp only [bind_eq_ok, mapErr_ok, pure_eq_ok] at h3
      obtain ⟨_, -, rfl⟩ := h3; exact .of_eq rfl rfl
  simpa using (a.append b).append c

theorem ns_tokInput {tx : Tx} {v : TxVerifier} {i : Input} {v' : TxVerifier} {o} (h : tokInput tx v i = .ok (v', o)) :
    NS v i.tokUse.toList v' := by
  cases i with
  | token nonce cmd =>
    simp only [tokInput, bind_eq_ok] at h
    obtain ⟨v1, h1, op, -, h2⟩ := h
    refine (ns_spendNonce h1).append (us' := []) ?_
    cases op with
    | none => cases h2; exact .of_eq rfl rfl
    | some op => exact ns_tokStep h2
  | utxo op => cases h; exact .of_eq rfl rfl
  | account nonce d a => cases h; exact .of_eq rfl rfl
  | orderV0 n c => cases h; exact .of_eq rfl rfl
  | order c => cases h; exact .of_eq rfl rfl

theorem ns_tokOutput {v : TxVerifier} {x : Out} {v' : TxVerifier} {o} (h : tokOutput v x = .ok (v', o)) : NS v [] v' := by
  unfold tokOutput at h
  split at h
  · exact ns_tokStep h
  · cases h; exact .of_eq rfl rfl

theorem ns_connectTokens {env : Env} {src : Src} {v v' : TxVerifier} {tx : Tx} (h : connectTokens env src v tx = .ok v') :
    NS v (tx.inputs.filterMap Input.tokUse) v' := by
  simp only [connectTokens, bind_eq_ok, Prod.exists] at h
  obtain ⟨_, -, v1, us1, h1, v2, us2, h2, h3⟩ := h
  have a := ns_collect (use := Input.tokUse) (fun _ _ _ _ hx => ns_tokInput hx) h1
  have b := ns_collect (use := fun _ : Out => none) (fun _ _ _ _ hx => ns_tokOutput hx) h2
  have c : NS v2 [] v' := by
    unfold storeTokUndo at h3
    split at h3
    · cases h3; exact .of_eq rfl rfl
    · simp only [bind_eq_ok, mapErr_ok, pure_eq_ok] at h3
      obtain ⟨_, -, rfl⟩ := h3; exact .of_eq rfl rfl
  simpa using (a.append b).append c

theorem ns_ordInput {v : TxVerifier} {i : Input} {v' : TxVerifier} {o} (h : ordInput v i = .ok (v', o)) :
    NS v i.ordUse.toList v' := by
  cases i with
  | orderV0 nonce cmd =>
    simp only [ordInput, bind_eq_ok] at h
    obtain ⟨v1, h1, h2⟩ := h
    exact (ns_spendNonce h1).append (us' := []) (ns_ordStep h2)
  | order c => exact ns_ordStep h
  | utxo op => cases h; exact .of_eq rfl rfl
  | account nonce d a => cases h; exact .of_eq rfl rfl
  | token n c => cases h; exact .of_eq rfl rfl

theorem ns_ordOutput {v : TxVerifier} {x : Out} {v' : TxVerifier} {o} (h : ordOutput v x = .ok (v', o)) : NS v [] v' := by
  unfold ordOutput at h
  split at h
  · exact ns_ordStep h
  · cases h; exact .of_eq rfl rfl

theorem ns_connectOrders {src : Src} {v v' : TxVerifier} {tx : Tx} (h : connectOrders src v tx = .ok v') :
    NS v (tx.inputs.filterMap Input.ordUse) v' := by
  simp only [connectOrders, bind_eq_ok, Prod.exists] at h
  obtain ⟨v1, us1, h1, v2, us2, h2, h3⟩ := h
  have a := ns_collect (use := Input.ordUse) (fun _ _ _ _ hx => ns_ordInput hx) h1
  have b := ns_collect (use := fun _ : Out => none) (fun _ _ _ _ hx => ns_ordOutput hx) h2
  have c : NS v2 [] v' := by
    unfold storeOrdUndo at h3
    split at h3
    · cases h3; exact .of_eq rfl rfl
    · simp only [bind_eq_ok, mapErr_ok, pure_eq_ok] at h3
      obtain ⟨_, -, rfl⟩ := h3; exact .of_eq rfl rfl
  simpa using (a.append b).append c

theorem register_eq {v v' : TxVerifier} {tx : Tx} {block : Nat} (h : register v tx block = .ok v') :
    ∃ a b, v' = { v with nfts := a, nftByTx := b } := by
  unfold register at h
  split at h
  · cases h; exact ⟨v.nfts, v.nftByTx, rfl⟩
  · simp only [bind_eq_ok] at h
    obtain ⟨v1, h1, h2⟩ := h
    have : ∃ a, v1 = { v with nfts := a } := by
      unfold precache at h1
      split at h1
      · cases h1
      · split at h1
        · cases h1; exact ⟨_, rfl⟩
        · cases h1; exact ⟨v.nfts, rfl⟩
    obtain ⟨a, rfl⟩ := this
    unfold writeIssuance at h2
    split at h2
    · cases h2
    · cases h2
    · cases h2; exact ⟨_, _, rfl⟩

/-- the uses made by the stages of one transaction, in the order in which the verifier makes them -/
def Tx.staged (tx : Tx) : List Use :=
  tx.inputs.filterMap Input.posUse ++ tx.inputs.filterMap Input.tokUse ++ tx.inputs.filterMap Input.ordUse

theorem noncesFor_append (a : Account) (l l' : List Use) : noncesFor a (l ++ l') = noncesFor a l ++ noncesFor a l' := by
  simp [noncesFor]

/-- for each account they are made in the order of the inputs -/
theorem noncesFor_staged (a : Account) (tx : Tx) : noncesFor a tx.staged = noncesFor a tx.uses := by
  have key : ∀ is : List Input, noncesFor a (is.filterMap Input.posUse) ++ noncesFor a (is.filterMap Input.tokUse) ++
      noncesFor a (is.filterMap Input.ordUse) = noncesFor a (is.filterMap Input.use) := by
    intro is
    have hp : (ofLex a).1 ≠ 0 → noncesFor a (is.filterMap Input.posUse) = [] := by
      intro h
      simp only [noncesFor, List.map_eq_nil_iff, List.filter_eq_nil_iff, List.mem_filterMap]
      rintro u ⟨i, -, hi⟩
      cases i <;> simp only [Input.posUse, Option.some.injEq, reduceCtorEq] at hi
      subst hi
      simp only [decide_eq_true_eq]
      rintro rfl
      exact h rfl
    have ht : (ofLex a).1 ≠ 1 → noncesFor a (is.filterMap Input.tokUse) = [] := by
      intro h
      simp only [noncesFor, List.map_eq_nil_iff, List.filter_eq_nil_iff, List.mem_filterMap]
      rintro u ⟨i, -, hi⟩
      cases i <;> simp only [Input.tokUse, Option.some.injEq, reduceCtorEq] at hi
      subst hi
      simp only [decide_eq_true_eq]
      rintro rfl
      exact h rfl
    have ho : (ofLex a).1 ≠ 2 → noncesFor a (is.filterMap Input.ordUse) = [] := by
      intro h
      simp only [noncesFor, List.map_eq_nil_iff, List.filter_eq_nil_iff, List.mem_filterMap]
      rintro u ⟨i, -, hi⟩
      cases i <;> simp only [Input.ordUse, Option.some.injEq, reduceCtorEq] at hi
      subst hi
      simp only [decide_eq_true_eq]
      rintro rfl
      exact h rfl
    have step : ∀ (g : Input → Option Use) (t : Nat),
        (∀ i u, i.use = some u → (ofLex u.1).1 = t → g i = some u) → (∀ i u, g i = some u → i.use = some u) →
        (ofLex a).1 = t → noncesFor a (is.filterMap g) = noncesFor a (is.filterMap Input.use) := by
      intro g t h1 h2 ha
      unfold noncesFor
      congr 1
      induction is with
      | nil => rfl
      | cons i is ih =>
        have ih := ih (by
          intro h
          have := hp h
          simp only [List.filterMap_cons] at this
          cases hi : i.posUse
          · rw [hi] at this; exact this
          · rw [hi] at this
            simp only [noncesFor, List.filter_cons] at this ⊢
            split at this
            · simp at this
            · exact this) (by
          intro h
          have := ht h
          simp only [List.filterMap_cons] at this
          cases hi : i.tokUse
          · rw [hi] at this; exact this
          · rw [hi] at this
            simp only [noncesFor, List.filter_cons] at this ⊢
            split at this
            · simp at this
            · exact this) (by
          intro h
          have := ho h
          simp only [List.filterMap_cons] at this
          cases hi : i.ordUse
          · rw [hi] at this; exact this
          · rw [hi] at this
            simp only [noncesFor, List.filter_cons] at this ⊢
            split at this
            · simp at this
            · exact this)
        simp only [List.filterMap_cons]
        cases hu : i.use with
        | none =>
          cases hg : g i with
          | none => exact ih
          | some u => rw [h2 i u hg] at hu; cases hu
        | some u =>
          by_cases hua : u.1 = a
          · rw [h1 i u hu (by rw [hua]; exact ha)]
            simp only [List.filter_cons, ih]
          · cases hg : g i with
            | none =>
              simp only [List.filter_cons, hua, decide_false, Bool.false_eq_true, if_false]
              exact ih
            | some w =>
              have := h2 i w hg
              rw [hu] at this
              cases this
              simp only [List.filter_cons, ih]
    by_cases h0 : (ofLex a).1 = 0
    · rw [ht (by omega), ho (by omega), List.append_nil, List.append_nil]
      refine step _ 0 (fun i u hu h => ?_) (fun i u hu => ?_) h0
      · cases i <;> simp only [Input.use, Option.some.injEq, reduceCtorEq] at hu <;> subst hu <;>
          first | rfl | (exfalso; revert h; simp [tokenAccount, orderAccount])
      · cases i <;> simp only [Input.posUse, reduceCtorEq] at hu <;> exact hu
    · by_cases h1 : (ofLex a).1 = 1
      · rw [hp h0, ho (by omega), List.append_nil, List.nil_append]
        refine step _ 1 (fun i u hu h => ?_) (fun i u hu => ?_) h1
        · cases i <;> simp only [Input.use, Option.some.injEq, reduceCtorEq] at hu <;> subst hu <;>
            first | rfl | (exfalso; revert h; simp [delegationAccount, orderAccount])
        · cases i <;> simp only [Input.tokUse, reduceCtorEq] at hu <;> exact hu
      · rw [hp h0, ht h1, List.nil_append, List.nil_append]
        by_cases h2 : (ofLex a).1 = 2
        · refine step _ 2 (fun i u hu h => ?_) (fun i u hu => ?_) h2
          · cases i <;> simp only [Input.use, Option.some.injEq, reduceCtorEq] at hu <;> subst hu <;>
              first | rfl | (exfalso; revert h; simp [tokenAccount, delegationAccount])
          · cases i <;> simp only [Input.ordUse, reduceCtorEq] at hu <;> exact hu
        · rw [ho h2]
          symm
          simp only [noncesFor, List.map_eq_nil_iff, List.filter_eq_nil_iff, List.mem_filterMap]
          rintro u ⟨i, -, hi⟩
          simp only [decide_eq_true_eq]
          rintro rfl
          cases i <;> simp only [Input.use, Option.some.injEq, reduceCtorEq] at hi <;> subst hi
          · exact h0 rfl
          · exact h1 rfl
          · exact h2 rfl
  unfold Tx.staged Tx.uses
  rw [noncesFor_append, noncesFor_append]
  exact key tx.inputs

theorem ns_connectTx {env : Env} {src : Src} {v v' : TxVerifier} {tx : Tx} {fee : Nat}
    (h : connectTx env src v tx = .ok (v', fee)) : NS v tx.staged v' := by
  simp only [connectTx, bind_eq_ok, pure_eq_ok, Prod.mk.injEq] at h
  obtain ⟨_, -, v1, h1, _, -, v2, h2, v3, h3, v4, h4, v5, h5, rfl, -⟩ := h
  obtain ⟨a, b, rfl⟩ := register_eq h1
  have n5 : NS v4 [] v5 := by
    simp only [connectUtxo, bind_eq_ok, mapErr_ok, pure_eq_ok, Prod.exists] at h5
    obtain ⟨l, u, -, c, -, rfl⟩ := h5
    exact .of_eq rfl rfl
  have n1 : NS v [] { v with nfts := a, nftByTx := b } := .of_eq rfl rfl
  have := (((n1.append (ns_connectPos h2)).append (ns_connectTokens h3)).append (ns_connectOrders h4)).append n5
  simpa [Tx.staged] using this

theorem ns_connectTxs {env : Env} {src : Src} : ∀ (txs : List Tx) {v v' : TxVerifier} {fees : List Nat},
    connectTxs env src v txs = .ok (v', fees) → NS v (txs.flatMap Tx.staged) v'
  | [], v, v', fees, h => by cases h; exact .of_eq rfl rfl
  | tx :: txs, v, v', fees, h => by
    simp only [connectTxs, bind_eq_ok, pure_eq_ok, Prod.exists, Prod.mk.injEq] at h
    obtain ⟨v1, fee, h1, v2, fees', h2, rfl, rfl⟩ := h
    exact (ns_connectTx h1).append (ns_connectTxs txs h2)

theorem ns_connectReward {env : Env} {v v' : TxVerifier} {b : Block} {fees : List Nat}
    (h : connectReward env v b fees = .ok v') : NS v [] v' := by
  simp only [connectReward, bind_eq_ok] at h
  obtain ⟨_, -, v1, h1, h2⟩ := h
  have n1 : NS v [] v1 := by
    simp only [rewardUtxo, bind_eq_ok, mapErr_ok, Prod.exists] at h1
    obtain ⟨l, u, -, h3⟩ := h1
    cases u with
    | none => cases h3; exact .of_eq rfl rfl
    | some r =>
      simp only [bind_eq_ok, mapErr_ok, pure_eq_ok] at h3
      obtain ⟨c, -, rfl⟩ := h3; exact .of_eq rfl rfl
  have n2 : NS v1 [] v' := by
    unfold rewardPos at h2
    split at h2
    · simp only [bind_eq_ok, okOr_eq_ok, mapErr_ok, pure_eq_ok, Prod.exists] at h2
      obtain ⟨p, -, v2, ops, h3, c, -, rfl⟩ := h2
      have a := ns_collect (use := fun _ : Pos.Op => none) (fun _ _ _ _ hx => ns_posStep hx) h3
      have b : NS v2 [] { v2 with posUndo := c } := .of_eq rfl rfl
      simpa using a.append b
    · cases h2; exact .of_eq rfl rfl
  exact n1.append n2

theorem ns_connectBlock {env : Env} {v v' : TxVerifier} {b : Block} (h : connectBlock env v b = .ok v') :
    NS v (b.txs.flatMap Tx.staged) v' := by
  simp only [connectBlock, bind_eq_ok, pure_eq_ok, Prod.exists] at h
  obtain ⟨v1, fees, h1, v2, h2, rfl⟩ := h
  have a := ((ns_connectTxs _ h1).append (ns_connectReward h2)).append
    (show NS v2 [] (setBest v2 b.id) from .of_eq rfl rfl)
  simpa using a

/-- the nonce the stored state expects next -/
def Ledger.expects (l : Ledger) (a : Account) : Nat := nextOf (l.nonces.get a)

theorem flush_nonces {l l' : Ledger} {v : TxVerifier} (h : l.flush v = .ok l')
    (hn : ∀ a n, v.nonces.get a ≠ some (.read n)) (hb : v.base = l.base) : l'.expects = v.expects := by
  simp only [Ledger.flush, bind_eq_ok, mapErr_ok, pure_eq_ok, Prod.exists] at h
  obtain ⟨_, -, _, -, _, -, _, -, _, _, -, _, -, _, _, -, _, -, nonces, h9, _, _, -, _, -, rfl⟩ := h
  obtain ⟨m, e, r⟩ := applyOps_spec (store := l.nonces) (c := v.nonces) (fun k a hk => absurd hk (hn k a))
  rw [h9] at e
  cases e
  funext a
  unfold Ledger.expects TxVerifier.expects
  rw [show (Ledger.nonces _) = nonces from rfl, r a]
  unfold shown TxVerifier.nonce
  rw [hb]
  cases v.nonces.get a <;> rfl

theorem ns_ledger {env : Env} {l l' : Ledger} {b : Block} (h : l.connect env b = .ok l') :
    Seq l.expects (b.txs.flatMap Tx.staged) l'.expects := by
  simp only [Ledger.connect, bind_eq_ok] at h
  obtain ⟨v, h1, h2⟩ := h
  have n := ns_connectBlock h1
  have hb : v.base = l.base := n.base
  rw [flush_nonces h2 (n.noRead (by simp [TxVerifier.new])) hb]
  exact n.seq

/-! ### Disconnecting -/

/-- a step back that frees uses of accounts -/
structure NB (v : TxVerifier) (as : List Account) (v' : TxVerifier) : Prop where
  base : v'.base = v.base
  noRead : (∀ a n, v.nonces.get a ≠ some (.read n)) → ∀ a n, v'.nonces.get a ≠ some (.read n)
  expects : v.expects = bump v'.expects as

theorem NB.of_eq {v v' : TxVerifier} (h1 : v'.base = v.base) (h2 : v'.nonces = v.nonces) : NB v [] v' where
  base := h1
  noRead := by rw [h2]; exact id
  expects := by
    rw [bump_nil]
    funext a; unfold TxVerifier.expects TxVerifier.nonce; rw [h1, h2]

theorem NB.append {v v1 v2 : TxVerifier} {us us' : List Account} (h : NB v us v1) (h' : NB v1 us' v2) :
    NB v (us ++ us') v2 where
  base := h'.base.trans h.base
  noRead := fun hn => h'.noRead (h.noRead hn)
  expects := by
    rw [h.expects, h'.expects]
    funext a; simp [bump]; omega

theorem nb_unspendNonce {v v' : TxVerifier} {a : Account} (h : unspendNonce v a = .ok v') : NB v [a] v' := by
  have h' := h
  simp only [unspendNonce, bind_eq_ok, pure_eq_ok, okOr_eq_ok] at h'
  obtain ⟨n, hn, -⟩ := h'
  obtain ⟨ns, e1, e2, e3⟩ := unspendNonce_spec (w := v) (a := a) (k := n) (by rw [hn]; rfl)
  rw [h] at e1
  cases e1
  refine ⟨rfl, e3, ?_⟩
  funext b
  have := e2 b
  unfold bump TxVerifier.expects
  rw [this]
  by_cases hb : b = a
  · subst hb; simp [hn, nextOf]
  · have : a ≠ b := fun e => hb e.symm
    simp [hb, this]

theorem nb_unspendNonces : ∀ (is : List Input) {v v' : TxVerifier}, unspendNonces v is = .ok v' →
    NB v (is.filterMap Input.acc) v'
  | [], v, v', h => by cases h; exact .of_eq rfl rfl
  | i :: is, v, v', h => by
    unfold unspendNonces at h
    cases hi : i.acc with
    | none =>
      rw [hi] at h
      simp only [List.filterMap_cons, hi]
      exact nb_unspendNonces is h
    | some a =>
      rw [hi] at h
      simp only [bind_eq_ok] at h
      obtain ⟨v1, h1, h2⟩ := h
      simp only [List.filterMap_cons, hi]
      exact (nb_unspendNonce h1).append (nb_unspendNonces is h2)

theorem nb_undoEach {U : Type} {f : TxVerifier → U → Except Err TxVerifier} (hf : ∀ v u v', f v u = .ok v' → NB v [] v') :
    ∀ (us : List U) {v v' : TxVerifier}, undoEach f v us = .ok v' → NB v [] v'
  | [], v, v', h => by cases h; exact .of_eq rfl rfl
  | u :: us, v, v', h => by
    simp only [undoEach, bind_eq_ok] at h
    obtain ⟨v1, h1, h2⟩ := h
    exact (hf _ _ _ h1).append (nb_undoEach hf us h2)

theorem nb_posUndo {v v' : TxVerifier} {u : Pos.Undo} (h : posUndo v u = .ok v') : NB v [] v' := by
  simp only [posUndo, bind_eq_ok, mapErr_ok, pure_eq_ok, Prod.exists] at h
  obtain ⟨_, -, _, _, -, rfl⟩ := h; exact .of_eq rfl rfl

theorem nb_tokUndo {v v' : TxVerifier} {u : Tokens.Undo} (h : tokUndo v u = .ok v') : NB v [] v' := by
  simp only [tokUndo, bind_eq_ok, mapErr_ok, pure_eq_ok] at h
  obtain ⟨_, -, rfl⟩ := h; exact .of_eq rfl rfl

theorem nb_ordUndo {v v' : TxVerifier} {u : Orders.Undo} (h : ordUndo v u = .ok v') : NB v [] v' := by
  simp only [ordUndo, bind_eq_ok, mapErr_ok, pure_eq_ok] at h
  obtain ⟨_, -, rfl⟩ := h; exact .of_eq rfl rfl

theorem nb_disconnectTx {source : Source} {v v' : TxVerifier} {tx : Tx} (h : disconnectTx source v tx = .ok v') :
    NB v (tx.inputs.filterMap Input.acc) v' := by
  simp only [disconnectTx, bind_eq_ok, Prod.exists] at h
  obtain ⟨v1, u, h1, v2, h2, v3, h3, v4, h4, v5, h5, v6, h6, h7⟩ := h
  have n1 : NB v [] v1 := by
    simp only [takeUtxoUndo, bind_eq_ok, mapErr_ok, pure_eq_ok, Prod.exists, Prod.mk.injEq] at h1
    obtain ⟨_, _, -, rfl, -⟩ := h1; exact .of_eq rfl rfl
  have n3 : NB v2 [] v3 := by
    simp only [disconnectPos, bind_eq_ok, mapErr_ok, Prod.exists] at h3
    obtain ⟨c, us, -, h3⟩ := h3
    exact (show NB v2 [] { v2 with posUndo := c } from .of_eq rfl rfl).append
      (nb_undoEach (fun _ _ _ => nb_posUndo) _ h3)
  have n4 : NB v3 [] v4 := by
    simp only [disconnectTokens, bind_eq_ok, mapErr_ok, Prod.exists] at h4
    obtain ⟨c, us, -, h4⟩ := h4
    exact (show NB v3 [] { v3 with tokensUndo := c } from .of_eq rfl rfl).append
      (nb_undoEach (fun _ _ _ => nb_tokUndo) _ h4)
  have n5 : NB v4 [] v5 := by
    simp only [disconnectOrders, bind_eq_ok, mapErr_ok, Prod.exists] at h5
    obtain ⟨c, us, -, h5⟩ := h5
    exact (show NB v4 [] { v4 with ordersUndo := c } from .of_eq rfl rfl).append
      (nb_undoEach (fun _ _ _ => nb_ordUndo) _ h5)
  have n6 : NB v5 [] v6 := by
    simp only [disconnectUtxo, bind_eq_ok, mapErr_ok, pure_eq_ok] at h6
    obtain ⟨_, -, rfl⟩ := h6; exact .of_eq rfl rfl
  have n7 : NB v6 [] v' := by
    unfold unregister at h7
    split at h7
    · cases h7; exact .of_eq rfl rfl
    · simp only [bind_eq_ok] at h7
      obtain ⟨w, h8, h9⟩ := h7
      have a : NB v6 [] w := by
        unfold precache at h8
        split at h8
        · cases h8
        · split at h8 <;> cases h8 <;> exact .of_eq rfl rfl
      have b : NB w [] v' := by
        unfold writeUndoIssuance at h9
        split at h9
        · cases h9; exact .of_eq rfl rfl
        · cases h9
      exact a.append b
  have := (((((n1.append (nb_unspendNonces _ h2)).append n3).append n4).append n5).append n6).append n7
  simpa using this

theorem nb_disconnectTxs {source : Source} : ∀ (txs : List Tx) {v v' : TxVerifier}, disconnectTxs source v txs = .ok v' →
    NB v (txs.flatMap fun tx => tx.inputs.filterMap Input.acc) v'
  | [], v, v', h => by cases h; exact .of_eq rfl rfl
  | tx :: txs, v, v', h => by
    simp only [disconnectTxs, bind_eq_ok] at h
    obtain ⟨v1, h1, h2⟩ := h
    exact (nb_disconnectTx h1).append (nb_disconnectTxs txs h2)

theorem nb_ledger {l l' : Ledger} {b : Block} (h : l.disconnect b = .ok l') :
    l.expects = bump l'.expects (b.txs.reverse.flatMap fun tx => tx.inputs.filterMap Input.acc) := by
  simp only [Ledger.disconnect, disconnectBlock, disconnectReward, bind_eq_ok, pure_eq_ok] at h
  obtain ⟨v, ⟨v1, ⟨v0, h0, h1⟩, v2, h2, rfl⟩, h3⟩ := h
  have n0 : NB (TxVerifier.new l.base) [] v0 := by
    simp only [unrewardUtxo, bind_eq_ok, mapErr_ok, pure_eq_ok] at h0
    obtain ⟨_, -, rfl⟩ := h0; exact .of_eq rfl rfl
  have n1 : NB v0 [] v1 := by
    unfold unrewardPos at h1
    split at h1
    · exact (show NB v0 [] { v0 with posUndo := (v0.posUndo.takeReward v0.base.posUndo (chain b.id)).1 } from
        .of_eq rfl rfl).append (nb_undoEach (fun _ _ _ => nb_posUndo) _ h1)
    · cases h1; exact .of_eq rfl rfl
  have n := ((n0.append n1).append (nb_disconnectTxs _ h2)).append
    (show NB v2 [] (setBest v2 b.prev) from .of_eq rfl rfl)
  have e := n.expects
  rw [← flush_nonces h3 (n.noRead (by simp [TxVerifier.new])) n.base] at e
  have e0 : (TxVerifier.new l.base).expects = l.expects := by
    funext a; simp [TxVerifier.expects, TxVerifier.nonce, TxVerifier.new, Ledger.expects, Ledger.base]
  rw [e0] at e
  simpa using e

theorem uses_acc (tx : Tx) (a : Account) : (tx.inputs.filterMap Input.acc).count a = (noncesFor a tx.uses).length := by
  unfold Tx.uses noncesFor
  generalize tx.inputs = is
  induction is with
  | nil => rfl
  | cons i is ih =>
    cases i <;> simp only [List.filterMap_cons, Input.acc, Input.use, List.count_cons, List.filter_cons] <;>
      first
        | exact ih
        | (rw [ih]; split <;> simp_all)

end Verif.Verifier
