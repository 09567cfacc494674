import Verif.Verifier.ValueOrders
import Mathlib.Tactic.Linarith

/-!
# What a transaction does to the totals
-/

namespace Verif.Verifier
open Verif
open Verif.Utxo (OutPoint Coin Output txOut rewardOut setAll remAll outPairs)
open Verif.Accumulator (Cur TxOutput val)

/-- the total of everything held changes by `δ` -/
def Moved (read : Nat → TxOutput) (c : Cur) (s s' : St) (δ : Int) : Prop :=
  ∃ a p d o, Shift (utxoPart read c s.utxo) (utxoPart read c s'.utxo) a ∧
    Shift (ownPart s.pos.poolData) (ownPart s'.pos.poolData) p ∧ Shift (delPart s.pos.delBal) (delPart s'.pos.delBal) d ∧
    Shift (ordPart c s.orders) (ordPart c s'.orders) o ∧ δ = a + (if c = 0 then p + d else 0) + o

theorem Moved.refl (read : Nat → TxOutput) (c : Cur) (s : St) : Moved read c s s 0 :=
  ⟨0, 0, 0, 0, Shift.refl _, Shift.refl _, Shift.refl _, Shift.refl _, by simp⟩

theorem Moved.trans {read : Nat → TxOutput} {c : Cur} {s s1 s2 : St} {x y : Int} (h1 : Moved read c s s1 x)
    (h2 : Moved read c s1 s2 y) : Moved read c s s2 (x + y) := by
  obtain ⟨a, p, d, o, h1, h2', h3, h4, rfl⟩ := h1
  obtain ⟨a', p', d', o', k1, k2, k3, k4, rfl⟩ := h2
  refine ⟨_, _, _, _, h1.trans k1, h2'.trans k2, h3.trans k3, h4.trans k4, ?_⟩
  split <;> omega

theorem Moved.cast {read : Nat → TxOutput} {c : Cur} {s s1 : St} {x y : Int} (h : Moved read c s s1 x) (e : x = y) :
    Moved read c s s1 y := e ▸ h

theorem sum_flatMap {A B : Type} (f : A → List B) (g : B → Int) (l : List A) :
    ((l.flatMap f).map g).sum = (l.map fun a => ((f a).map g).sum).sum := by
  induction l with
  | nil => rfl
  | cons x l ih => simp [List.flatMap_cons, ih]

theorem sum_filterMap {A B : Type} (f : A → Option B) (g : B → Int) (l : List A) :
    ((l.filterMap f).map g).sum = (l.map fun a => ((f a).map g).getD 0).sum := by
  induction l with
  | nil => rfl
  | cons x l ih =>
    rw [List.map_cons, List.sum_cons, ← ih]
    cases h : f x
    · rw [List.filterMap_cons_none h]; simp
    · rw [List.filterMap_cons_some h]; simp

theorem sum_add {A : Type} (f g : A → Int) (l : List A) :
    (l.map fun a => f a + g a).sum = (l.map f).sum + (l.map g).sum := by
  induction l with
  | nil => rfl
  | cons x l ih => simp only [List.map_cons, List.sum_cons, ih]; omega

theorem sum_scale {A : Type} (p : Prop) [Decidable p] (f g : A → Int) (l : List A) :
    (l.map fun a => if p then f a + g a else 0).sum = if p then (l.map f).sum + (l.map g).sum else 0 := by
  split
  · exact sum_add f g l
  · simp

theorem sum_congr' {A : Type} {f g : A → Int} {l : List A} (h : ∀ a ∈ l, f a = g a) : (l.map f).sum = (l.map g).sum := by
  rw [List.map_congr_left h]

theorem sum_nat {A : Type} (f : A → Nat) (l : List A) : (((l.map f).sum : Nat) : Int) = (l.map fun a => (f a : Int)).sum := by
  induction l with
  | nil => rfl
  | cons x l ih => simp only [List.map_cons, List.sum_cons, ← ih]; push_cast; ring

theorem zip_maps {A B C : Type} (f : A → B) (g : A → C) (l : List A) : (l.map f).zip (l.map g) = l.map fun a => (f a, g a) := by
  induction l with
  | nil => rfl
  | cons x l ih => simp [ih]

theorem ownerShare_eq {t : Pos.Cache} {s : Pos.Sv} (h : Pos.Rep t s) (p : Nat) :
    (Accumulator.ownerShare t.view p : Int) = ownPart s.poolData p := by
  unfold Accumulator.ownerShare ownPart
  rw [h.vPoolData]
  cases s.poolData p <;> rfl

/-- what an input brings is taken from somewhere, or minted -/
theorem input_value {env : Env} {read : Nat → TxOutput} {U : OutPoint → Option Coin} {w : Views} {s : Pos.Sv}
    (hpool : ∀ n, env.poolOf n = poolIn (read n)) (hU : w.utxo = U)
    (hp : ∀ p, (Accumulator.ownerShare w.pos p : Int) = ownPart s.poolData p) (i : Input) (c : Cur)
    (hk : ∀ k, i.outpoint = some k → U k ≠ none) (hs : ∀ o, spent read w i = some o → Spendable o) :
    (Accumulator.brought w.pos c (i.toAcc, spent read w i) : Int) =
      (i.outpoint.map (utxoPart read c U)).getD 0 -
        (if c = 0 then ((posInOps env U i).map (poolGain s.poolData)).sum + ((posInOps env U i).map delGain).sum else 0) +
        mintedBy c i := by
  cases i with
  | utxo k =>
    cases hx : U k with
    | none => exact absurd hx (hk k rfl)
    | some x =>
      have e : spent read w (.utxo k) = some (read x.output.content) := by
        simp [spent, Input.outpoint, hU, hx]
      have hsp := hs _ e
      rw [e]
      simp only [posInOps, hx, hpool, Input.outpoint, Option.map_some, Option.getD_some, utxoPart, mintedBy, Input.toAcc]
      generalize read x.output.content = o at hsp ⊢
      cases o <;> first | exact hsp.elim | skip
      all_goals simp [Accumulator.brought, Accumulator.unstaked, worth, poolIn, poolGain, delGain]
      all_goals (first | done | (split <;> simp [hp]))
  | account n d a =>
    simp [Accumulator.brought, Accumulator.unstaked, Input.toAcc, posInOps, Input.outpoint, mintedBy, poolGain, delGain, spent]
    split <;> simp
  | token n cmd =>
    cases cmd <;>
      simp [Accumulator.brought, Accumulator.unstaked, Input.toAcc, TokenCmd.toAcc, posInOps, Input.outpoint, mintedBy]
  | orderV0 n cmd =>
    cases cmd <;> simp [Accumulator.brought, Accumulator.unstaked, Input.toAcc, posInOps, Input.outpoint, mintedBy]
  | order cmd =>
    cases cmd <;> simp [Accumulator.brought, Accumulator.unstaked, Input.toAcc, posInOps, Input.outpoint, mintedBy]

/-- what an output takes is put somewhere, or lost -/
theorem output_value {read : Nat → TxOutput} (cfg : Accumulator.Config) (o : Out) (c : Cur)
    (hf : Fits o.effect (read o.out.content) o.out.inUtxoSet) :
    outWorth read c o.out + giveOf c o +
        (if c = 0 then ((posOutOps o).map (poolGain fun _ => Option.none)).sum + ((posOutOps o).map delGain).sum else 0) =
      (Accumulator.placed cfg c (read o.out.content) : Int) - lostBy cfg c (read o.out.content) +
        nftBy c (read o.out.content) := by
  unfold outWorth giveOf posOutOps
  generalize read o.out.content = x at hf ⊢
  generalize o.out.inUtxoSet = u at hf ⊢
  cases he : o.effect <;> simp only [he, Fits] at hf
  case createPool p d =>
    obtain ⟨n, rfl, h1, h2, rfl⟩ := hf
    simp [worth, poolGain, delGain, Accumulator.placed, lostBy, nftBy, h1, h2]
  case none =>
    rcases hf with ⟨v, rfl, rfl⟩ | ⟨v, l, rfl, rfl⟩ | ⟨v, rfl, rfl⟩ | ⟨v, rfl, rfl⟩ | ⟨rfl, rfl⟩ | ⟨v, rfl, rfl⟩ | ⟨rfl, rfl⟩ <;>
      simp [worth, Accumulator.placed, lostBy, nftBy]
  all_goals
    obtain ⟨rfl, rfl⟩ := hf
    simp [worth, poolGain, delGain, Accumulator.placed, lostBy, nftBy]

theorem lost_burned {read : Nat → TxOutput} (cfg : Accumulator.Config) (o : Out) (id : Nat)
    (hf : Fits o.effect (read o.out.content) o.out.inUtxoSet) : lostBy cfg (id + 1) (read o.out.content) = burnedBy id o := by
  unfold burnedBy
  generalize read o.out.content = x at hf ⊢
  generalize o.out.inUtxoSet = u at hf ⊢
  cases he : o.effect <;> simp only [he, Fits] at hf
  case createPool p d =>
    obtain ⟨n, rfl, h1, h2, rfl⟩ := hf
    simp [lostBy]
  case none =>
    rcases hf with ⟨v, rfl, rfl⟩ | ⟨v, l, rfl, rfl⟩ | ⟨v, rfl, rfl⟩ | ⟨v, rfl, rfl⟩ | ⟨rfl, rfl⟩ | ⟨v, rfl, rfl⟩ | ⟨rfl, rfl⟩ <;>
      simp [lostBy, val]
  case burnToken t n =>
    obtain ⟨rfl, rfl⟩ := hf
    simp only [lostBy, val, Nat.add_right_cancel_iff, eq_comm (a := id)]
  all_goals
    obtain ⟨rfl, rfl⟩ := hf
    simp [lostBy]

theorem nft_of {read : Nat → TxOutput} (o : Out) (id : Nat)
    (hf : Fits o.effect (read o.out.content) o.out.inUtxoSet) :
    nftBy (id + 1) (read o.out.content) = if o.effect.nft = some id then 1 else 0 := by
  generalize read o.out.content = x at hf ⊢
  generalize o.out.inUtxoSet = u at hf ⊢
  cases he : o.effect <;> simp only [he, Fits] at hf
  case createPool p d =>
    obtain ⟨n, rfl, h1, h2, rfl⟩ := hf
    simp [nftBy, Effect.nft]
  case none =>
    rcases hf with ⟨v, rfl, rfl⟩ | ⟨v, l, rfl, rfl⟩ | ⟨v, rfl, rfl⟩ | ⟨v, rfl, rfl⟩ | ⟨rfl, rfl⟩ | ⟨v, rfl, rfl⟩ | ⟨rfl, rfl⟩ <;>
      simp [nftBy, Effect.nft]
  all_goals
    obtain ⟨rfl, rfl⟩ := hf
    simp [nftBy, Effect.nft, eq_comm]

theorem posIn_isIn (env : Env) (U : OutPoint → Option Coin) (is : List Input) :
    ∀ op ∈ is.flatMap (posInOps env U), isPosIn op = true := by
  intro op h
  rw [List.mem_flatMap] at h
  obtain ⟨i, -, h⟩ := h
  unfold posInOps at h
  split at h
  · split at h
    · cases h
    · split at h
      · cases h
      · rw [List.mem_singleton] at h; subst h; rfl
  · rw [List.mem_singleton] at h; subst h; rfl
  · cases h

theorem posOut_isOut (os : List Out) : ∀ op ∈ os.flatMap posOutOps, isPosOut op = true := by
  intro op h
  rw [List.mem_flatMap] at h
  obtain ⟨i, -, h⟩ := h
  unfold posOutOps at h
  split at h <;> first | cases h; done | (rw [List.mem_singleton] at h; subst h; rfl)

/-- a registered NFT counts once -/
def nftCount (s : St) (id : Nat) : Nat := if (s.nft id).isSome then 1 else 0

theorem nft_sum {read : Nat → TxOutput} {tx : Tx} (hd : ∀ o ∈ tx.outputs, Fits o.effect (read o.out.content) o.out.inUtxoSet)
    (h1 : (tx.outputs.filterMap fun o => o.effect.nft).length ≤ 1) (id : Nat) :
    (tx.outputs.map fun o => nftBy (id + 1) (read o.out.content)).sum = if tx.nft = some id then 1 else 0 := by
  unfold Tx.nft
  generalize tx.outputs = os at hd h1
  induction os with
  | nil => rfl
  | cons o os ih =>
    have ih := ih (fun x hx => hd x (by simp [hx]))
    have ho := nft_of o id (hd o (by simp))
    rw [List.map_cons, List.sum_cons, ho]
    cases he : o.effect.nft with
    | none =>
      rw [List.filterMap_cons_none (f := fun o : Out => o.effect.nft) he] at h1
      rw [ih h1]
      simp [List.findSome?, he]
    | some k =>
      rw [List.filterMap_cons_some (f := fun o : Out => o.effect.nft) he, List.length_cons] at h1
      have hnil : (os.filterMap fun o => o.effect.nft) = [] := List.eq_nil_of_length_eq_zero (by omega)
      rw [ih (by rw [hnil]; simp)]
      have : os.findSome? (fun o => o.effect.nft) = none := by
        rw [List.findSome?_eq_none_iff]
        intro x hx
        exact (List.filterMap_eq_nil_iff.1 hnil) x hx
      rw [this]
      simp [List.findSome?, he]

/-- **one transaction** -/
theorem connectTx_value {env : Env} {read : Nat → TxOutput} {cfgOf : Src → Accumulator.Config}
    {feeOf : Nat → Accumulator.Acc} {subsidy : Nat → Nat} (hg : ValueGuards env read cfgOf feeOf subsidy)
    {src : Src} {v v' : TxVerifier} {tx : Tx} {fee : Nat} {s : St}
    (h : connectTx env src v tx = .ok (v', fee)) (hr : ∀ w ∈ txTrace env src v tx, Readable w) (hV : VRep v s)
    (hp : ∀ j, s.utxo (txOut tx.id j) = none)
    (hd : ∀ o ∈ tx.outputs, Fits o.effect (read o.out.content) o.out.inUtxoSet) :
    ∃ s', VRep v' s' ∧ (∀ k, (∀ j, k ≠ txOut tx.id j) → s.utxo k = none → s'.utxo k = none) ∧
      (∀ c, Moved read c s s' ((tx.inputs.map (fun i => (mintedBy c i : Int))).sum +
        (tx.outputs.map (fun o => (nftBy c (read o.out.content) : Int))).sum -
        (tx.outputs.map (fun o => (lostBy (cfgOf src) c (read o.out.content) : Int))).sum -
        (tx.inputs.map (fun i => (Accumulator.commandFee (cfgOf src) c i.toAcc : Int))).sum - (feeOf fee).total c)) ∧
      (∀ id, (s.tokens.supply id : Int) + (tx.inputs.map (fun i => (mintedBy (id + 1) i : Int))).sum ≤
        s'.tokens.supply id + (tx.outputs.map (fun o => (lostBy (cfgOf src) (id + 1) (read o.out.content) : Int))).sum) ∧
      (CapOk s.tokens → CapOk s'.tokens) ∧
      ∀ id, (nftCount s' id : Int) = nftCount s id +
        (tx.outputs.map (fun o => (nftBy (id + 1) (read o.out.content) : Int))).sum := by
  simp only [connectTx, bind_eq_ok, okOr_eq_ok, ensure_eq_ok, pure_eq_ok, Prod.mk.injEq] at h
  obtain ⟨_, hck, v1, h1, f, hf, v2, h2, v3, h3, v4, h4, v5, h5, rfl, rfl⟩ := h
  have hrP : ∀ w ∈ posTrace env v1 tx, Readable w := fun w hw => hr w (by simp [txTrace, after, h1, hw])
  have hrT : ∀ w ∈ tokTrace v2 tx, Readable w := fun w hw => hr w (by simp [txTrace, after, h1, h2, hw])
  have hrO : ∀ w ∈ ordTrace v3 tx, Readable w := fun w hw => hr w (by simp [txTrace, after, h1, h2, h3, hw])
  obtain ⟨na, nb, rfl, r1, hnft⟩ := register_spec h1 hV
  have hnc : ∀ id, nftCount (s.register tx src.block) id = nftCount s id + if tx.nft = some id then 1 else 0 := by
    intro id
    unfold nftCount St.register
    cases hn : tx.nft with
    | none => simp
    | some k =>
      by_cases hk : id = k
      · subst hk; simp [hnft id hn]
      · simp [hk, Ne.symm hk]
  have es : (s.register tx src.block).utxo = s.utxo ∧ (s.register tx src.block).pos = s.pos ∧
      (s.register tx src.block).tokens = s.tokens ∧ (s.register tx src.block).orders = s.orders := by
    unfold St.register
    split <;> exact ⟨rfl, rfl, rfl, rfl⟩
  generalize s.register tx src.block = s1 at r1 hnc es
  obtain ⟨eu, ep, et, eo⟩ := es
  obtain ⟨p, n2, pu, sp1, sp, nx2, rfl, r2, cp1, cp2, rp1, hsp⟩ := connectPos_run h2 hrP r1
  obtain ⟨t, n3, tu, st, nx3, tops, rfl, r3, ct1, ct2⟩ := connectTokens_run h3 hrT r2
  obtain ⟨o, n4, ou, so1, so, nx4, rfl, r4, co1, co2, ro1, hso⟩ := connectOrders_run h4 hrO r3
  dsimp only at r4 hsp ct2 co1 cp1
  simp only [connectUtxo, bind_eq_ok, mapErr_ok, pure_eq_ok, Prod.exists] at h5
  obtain ⟨l, u, h5, cu, -, rfl⟩ := h5
  have hfresh : Utxo.TxFresh (v.utxo.view v.base.utxo) tx.utxo.id := by
    intro j; rw [hV.utxo]; exact hp j
  obtain ⟨g1, g2, g3, g4, g5, g6, g7⟩ := Utxo.connectTx_spec hV.uinv hfresh h5
  rw [hV.utxo, spends_eq] at g6 g7
  rw [spends_eq] at g4
  -- the value checks
  obtain ⟨ai, ao, a1, a2, a3⟩ := hg.adds _ _ _ _ hf
  have hcmd := hg.oneCommand _ _ _ _ hf
  have hsv : Orders.SoundView v.orders.view := fun id =>
    ⟨_, _, _, hV.orders.vData id, hV.orders.vAsk id, hV.orders.vGive id, hV.sound id⟩
  obtain ⟨oc, us, c1, c2⟩ := Accumulator.C20_transaction_conserves _ _ _ _ _ _ _ _ _ _ hsv a1 a2 a3
  obtain ⟨S, hS, shO⟩ := ord_in (cfg := cfgOf src) hV.orders hV.sound (by rw [← eo]; exact co1) hcmd
    (fun n id a hm => hg.fillV0 _ _ n id a hck hm) (fun id a hm => hg.fillV1 _ _ id a hck hm) c1
  refine ⟨{ s1 with utxo := (l.view v.base.utxo).utxo, pos := sp, tokens := st, orders := so, next := nx4 }, ?_, ?_, ?_, ?_,
    tok_cap (by rw [← et]; exact ct2) ⟨_, hV.tokens⟩ hV.locked, ?_⟩
  · exact (r4.withUtxo g1 rfl).withUndo cu pu tu ou
  · intro k hk hn
    refine Utxo.connectTx_fresh hV.uinv hfresh h5 hk ?_
    rw [hV.utxo]; exact hn
  · intro c
    have cons := c2 c S hS
    have shU : Shift (utxoPart read c s.utxo) (utxoPart read c (l.view v.base.utxo).utxo)
        (- (tx.spends.map (utxoPart read c s.utxo)).sum + ((tx.outputs.map Out.out).map (outWorth read c)).sum) := by
      rw [g6]
      refine (utxo_rem read c tx.spends s.utxo g4).trans ((utxo_set read c _ _ ?_ ?_).cast (outPairs_worth ..))
      · exact Utxo.outPairs_nodup (fun i j e => (Utxo.txOut_inj.1 e).2) _ _
      · intro q hq
        obtain ⟨j, -, hj⟩ := Utxo.outPairs_mem hq
        rw [hj]; exact g7 j
    rw [eu, ep] at cp1
    rw [eu] at hsp
    obtain ⟨shP1, shD1⟩ := pos_in (f := s.pos.poolData) cp1 ⟨_, hV.pos⟩ (posIn_isIn _ _ _) (fun p => Or.inl rfl)
    obtain ⟨shP2, shD2⟩ := pos_out cp2 rp1 (posOut_isOut _)
    have shO2 := ord_out co2 ro1 hso c
    refine ⟨_, _, _, _, shU, shP1.trans shP2, shD1.trans shD2, (shO c).trans shO2, ?_⟩
    have hin : ∀ i ∈ tx.inputs, _ := fun i hi => input_value (env := env) (read := read) (U := s.utxo)
      (w := TxVerifier.views { v with nfts := na, nftByTx := nb }) (s := s.pos) hg.pool hV.utxo (ownerShare_eq hV.pos) i c
      (hsp i hi) (hg.kinds _ _ _ _ hf i hi)
    have hout : ∀ o ∈ tx.outputs, _ := fun o ho => output_value (cfgOf src) o c (hd o ho)
    have e1 := sum_congr' hin
    have e2 := sum_congr' hout
    simp only [sub_eq_add_neg, sum_add] at e1 e2
    rw [zip_maps, List.map_map, sum_nat, List.map_map, List.map_map] at cons
    simp only [Function.comp_def] at cons
    simp only [sum_flatMap, Tx.spends, sum_filterMap, List.map_map, Function.comp_def]
    have e3 : ∀ (f g : Input → Int), (tx.inputs.map fun a => -(if c = 0 then f a + g a else 0)).sum =
        - (if c = 0 then (tx.inputs.map f).sum + (tx.inputs.map g).sum else 0) := by
      intro f g
      rw [← sum_scale]
      generalize tx.inputs = is
      induction is with
      | nil => rfl
      | cons x l ih => simp only [List.map_cons, List.sum_cons, ih]; omega
    have e4 : ∀ (f : Out → Int), (tx.outputs.map fun a => - f a).sum = - (tx.outputs.map f).sum := by
      intro f
      generalize tx.outputs = is
      induction is with
      | nil => rfl
      | cons x l ih => simp only [List.map_cons, List.sum_cons, ih]; omega
    rw [e3] at e1
    rw [e4, sum_scale] at e2
    have e5 : TxVerifier.views { v with nfts := na, nftByTx := nb } = v.views := rfl
    rw [e5] at e1 cons
    clear shU shP1 shP2 shD1 shD2 shO shO2 e3 e4 e5
    split
    · rename_i h0
      simp only [h0, if_true] at e1 e2 cons ⊢
      linarith
    · rename_i h0
      simp only [h0, if_false] at e1 e2 cons ⊢
      linarith
  · intro id
    have hs := tok_supply ct1 hcmd (s := s.tokens) (by rw [← et]; exact ct2) ⟨_, hV.tokens⟩ id
    rw [sum_nat, sum_nat] at hs
    rw [sum_congr' (g := fun o => (burnedBy id o : Int)) fun o ho => by rw [lost_burned _ o id (hd o ho)]]
    exact hs
  · intro id
    rw [← sum_nat, nft_sum hd (hg.oneNft _ _ hck)]
    have := hnc id
    unfold nftCount at this ⊢
    dsimp only
    rw [this]
    push_cast
    rfl

end Verif.Verifier
