import Verif.Verifier.Replay
import Verif.Verifier.Props
import Verif.Accumulator.Props

/-!
# C51: nothing happens twice on a chain

The theorems quantify over every stored state without orders (the state after genesis), every list of blocks connected
to it one after the other, and every choice of the read-only checks that has the guarantees `Guards`. Ids are opaque:
`Sane` says that equal ids mean equal inputs, that the ids are new to the start, and that the id of an order
determines the first output spent by its transaction (C50 proves the latter for the real construction).
-/

set_option maxRecDepth 100000

namespace Verif.Verifier
open Verif Verif.Accounting
open Verif.Utxo (OutPoint Coin Output Layer txOut rewardOut LInv)

/-- what is assumed about the start and the ids of a chain -/
structure Start (l0 : Ledger) (bs : List Block) : Prop where
  sane : Sane l0.utxo.utxos.get (bs.flatMap Block.txs)
  orders : ∀ id, l0.orders.data.get id = none
  ids : (bs.map Block.id).Nodup
  reward : ∀ b ∈ bs, ∀ j, l0.utxo.utxos.get (rewardOut b.id j) = none

theorem Start.hist {env : Env} {l0 l : Ledger} {bs : List Block} (hs : Start l0 bs) (hg : Guards env)
    (h : l0.connects env bs = .ok l) :
    Hist l0.utxo.utxos.get (bs.flatMap Block.txs) (bs.map Block.id) (bs.flatMap Block.spends) l.utxo.utxos.get
      l.orders.data.get l.expects := by
  obtain ⟨U, D, hL, hH⟩ := Hist.blocks hs.sane hg bs (Hist.start hs.orders) (by simp)
    (fun b hb t ht => List.mem_flatMap.2 ⟨b, hb, ht⟩) hs.reward (by simpa using hs.ids) ⟨rfl, rfl⟩ h
  obtain ⟨rfl, rfl⟩ := hL
  simpa using hH

theorem txIds_eq (bs : List Block) : txIds bs = (bs.flatMap Block.txs).map Tx.id := by
  simp [txIds, List.map_flatMap]

/-- **C51.** No transaction is part of a chain twice. -/
theorem C51_no_replay {env : Env} {l0 l : Ledger} {bs : List Block} (hs : Start l0 bs) (hg : Guards env)
    (h : l0.connects env bs = .ok l) : (txIds bs).Nodup := by
  rw [txIds_eq]
  exact (hs.hist hg h).ids

/-- **C51.** No output is spent twice on a chain, be it by two transactions, twice by one transaction or by a block
reward; and what has been spent is gone at the end of the chain. -/
theorem C51_no_double_spend {env : Env} {l0 l : Ledger} {bs : List Block} (hs : Start l0 bs) (hg : Guards env)
    (h : l0.connects env bs = .ok l) :
    (bs.flatMap Block.spends).Nodup ∧ ∀ o ∈ bs.flatMap Block.spends, l.utxo.utxos.get o = none :=
  ⟨(hs.hist hg h).nodup, fun o ho => ((hs.hist hg h).gone o ho).1⟩

/-- **C51.** What is spent, or left to be spent, exists: it was there at the start, or a transaction or the reward of a
block of this chain created it. -/
theorem C51_outputs_have_an_origin {env : Env} {l0 l : Ledger} {bs : List Block} (hs : Start l0 bs) (hg : Guards env)
    (h : l0.connects env bs = .ok l) (o : OutPoint) (ho : o ∈ bs.flatMap Block.spends ∨ l.utxo.utxos.get o ≠ none) :
    l0.utxo.utxos.get o ≠ none ∨ (∃ b ∈ bs, ∃ t ∈ b.txs, ∃ j, o = txOut t.id j) ∨ ∃ b ∈ bs, ∃ j, o = rewardOut b.id j := by
  have hk : Known l0.utxo.utxos.get (bs.flatMap Block.txs) (bs.map Block.id) o := by
    rcases ho with ho | ho
    · exact ((hs.hist hg h).gone o ho).2
    · exact (hs.hist hg h).known o ho
  rcases hk with hk | ⟨t, ht, j, e⟩ | ⟨b, hb, j, e⟩
  · exact .inl hk
  · obtain ⟨b, hb, ht⟩ := List.mem_flatMap.1 ht
    exact .inr (.inl ⟨b, hb, t, ht, j, e⟩)
  · obtain ⟨b', hb', rfl⟩ := List.mem_map.1 hb
    exact .inr (.inr ⟨b', hb', j, e⟩)

/-- the ids that a chain derives from the first outputs spent by its transactions, in order, under the derivation `f` -/
def derived {A : Type} (f : OutPoint → A) (bs : List Block) : List A :=
  (bs.flatMap Block.txs).filterMap fun t => t.spends.head?.map f

theorem heads_sublist (ts : List Tx) : (ts.filterMap fun t => t.spends.head?).Sublist (ts.flatMap Tx.spends) := by
  induction ts with
  | nil => simp
  | cons t ts ih =>
    cases hs : t.spends with
    | nil => simpa [List.filterMap_cons, hs] using ih
    | cons o os =>
      simp only [List.filterMap_cons, List.flatMap_cons, hs, List.head?_cons, List.cons_append]
      exact (ih.trans (List.sublist_append_right _ _)).cons_cons o

theorem flatMap_spends_sublist (bs : List Block) :
    ((bs.flatMap Block.txs).flatMap Tx.spends).Sublist (bs.flatMap Block.spends) := by
  induction bs with
  | nil => simp
  | cons b bs ih =>
    simp only [List.flatMap_cons, List.flatMap_append, Block.spends, List.append_assoc]
    exact (List.Sublist.refl _).append (ih.trans (List.sublist_append_right _ _))

/-- **C51.** Ids derived injectively from the first spent output – pool, delegation, order and token ids are – never
repeat on a chain: two different transactions never derive the same id. -/
theorem C51_derived_ids_unique {A : Type} {env : Env} {l0 l : Ledger} {bs : List Block} (hs : Start l0 bs)
    (hg : Guards env) (h : l0.connects env bs = .ok l) (f : OutPoint → A) (hf : Function.Injective f) :
    (derived f bs).Nodup := by
  have h1 : ((bs.flatMap Block.txs).filterMap fun t => t.spends.head?).Nodup :=
    ((hs.hist hg h).nodup.sublist (flatMap_spends_sublist bs)).sublist (heads_sublist _)
  have h2 : derived f bs = ((bs.flatMap Block.txs).filterMap fun t => t.spends.head?).map f := by
    simp [derived, List.map_filterMap]
  rw [h2]
  exact h1.map hf

/-- **C51.** A concluded order does not come back, a frozen one never thaws: at the end of any chain in which it was
concluded it is absent, and in which it was frozen it is frozen or absent. -/
theorem C51_orders_end {env : Env} {l0 l : Ledger} {bs : List Block} (hs : Start l0 bs) (hg : Guards env)
    (h : l0.connects env bs = .ok l) (b : Block) (hb : b ∈ bs) (t : Tx) (ht : t ∈ b.txs) (id : Nat) :
    (Input.order (.conclude id) ∈ t.inputs → l.orders.data.get id = none) ∧
    (Input.order (.freeze id) ∈ t.inputs → ∀ d, l.orders.data.get id = some d → d.isFrozen = true) := by
  have hm : t ∈ bs.flatMap Block.txs := List.mem_flatMap.2 ⟨b, hb, ht⟩
  exact ⟨fun hi => ((hs.hist hg h).concluded t hm id hi).1, fun hi => ((hs.hist hg h).frozen t hm id hi).1⟩

/-- **C51.** So the reorganization theorems (C49) need not assume that the transactions of a chain differ: the checks
made while connecting it see to that. -/
theorem C51_connected_chain_is_new {env : Env} {l0 l : Ledger} {bs : List Block} (hs : Start l0 bs) (hg : Guards env)
    (h : l0.connects env bs = .ok l) (hl : Linked l0.utxo.best bs) (hi : ∀ b ∈ bs, b.reward.utxoInputs)
    (hn : ∀ id, l0.nftByTx.get id = none)
    (hu : ∀ b ∈ bs, l0.utxoUndo.get (chain b.id) = none ∧ l0.posUndo.get (chain b.id) = none ∧
      l0.tokensUndo.get (chain b.id) = none ∧ l0.ordersUndo.get (chain b.id) = none) : NewChain l0 bs where
  linked := hl
  ids := hs.ids
  txs := C51_no_replay hs hg h
  inputs := hi
  utxo := by
    intro id hid j
    rw [txIds_eq] at hid
    obtain ⟨t, ht, rfl⟩ := List.mem_map.1 hid
    exact hs.sane.fresh t ht j
  reward := hs.reward
  nft := fun id _ => hn id
  undo := hu

/-- **C51.** Filling an order does not make up for a missing input: with the fill alone, of whatever positive amount, the
transaction is refused, because the currency asked for has to come from another input. (`FillOrder` is the one input
without nonce that consumes nothing, so without another input the transaction could be repeated.) -/
theorem C51_fill_alone_refused {cfg : Accumulator.Config} {o : Orders.View} {p : Pos.View} {t : Tokens.View} {id n : Nat}
    {utxos : List (Option Accumulator.TxOutput)} (hn : 0 < n)
    (hd : ∀ d, o.data id = .ok (some d) → Accumulator.curOf d.ask ≠ Accumulator.curOf d.give) :
    ∀ a, Accumulator.fromInputs cfg o p t [.fillOrder id n] utxos ≠ .ok a :=
  fun _ => fill_alone_refused hn hd

/-! ### A concrete case and the need for each guard -/

section Example

/-- `check_transaction` as far as the guards go; `c` drops the check for equal currencies -/
def checkTxOf (c : Bool) (_ : Src) (t : Tx) : Bool :=
  !t.inputs.isEmpty &&
    (c || t.outputs.all fun o => match o.effect with
      | .createOrder _ d => decide (Accumulator.curOf d.ask ≠ Accumulator.curOf d.give)
      | _ => true)

/-- at most `m` commands, and inputs that add up if each spent output is worth 100 coins -/
def checkInputsOf (m : Nat) (w : Views) (_ : Src) (t : Tx) : Option Nat :=
  if (t.inputs.filter Input.isCommand).length ≤ m then
    match Accumulator.fromInputs Accumulator.exCfg w.orders w.pos w.tokens (t.inputs.map Input.toAcc)
        (t.inputs.map fun i => i.outpoint.map fun _ => .transfer (.coin 100)) with
    | .ok _ => some 1
    | .error _ => none
  else none

def envOf (c : Bool) (m : Nat) : Env := { exEnv with checkTx := checkTxOf c, checkInputs := checkInputsOf m }

theorem guards_envOf : Guards (envOf false 1) where
  nonempty := by
    intro _ t h e
    simp [envOf, checkTxOf, e] at h
  differ := by
    intro _ t o id d h hm he
    simp only [envOf, checkTxOf, Bool.false_or, Bool.and_eq_true, List.all_eq_true] at h
    have := h.2 o hm
    rw [he] at this
    simpa [Differ] using this
  policy := by
    intro w s t f h
    simp only [envOf, checkInputsOf] at h
    split at h
    · rename_i hl
      split at h
      · rename_i a ha
        exact ⟨hl, _, _, a, ha⟩
      · cases h
    · cases h

deriving instance DecidableEq for Effect, Out, Tx

def reward0 : Utxo.Reward := ⟨none, none⟩

/-- order 30: coins for token 20; order 31: token 20 for coins; order 32: coins for coins -/
def rpTx1 : Tx := ⟨1, [.utxo (txOut 0 0)], [⟨noOut, .createOrder 30 ⟨6, .coin 100, .tokenV1 20 50, false⟩⟩, ⟨coin 2, .none⟩]⟩
def rpTx2 : Tx := ⟨2, [.utxo (txOut 0 1)], [⟨noOut, .createOrder 31 ⟨6, .tokenV1 20 50, .coin 100, false⟩⟩]⟩
def rpTx3 : Tx := ⟨3, [.utxo (txOut 1 1), .order (.fill 30 10)], [⟨coin 1, .none⟩]⟩
def rpTx4 : Tx := ⟨4, [.order (.freeze 31), .utxo (txOut 3 0)], [⟨coin 3, .none⟩]⟩
def rpTx5 : Tx := ⟨5, [.order (.conclude 30)], []⟩
def rpBlock1 : Block := ⟨101, 0, 1, [rpTx1, rpTx2], reward0, false⟩
def rpBlock2 : Block := ⟨102, 101, 2, [rpTx3, rpTx4, rpTx5], reward0, false⟩

theorem start_of {bs : List Block}
    (h1 : ∀ t ∈ bs.flatMap Block.txs, ∀ t' ∈ bs.flatMap Block.txs, t.id = t'.id → t = t')
    (h2 : ∀ t ∈ bs.flatMap Block.txs, t.id ≠ 0)
    (h3 : ∀ t ∈ bs.flatMap Block.txs, ∀ t' ∈ bs.flatMap Block.txs, ∀ id ∈ t.creates, id ∈ t'.creates →
      (t.spends.head?.isSome = true ∧ t'.spends.head? = t.spends.head?))
    (h4 : (bs.map Block.id).Nodup) : Start exGenesis bs where
  sane := {
    ids := fun t ht t' ht' e => by rw [h1 t ht t' ht' e]
    fresh := fun t ht j => ofList_utxo_none (by simp [txOut, h2 t ht])
    orders := by
      intro t ht t' ht' id hi hi'
      obtain ⟨a, b⟩ := h3 t ht t' ht' id hi hi'
      obtain ⟨o, ho⟩ := Option.isSome_iff_exists.1 a
      exact ⟨o, ho, b.trans ho⟩ }
  orders := fun _ => rfl
  ids := h4
  reward := fun _ _ _ => ofList_utxo_none (by simp [rewardOut])

-- the hypotheses of the theorems hold for two blocks that create, fill, freeze and conclude orders
example : Start exGenesis [rpBlock1, rpBlock2] ∧
    (exGenesis.connects (envOf false 1) [rpBlock1, rpBlock2]).toOption.map
      (fun l => [l.orders.data.get 30, l.orders.data.get 31]) =
      some [none, some ⟨6, .tokenV1 20 50, .coin 100, true⟩] :=
  ⟨start_of (by decide +kernel) (by decide +kernel) (by decide +kernel) (by decide +kernel), by decide +kernel⟩

-- the same fill a second time, with the same spent output, is refused
example : (exGenesis.connects (envOf false 1) [rpBlock1, rpBlock2, ⟨103, 102, 3, [rpTx3], reward0, false⟩]).isOk
    = false := by decide +kernel

/-- fills both orders against each other and spends nothing -/
def crossTx : Tx := ⟨6, [.order (.fill 30 10), .order (.fill 31 5)], []⟩
/-- creates an order that sells coins for coins, and fills it -/
def sameTx1 : Tx := ⟨8, [.utxo (txOut 0 2)], [⟨noOut, .createOrder 32 ⟨6, .coin 10, .coin 20, false⟩⟩]⟩
def sameTx2 : Tx := ⟨9, [.order (.fill 32 1)], []⟩

/-- **C51.** Both checks are needed: if two commands per transaction were allowed, or orders between equal currencies, there
would be chains on which the same transaction appears twice. -/
theorem C51_each_check_needed :
    (∃ bs l, Start exGenesis bs ∧ exGenesis.connects (envOf false 2) bs = .ok l ∧ ¬ (txIds bs).Nodup) ∧
    ∃ bs l, Start exGenesis bs ∧ exGenesis.connects (envOf true 1) bs = .ok l ∧ ¬ (txIds bs).Nodup := by
  have key : ∀ {env : Env} {bs : List Block}, Start exGenesis bs → ¬ (txIds bs).Nodup →
      (exGenesis.connects env bs).isOk = true →
      ∃ bs l, Start exGenesis bs ∧ exGenesis.connects env bs = .ok l ∧ ¬ (txIds bs).Nodup := by
    intro env bs h1 h2 h3
    cases h : exGenesis.connects env bs with
    | error e => rw [h] at h3; cases h3
    | ok l => exact ⟨bs, l, h1, h, h2⟩
  refine ⟨key (bs := [rpBlock1, ⟨102, 101, 2, [crossTx], reward0, false⟩, ⟨103, 102, 3, [crossTx], reward0, false⟩])
      (start_of ?_ ?_ ?_ ?_) ?_ ?_,
    key (bs := [⟨101, 0, 1, [sameTx1], reward0, false⟩, ⟨102, 101, 2, [sameTx2], reward0, false⟩,
      ⟨103, 102, 3, [sameTx2], reward0, false⟩]) (start_of ?_ ?_ ?_ ?_) ?_ ?_⟩ <;> decide +kernel

end Example

end Verif.Verifier
