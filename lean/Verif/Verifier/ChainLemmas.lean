import Verif.Verifier.Chain
import Verif.Verifier.Check

/-!
# Histories of blocks
-/

namespace Verif.Verifier
open Verif
open Verif.Utxo (OutPoint Coin Output txOut rewardOut LInv)

theorem connects_append {env : Env} : ∀ (bs cs : List Block) (l : Ledger),
    l.connects env (bs ++ cs) = (l.connects env bs).bind fun l1 => l1.connects env cs
  | [], cs, l => rfl
  | b :: bs, cs, l => by
    simp only [List.cons_append, Ledger.connects]
    cases h : l.connect env b with
    | error e => rfl
    | ok l1 => exact connects_append bs cs l1

theorem disconnects_append : ∀ (bs cs : List Block) (l : Ledger),
    l.disconnects (bs ++ cs) = (l.disconnects bs).bind fun l1 => l1.disconnects cs
  | [], cs, l => rfl
  | b :: bs, cs, l => by
    simp only [List.cons_append, Ledger.disconnects]
    cases h : l.disconnect b with
    | error e => rfl
    | ok l1 => exact disconnects_append bs cs l1

/-- blocks that follow one another, the first one following `p` -/
def Linked (p : Nat) : List Block → Prop
  | [] => True
  | b :: bs => b.prev = p ∧ Linked b.id bs

/-- the ids of the transactions of a list of blocks -/
def txIds (bs : List Block) : List Nat := bs.flatMap fun b => b.txs.map Tx.id

/-- a chain of blocks that is new to the stored state: linked to its best block, all ids distinct and unknown to it -/
structure NewChain (l : Ledger) (bs : List Block) : Prop where
  linked : Linked l.utxo.best bs
  ids : (bs.map Block.id).Nodup
  txs : (txIds bs).Nodup
  inputs : ∀ b ∈ bs, b.reward.utxoInputs
  utxo : ∀ id ∈ txIds bs, ∀ j, l.utxo.utxos.get (txOut id j) = none
  reward : ∀ b ∈ bs, ∀ j, l.utxo.utxos.get (rewardOut b.id j) = none
  nft : ∀ id ∈ txIds bs, l.nftByTx.get id = none
  undo : ∀ b ∈ bs, l.utxoUndo.get (chain b.id) = none ∧ l.posUndo.get (chain b.id) = none ∧
    l.tokensUndo.get (chain b.id) = none ∧ l.ordersUndo.get (chain b.id) = none

/-- while the block is connected, no balance leaves its range, not even between the operations of one transaction -/
def InRange (env : Env) (l : Ledger) (b : Block) : Prop :=
  ∀ w ∈ blockTrace env (TxVerifier.new l.base) b, Readable w

/-- the same for all blocks of a chain -/
def ChainInRange (env : Env) (l : Ledger) : List Block → Prop
  | [] => True
  | b :: bs => InRange env l b ∧ ∀ l1, l.connect env b = .ok l1 → ChainInRange env l1 bs

theorem NewChain.fresh {l : Ledger} {b : Block} {bs : List Block} (h : NewChain l (b :: bs)) : Fresh l b where
  prev := h.linked.1
  utxo := fun tx ht => h.utxo _ (by simp [txIds]; exact .inl ⟨tx, ht, rfl⟩)
  nft := fun tx ht => h.nft _ (by simp [txIds]; exact .inl ⟨tx, ht, rfl⟩)
  nodup := by
    have := h.txs
    simp only [txIds, List.flatMap_cons, List.nodup_append] at this
    exact this.1
  reward := h.reward b (by simp)
  inputs := h.inputs b (by simp)
  utxoUndo := (h.undo b (by simp)).1
  posUndo := (h.undo b (by simp)).2.1
  tokensUndo := (h.undo b (by simp)).2.2.1
  ordersUndo := (h.undo b (by simp)).2.2.2

theorem chain_ne {a b : Nat} (h : a ≠ b) : chain a ≠ chain b := fun e => h (Nat.succ.inj e)

theorem connect_step {env : Env} {l l1 : Ledger} {b : Block} {bs : List Block} (hw : l.WF) (hn : NewChain l (b :: bs))
    (hr : InRange env l b) (h : l.connect env b = .ok l1) : l1.WF ∧ NewChain l1 bs ∧ l1.disconnect b = .ok l := by
  obtain ⟨a1, a2, a3, a4, a5, a6⟩ := ledger_connect_spec hw hn.fresh hr h
  have hids := hn.ids
  simp only [List.map_cons, List.nodup_cons] at hids
  have htx := hn.txs
  simp only [txIds, List.flatMap_cons, List.nodup_append] at htx
  obtain ⟨-, t2, t3⟩ := htx
  have hmem : ∀ id ∈ txIds bs, id ∈ txIds (b :: bs) := fun id hi => by
    simp only [txIds, List.flatMap_cons, List.mem_append]; exact .inr hi
  have hne : ∀ c ∈ bs, c.id ≠ b.id := fun c hc e => hids.1 (e ▸ List.mem_map_of_mem hc)
  refine ⟨a1, ⟨?_, hids.2, t2, fun c hc => hn.inputs c (by simp [hc]), ?_, ?_, ?_, ?_⟩, a3⟩
  · rw [a2]; exact hn.linked.2
  · intro id hi j
    refine a5 _ (fun tx ht j' e => ?_) (fun j' => Utxo.txOut_ne_rewardOut) (hn.utxo id (hmem id hi) j)
    exact t3 tx.id (List.mem_map_of_mem ht) id hi (Utxo.txOut_inj.1 e).1.symm
  · intro c hc j
    refine a5 _ (fun tx ht j' e => Utxo.txOut_ne_rewardOut e.symm) (fun j' e => ?_) (hn.reward c (by simp [hc]) j)
    exact hne c hc (Utxo.rewardOut_inj.1 e).1
  · intro id hi
    exact a4 id (fun hm => t3 id hm id hi rfl) (hn.nft id (hmem id hi))
  · intro c hc
    obtain ⟨e1, e2, e3, e4⟩ := a6 (chain c.id) (chain_ne (hne c hc))
    rw [e1, e2, e3, e4]
    exact hn.undo c (by simp [hc])

theorem connects_disconnects {env : Env} : ∀ (bs : List Block) {l l' : Ledger}, l.WF → NewChain l bs →
    ChainInRange env l bs → l.connects env bs = .ok l' → l'.WF ∧ l'.disconnects bs.reverse = .ok l
  | [], l, l', hw, _, _, h => by cases h; exact ⟨hw, rfl⟩
  | b :: bs, l, l', hw, hn, hr, h => by
    simp only [Ledger.connects, bind_eq_ok] at h
    obtain ⟨l1, h1, h2⟩ := h
    obtain ⟨w1, n1, d1⟩ := connect_step hw hn hr.1 h1
    obtain ⟨w2, d2⟩ := connects_disconnects bs w1 n1 (hr.2 l1 h1) h2
    refine ⟨w2, ?_⟩
    rw [List.reverse_cons, disconnects_append, d2]
    simp only [Except.bind, Ledger.disconnects, d1]
    rfl

theorem connects_snoc {env : Env} {bs : List Block} {b : Block} {l l' : Ledger} :
    l.connects env (bs ++ [b]) = .ok l' ↔ ∃ l1, l.connects env bs = .ok l1 ∧ l1.connect env b = .ok l' := by
  rw [connects_append]
  cases h : l.connects env bs with
  | error e => simp [Except.bind]
  | ok l1 =>
    simp only [Except.bind, Ledger.connects, Except.ok.injEq, exists_eq_left']
    cases h' : l1.connect env b with
    | error e => simp [bind, Except.bind]
    | ok l2 => simp [bind, Except.bind]

/-- the last block of a connected chain can be disconnected, with the state before it as the result -/
theorem disconnect_tip {env : Env} {bs : List Block} {b : Block} {l l1 l' : Ledger} (hw : l.WF) (hn : NewChain l (bs ++ [b]))
    (hr : ChainInRange env l (bs ++ [b])) (h : l.connects env bs = .ok l1) (h1 : l1.connect env b = .ok l') :
    l'.disconnect b = .ok l1 := by
  induction bs generalizing l with
  | nil =>
    cases h
    exact (connect_step hw hn hr.1 h1).2.2
  | cons c bs ih =>
    simp only [Ledger.connects, bind_eq_ok] at h
    obtain ⟨l2, h2, h3⟩ := h
    obtain ⟨w1, n1, -⟩ := connect_step hw hn hr.1 h2
    exact ih w1 n1 (hr.2 l2 h2) h3

/-- a history of connecting blocks and disconnecting the tip: the chain and the stored state it leads to -/
inductive Reaches (env : Env) (l0 : Ledger) (ok : List Block → Prop) : List Block → Ledger → Prop
  | start : Reaches env l0 ok [] l0
  | connect {bs l b l'} : Reaches env l0 ok bs l → ok (bs ++ [b]) → l.connect env b = .ok l' →
      Reaches env l0 ok (bs ++ [b]) l'
  | disconnect {bs b l l'} : Reaches env l0 ok (bs ++ [b]) l → l.disconnect b = .ok l' → Reaches env l0 ok bs l'

theorem NewChain.init {l : Ledger} {bs cs : List Block} (h : NewChain l (bs ++ cs)) : NewChain l bs := by
  have hm : ∀ id ∈ txIds bs, id ∈ txIds (bs ++ cs) := fun id hi => by
    simp only [txIds, List.flatMap_append, List.mem_append]; exact .inl hi
  refine ⟨?_, ?_, ?_, fun b hb => h.inputs b (by simp [hb]), fun id hi => h.utxo id (hm id hi),
    fun b hb => h.reward b (by simp [hb]), fun id hi => h.nft id (hm id hi), fun b hb => h.undo b (by simp [hb])⟩
  · have := h.linked
    generalize l.utxo.best = p at this
    clear h hm
    induction bs generalizing p with
    | nil => trivial
    | cons b bs ih => exact ⟨this.1, ih _ this.2⟩
  · have := h.ids
    rw [List.map_append, List.nodup_append] at this
    exact this.1
  · have := h.txs
    simp only [txIds, List.flatMap_append, List.nodup_append] at this
    exact this.1

theorem ChainInRange.init {env : Env} {bs cs : List Block} : ∀ {l : Ledger}, ChainInRange env l (bs ++ cs) →
    ChainInRange env l bs := by
  induction bs with
  | nil => intros; trivial
  | cons b bs ih => exact fun {l} h => ⟨h.1, fun l1 h1 => ih (h.2 l1 h1)⟩

theorem reaches_connects {env : Env} {l0 : Ledger} (hw : l0.WF) {bs : List Block} {l : Ledger}
    (h : Reaches env l0 (fun bs => NewChain l0 bs ∧ ChainInRange env l0 bs) bs l) :
    (NewChain l0 bs ∧ ChainInRange env l0 bs ∨ bs = []) ∧ l0.connects env bs = .ok l := by
  induction h with
  | start => exact ⟨.inr rfl, rfl⟩
  | connect _ hok hc ih => exact ⟨.inl hok, connects_snoc.2 ⟨_, ih.2, hc⟩⟩
  | @disconnect bs b l l' _ hd ih =>
    obtain ⟨i1, i2⟩ := ih
    rcases i1 with ⟨hn, hr⟩ | h0
    · obtain ⟨l1, e1, e2⟩ := connects_snoc.1 i2
      have := disconnect_tip hw hn hr e1 e2
      rw [hd] at this
      cases this
      exact ⟨.inl ⟨hn.init, hr.init⟩, e1⟩
    · simp at h0

/-! ### Nonces -/

/-- the uses of accounts by the transactions of a block -/
def Block.uses (b : Block) : List Use := b.txs.flatMap Tx.uses

theorem noncesFor_flatMap {A : Type} (a : Account) (f g : A → List Use) (h : ∀ x, noncesFor a (f x) = noncesFor a (g x)) :
    ∀ xs : List A, noncesFor a (xs.flatMap f) = noncesFor a (xs.flatMap g)
  | [] => rfl
  | x :: xs => by rw [List.flatMap_cons, List.flatMap_cons, noncesFor_append, noncesFor_append, h,
      noncesFor_flatMap a f g h xs]

theorem block_nonces {env : Env} {l l' : Ledger} {b : Block} (h : l.connect env b = .ok l') (a : Account) :
    noncesFor a b.uses = List.range' (l.expects a) (noncesFor a b.uses).length ∧
      l'.expects a = l.expects a + (noncesFor a b.uses).length := by
  have := (ns_ledger h).spec a
  rwa [noncesFor_flatMap a _ _ (noncesFor_staged a)] at this

theorem length_noncesFor_flatMap (a : Account) (txs : List Tx) :
    (txs.flatMap fun tx => tx.inputs.filterMap Input.acc).count a = (noncesFor a (txs.flatMap Tx.uses)).length := by
  induction txs with
  | nil => rfl
  | cons tx txs ih => rw [List.flatMap_cons, List.flatMap_cons, List.count_append, noncesFor_append, List.length_append, ih,
      uses_acc]

theorem block_unspend {l l' : Ledger} {b : Block} (h : l.disconnect b = .ok l') (a : Account) :
    l.expects a = l'.expects a + (noncesFor a b.uses).length := by
  rw [nb_ledger h]
  unfold bump Block.uses
  rw [← length_noncesFor_flatMap]
  congr 1
  exact ((List.reverse_perm b.txs).flatMap_right _).count_eq a

theorem range'_prefix {xs ys : List Nat} {s : Nat} (h : xs ++ ys = List.range' s (xs ++ ys).length) :
    xs = List.range' s xs.length := by
  rw [List.length_append, List.range'_append_1.symm] at h
  exact (List.append_inj h (by simp)).1

theorem reaches_nonces {env : Env} {l0 : Ledger} {ok : List Block → Prop} {bs : List Block} {l : Ledger}
    (h : Reaches env l0 ok bs l) (a : Account) :
    noncesFor a (bs.flatMap Block.uses) = List.range' (l0.expects a) (noncesFor a (bs.flatMap Block.uses)).length ∧
      l.expects a = l0.expects a + (noncesFor a (bs.flatMap Block.uses)).length := by
  induction h with
  | start => simp [noncesFor]
  | @connect bs l b l' _ _ hc ih =>
    obtain ⟨i1, i2⟩ := ih
    obtain ⟨b1, b2⟩ := block_nonces hc a
    rw [List.flatMap_append, noncesFor_append, List.length_append]
    simp only [List.flatMap_cons, List.flatMap_nil, List.append_nil]
    refine ⟨?_, by omega⟩
    rw [← List.range'_append_1, ← i1, ← i2, ← b1]
  | @disconnect bs b l l' _ hd ih =>
    obtain ⟨i1, i2⟩ := ih
    have hu := block_unspend hd a
    rw [List.flatMap_append, noncesFor_append] at i1 i2
    simp only [List.flatMap_cons, List.flatMap_nil, List.append_nil] at i1 i2
    refine ⟨range'_prefix i1, ?_⟩
    rw [List.length_append] at i2
    omega

end Verif.Verifier
