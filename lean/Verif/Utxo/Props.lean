import Verif.Utxo.Lemmas

/-!
# UTXO set: properties C16–C19
-/

namespace Verif.Utxo
open Verif

set_option maxRecDepth 100000

variable {K V : Type} [LinearOrder K]

/-! ## C16 – layered caches behave like one plain map -/

/-- From any database, any sequence of operations (caches pushed and flushed at any point) that never adds a present
outpoint without permission to overwrite is accepted; all results and all lookups through the top are those of the
plain map. -/
theorem C16_refines_plain_map (db : DB K V) (ops : List (Op K V)) {p : Plain K V} {rs : List (Option (Option V))}
    (h : (Plain.mk (fun k => db.utxos.get k) db.best).run 0 ops = some (p, rs)) :
    ∃ s' rs', Stack.run ⟨[], db⟩ ops = .ok (s', rs') ∧ List.Forall₂ Agrees rs' rs ∧
      (∀ k, s'.view.utxo k = p.utxo k) ∧ s'.view.best = p.best := by
  obtain ⟨s', rs', h1, h2, -, h4⟩ := run_spec ops (s := ⟨[], db⟩) trivial ⟨rfl, rfl⟩ h
  exact ⟨s', rs', h1, h2, fun k => (congrFun h4.1 k).symm, h4.2.symm⟩

/-- Then flushing all remaining caches one by one succeeds and leaves the plain map in the database. -/
theorem C16_flush_to_database (db : DB K V) (ops : List (Op K V)) {p : Plain K V} {rs : List (Option (Option V))}
    (h : (Plain.mk (fun k => db.utxos.get k) db.best).run 0 ops = some (p, rs)) :
    ∃ s' rs', Stack.run ⟨[], db⟩ ops = .ok (s', rs') ∧
      ∃ db' rs2, s'.run (List.replicate s'.layers.length .flush) = .ok (⟨[], db'⟩, rs2) ∧
        (∀ k, db'.utxos.get k = p.utxo k) ∧ db'.best = p.best := by
  obtain ⟨s', rs', h1, -, h3, h4⟩ := run_spec ops (s := ⟨[], db⟩) trivial ⟨rfl, rfl⟩ h
  obtain ⟨db', rs2, k1, k2⟩ := flushAll_spec _ h3 rfl
  refine ⟨s', rs', h1, db', rs2, k1, ?_, ?_⟩
  · intro k
    have : db'.view.utxo k = s'.view.utxo k := by rw [k2]
    exact this.trans (congrFun h4.1 k).symm
  · have : db'.view.best = s'.view.best := by rw [k2]
    exact this.trans h4.2.symm

/-- a database with outpoints 1 and 2 -/
def exDB : DB Nat Nat := ⟨BMap.ofList [(1, 10), (2, 20)], 0⟩

/-- two caches; spend 1 above, re-add 1 above, add and spend 3, flush, spend 2, flush -/
def exOps : List (Op Nat Nat) :=
  [.push, .spend 1, .push, .add 1 11 false, .add 3 30 false, .touch 2, .flush, .spend 3, .spend 3, .push, .spend 2,
    .flush, .setBest 5, .flush]

/-- non-vacuity -/
example : ∃ p rs, (Plain.mk (fun k => exDB.utxos.get k) exDB.best).run 0 exOps = some (p, rs) ∧
    p.utxo 1 = some 11 ∧ p.utxo 2 = none ∧ p.utxo 3 = none ∧ p.best = 5 ∧
    rs = [none, some (some 10), none, none, none, some (some 20), none, some (some 30), some none, none,
      some (some 20), none, none, none] := by
  refine ⟨_, _, rfl, ?_⟩
  decide +kernel

/-- The uniqueness hypothesis is needed: adding (without overwrite) an outpoint that only a lower layer has is
accepted, and spending it then brings the lower layer's version back to life. -/
theorem C16_uniqueness_needed :
    ((Plain.mk (fun k => exDB.utxos.get k) exDB.best).run 0 [.push, .add 1 99 false]).isNone = true ∧
    ∃ r, Stack.run ⟨[], exDB⟩ [.push, .add 1 99 false, .spend 1] = .ok r ∧ r.1.view.utxo 1 = some 10 := by
  refine ⟨by decide +kernel, ?_⟩
  obtain ⟨r, h1, h2⟩ := okAnd_spec (x := Stack.run ⟨[], exDB⟩ [.push, .add 1 99 false, .spend 1])
    (P := fun r => decide (r.1.view.utxo 1 = some 10)) (by decide +kernel)
  exact ⟨r, h1, of_decide_eq_true h2⟩

/-! ## C17 – an output can be spent at most once -/

/-- A spend returns the UTXO exactly when the outpoint is unspent at that moment, and the outpoint is absent after
it. -/
theorem C17_spend_iff_unspent (db : DB K V) (ops : List (Op K V)) {p : Plain K V} {rs : List (Option (Option V))}
    (h : (Plain.mk (fun k => db.utxos.get k) db.best).run 0 ops = some (p, rs)) (k : K) :
    ∃ s rs', Stack.run ⟨[], db⟩ ops = .ok (s, rs') ∧
      (s.layers ≠ [] → ∃ s' r, s.step (.spend k) = .ok (s', some r) ∧
        (∀ v, r = .ok v ↔ s.view.utxo k = some v) ∧ s'.view.utxo k = none ∧
        (∀ k', k' ≠ k → s'.view.utxo k' = s.view.utxo k')) := by
  obtain ⟨s, rs', h1, -, h3, h4⟩ := run_spec ops (s := ⟨[], db⟩) trivial ⟨rfl, rfl⟩ h
  refine ⟨s, rs', h1, ?_⟩
  intro hne
  obtain ⟨layers, db0⟩ := s
  cases layers with
  | nil => exact absurd rfl hne
  | cons top rest =>
    obtain ⟨l', r', k1, k2, k3, k4, k5⟩ := spend_spec h3.1 k
    refine ⟨⟨l' :: rest, db0⟩, r', ?_, k5, ?_, ?_⟩
    · simp only [Stack.step]; rw [k1]; rfl
    · simp only [Stack.view, viewOf]; rw [k4, upd_same]
    · intro k' hk; simp only [Stack.view, viewOf]; rw [k4, upd_ne _ _ hk]

/-- an operation that creates outpoint `k` -/
def Op.adds (k : K) : Op K V → Prop
  | .add k' _ _ => k' = k
  | _ => False

theorem plain_stays_absent (k : K) (ops : List (Op K V)) : ∀ (n : Nat) (p : Plain K V) {p' : Plain K V} {rs},
    p.run n ops = some (p', rs) → p.utxo k = none → (∀ op ∈ ops, ¬ op.adds k) → p'.utxo k = none := by
  induction ops with
  | nil =>
    intro n p p' rs h hn _
    simp only [Plain.run, Option.some.injEq, Prod.mk.injEq] at h
    rw [← h.1]; exact hn
  | cons op ops ih =>
    intro n p p' rs h hn ha
    unfold Plain.run at h
    cases h1 : p.step n op with
    | none => rw [h1] at h; cases h
    | some q =>
      obtain ⟨p1, r⟩ := q
      rw [h1] at h
      simp only at h
      cases h2 : p1.run (depthAfter n op) ops with
      | none => rw [h2] at h; cases h
      | some q2 =>
        obtain ⟨p2, rs2⟩ := q2
        rw [h2] at h
        simp only [Option.some.injEq, Prod.mk.injEq] at h
        rw [← h.1]
        refine ih _ p1 h2 ?_ (fun o ho => ha o (by simp [ho]))
        have hop := ha op (by simp)
        cases op with
        | add k' v ow =>
          simp only [Plain.step] at h1
          split at h1
          · cases h1; exact hn
          · split at h1
            · cases h1
              simp only
              rw [if_neg (fun e => hop e.symm)]; exact hn
            · cases h1
        | spend k' =>
          simp only [Plain.step] at h1
          split at h1 <;> cases h1
          · exact hn
          · simp only; split
            · rfl
            · exact hn
        | touch k' => simp only [Plain.step] at h1; split at h1 <;> cases h1 <;> exact hn
        | uncache k' => simp only [Plain.step] at h1; cases h1; exact hn
        | setBest b => simp only [Plain.step] at h1; split at h1 <;> cases h1 <;> exact hn
        | push => simp only [Plain.step] at h1; cases h1; exact hn
        | flush => simp only [Plain.step] at h1; cases h1; exact hn

/-- Once spent, an outpoint stays absent, and every further spend of it fails, through any pushes and flushes, until
an operation adds it again. -/
theorem C17_no_double_spend (db : DB K V) (before after : List (Op K V)) (k : K) {p q : Plain K V}
    {rs rs2 : List (Option (Option V))}
    (hb : (Plain.mk (fun k => db.utxos.get k) db.best).run 0 before = some (p, rs))
    (ha : ∀ op ∈ after, ¬ op.adds k) :
    ∃ s1 r1, Stack.run ⟨[], db⟩ before = .ok (s1, r1) ∧
      (s1.layers ≠ [] → ∃ s2 r2, s1.step (.spend k) = .ok (s2, r2) ∧
        ((Plain.mk s2.view.utxo s2.view.best).run s2.layers.length after = some (q, rs2) →
          ∃ s3 r3, s2.run after = .ok (s3, r3) ∧ s3.view.utxo k = none ∧
            (s3.layers ≠ [] → ∃ s4 e, s3.step (.spend k) = .ok (s4, some (.error e))))) := by
  obtain ⟨s, rs', h1, -, h3, h4⟩ := run_spec before (s := ⟨[], db⟩) trivial ⟨rfl, rfl⟩ hb
  refine ⟨s, rs', h1, ?_⟩
  intro hne
  have hd : s.layers.length ≠ 0 := fun h => hne (List.length_eq_zero_iff.1 h)
  obtain ⟨s2, r2, g1, -, g3, g4, -⟩ := step_spec h3 h4 (.spend k)
    (p' := { p with utxo := fun k' => if k' = k then none else p.utxo k' }) (r := some (p.utxo k))
    (by simp only [Plain.step, if_neg hd])
  refine ⟨s2, r2, g1, ?_⟩
  intro hrun
  obtain ⟨s3, r3, m1, -, m3, m4⟩ := run_spec after g3 ⟨rfl, rfl⟩ hrun
  have habs : s2.view.utxo k = none := by
    rw [← g4.1]; simp
  have hq : q.utxo k = none := plain_stays_absent k after _ _ hrun habs ha
  have h5 : s3.view.utxo k = none := by rw [← m4.1]; exact hq
  refine ⟨s3, r3, m1, h5, ?_⟩
  intro hne3
  obtain ⟨layers, db3⟩ := s3
  cases layers with
  | nil => exact absurd rfl hne3
  | cons top rest =>
    obtain ⟨l', r', k1, k2, k3, k4, k5⟩ := spend_spec m3.1 k
    cases r' with
    | ok v => have := (k5 v).1 rfl; simp only [Stack.view, viewOf] at h5; rw [h5] at this; cases this
    | error e =>
      refine ⟨⟨l' :: rest, db3⟩, e, ?_⟩
      simp only [Stack.step]; rw [k1]; rfl

/-- non-vacuity: spend 1 in an upper cache, flush it, push, spend again -/
example : ∃ r, Stack.run ⟨[], exDB⟩
      [.push, .push, .spend 1, .flush, .push, .spend 1, .flush, .flush, .push, .spend 1] = .ok r ∧
    r.2.map (fun r => r.map Except.toOption)
        = [none, none, some (some 10), none, none, some none, none, none, none, some none] := by
  obtain ⟨r, h1, h2⟩ := okAnd_spec (x := Stack.run ⟨[], exDB⟩
      [.push, .push, .spend 1, .flush, .push, .spend 1, .flush, .flush, .push, .spend 1])
    (P := fun r => decide (r.2.map (fun r => r.map Except.toOption)
        = [none, none, some (some 10), none, none, some none, none, none, none, some none])) (by decide +kernel)
  exact ⟨r, h1, of_decide_eq_true h2⟩

/-- In an accepted list of transactions with fresh, distinct ids no outpoint is spent twice, every spent outpoint was
unspent before or created in the same list, and all of them are absent afterwards. -/
theorem C17_block_no_double_spend {parent : View OutPoint Coin} {source : Nat} {txs : List Tx}
    {l l1 : Layer OutPoint Coin} {us} (hi : LInv parent l) (hf : ∀ tx ∈ txs, TxFresh (l.view parent) tx.id)
    (hn : (txs.map Tx.id).Nodup) (h : connectTxs parent l source txs = .ok (l1, us)) :
    (spentBy txs).Nodup ∧
      (∀ k ∈ spentBy txs, (l.view parent).utxo k ≠ none ∨ ∃ tx ∈ txs, ∃ j, k = txOut tx.id j) ∧
      (∀ k ∈ spentBy txs, (l1.view parent).utxo k = none) :=
  connectTxs_nodup txs hi hf hn h

/-! ## C18 – disconnecting reverses connecting -/

/-- One transaction: after connecting it in a well-formed cache (`LInv`: holds for every cache reachable by the
operations, `C19_invariant`), disconnecting it with the returned undo data in any well-formed cache that shows the
same set (the same cache, or one made later after flushing) succeeds and every lookup is as before. -/
theorem C18_tx_roundtrip {parent parent2 : View OutPoint Coin} {l l1 c : Layer OutPoint Coin} {tx : Tx} {source : Nat}
    {us : List (Option Coin)} (hi : LInv parent l) (hf : TxFresh (l.view parent) tx.id)
    (h : connectTx parent l tx source = .ok (l1, us))
    (hc : LInv parent2 c) (hv : (c.view parent2).utxo = (l1.view parent).utxo) :
    ∃ c1, disconnectTx parent2 c tx us = .ok c1 ∧ ∀ k, (c1.view parent2).utxo k = (l.view parent).utxo k := by
  obtain ⟨c1, h1, -, -, h4⟩ := disconnectTx_spec hi hf h hc hv
  exact ⟨c1, h1, fun k => congrFun h4 k⟩

/-- A whole block: transactions in order and the reward; undone in reverse. -/
theorem C18_block_roundtrip {parent parent2 : View OutPoint Coin} {l l1 c : Layer OutPoint Coin} {b : Block} {u}
    (hi : LInv parent l) (hf : ∀ tx ∈ b.txs, TxFresh (l.view parent) tx.id) (hn : (b.txs.map Tx.id).Nodup)
    (hrf : RewardFresh (l.view parent) b.id) (hr : b.reward.utxoInputs)
    (h : connectBlock parent l b = .ok (l1, u))
    (hc : LInv parent2 c) (hv : (c.view parent2).utxo = (l1.view parent).utxo) :
    ∃ c1, disconnectBlock parent2 c b u = .ok c1 ∧ (∀ k, (c1.view parent2).utxo k = (l.view parent).utxo k) ∧
      c1.best = b.prev := by
  obtain ⟨-, -, -, h4⟩ := connectBlock_spec hi hf hn hrf hr h
  obtain ⟨c1, k1, -, k3⟩ := h4 hc hv
  refine ⟨c1, k1, fun k => by rw [k3], ?_⟩
  exact congrArg View.best k3

/-- A chain of blocks written to the database and then disconnected, last first, leaves exactly the database one
started with. -/
theorem C18_chain_roundtrip {db db' : DB OutPoint Coin} {bs : List Block} {us}
    (hf : ∀ b ∈ bs, ∀ tx ∈ b.txs, TxFresh db.view tx.id) (hn : (bs.flatMap fun b => b.txs.map Tx.id).Nodup)
    (hrf : ∀ b ∈ bs, RewardFresh db.view b.id) (hbn : (bs.map Block.id).Nodup) (hr : ∀ b ∈ bs, b.reward.utxoInputs)
    (hl : Linked db.best bs) (h : connectChain db bs = .ok (db', us)) :
    disconnectChain db' (bs.zip us) = .ok db :=
  connectChain_spec bs hf hn hrf hbn hr hl h

/-- genesis-like database: output 0 of transaction 100, unspent -/
def exChainDB : DB OutPoint Coin := ⟨BMap.ofList [(txOut 100 0, ⟨⟨true, 7⟩, 0⟩)], 50⟩

/-- block 1 spends it, spends an output created in the block, has an output not entering the set and an account input;
block 2 spends block 1's reward as its kernel -/
def exBlocks : List Block :=
  [⟨1, 50, 1, ⟨none, some [⟨true, 1⟩]⟩,
      [⟨10, [some (txOut 100 0), none], [⟨true, 3⟩, ⟨false, 4⟩, ⟨true, 5⟩]⟩, ⟨11, [some (txOut 10 2)], [⟨true, 6⟩]⟩]⟩,
   ⟨2, 1, 2, ⟨some [some (rewardOut 1 0)], some [⟨true, 8⟩]⟩, [⟨12, [some (txOut 11 0), some (txOut 10 0)], []⟩]⟩]

/-- non-vacuity: the chain connects -/
example : ∃ r, connectChain exChainDB exBlocks = .ok r ∧
    r.1.utxos.entries.map Prod.fst = [rewardOut 2 0] ∧ r.1.best = 2 := by
  obtain ⟨r, h1, h2⟩ := okAnd_spec (x := connectChain exChainDB exBlocks)
    (P := fun r => decide (r.1.utxos.entries.map Prod.fst = [rewardOut 2 0] ∧ r.1.best = 2)) (by decide +kernel)
  exact ⟨r, h1, of_decide_eq_true h2⟩

example : (∀ b ∈ exBlocks, b.reward.utxoInputs) ∧ Linked exChainDB.best exBlocks ∧
    (exBlocks.flatMap fun b => b.txs.map Tx.id).Nodup := by
  refine ⟨?_, ⟨rfl, rfl, trivial⟩, by decide +kernel⟩
  intro b hb is his
  simp only [exBlocks, List.mem_cons, List.not_mem_nil, or_false] at hb
  rcases hb with rfl | rfl
  · cases his
  · cases his; simp

/-- Finding: a reward whose inputs are given but contain no UTXO connects and cannot be disconnected. -/
theorem C18_reward_without_utxo_inputs :
    ∃ r, connectReward exChainDB.view (Layer.new exChainDB.view) ⟨some [], none⟩ 1 1 = .ok r ∧
      (disconnectReward exChainDB.view r.1 ⟨some [], none⟩ 1 r.2).isOk = false := by
  refine ⟨_, rfl, ?_⟩
  decide +kernel

/-- Finding: a reward with a non-UTXO input before a UTXO input is not restored by disconnecting (the undo list is
shorter than the list it is paired with). -/
theorem C18_reward_misaligned :
    ∃ r l2, connectReward exChainDB.view (Layer.new exChainDB.view) ⟨some [none, some (txOut 100 0)], none⟩ 1 1 = .ok r ∧
      disconnectReward exChainDB.view r.1 ⟨some [none, some (txOut 100 0)], none⟩ 1 r.2 = .ok l2 ∧
      (l2.view exChainDB.view).utxo (txOut 100 0) = none ∧ exChainDB.view.utxo (txOut 100 0) ≠ none := by
  obtain ⟨r, h1, h2⟩ := okAnd_spec
    (x := connectReward exChainDB.view (Layer.new exChainDB.view) ⟨some [none, some (txOut 100 0)], none⟩ 1 1)
    (P := fun r => okAnd (disconnectReward exChainDB.view r.1 ⟨some [none, some (txOut 100 0)], none⟩ 1 r.2)
      fun l2 => decide ((l2.view exChainDB.view).utxo (txOut 100 0) = none)) (by decide +kernel)
  obtain ⟨l2, h3, h4⟩ := okAnd_spec h2
  exact ⟨r, l2, h1, h3, of_decide_eq_true h4, by decide +kernel⟩

/-! ## C19 – forbidden entry states are never reached -/

/-- Under uniqueness of outpoints no operation sequence fails or trips an assertion (`Err.panicked`): running it
returns a state, and every entry of every cache is in a state the assertions allow. -/
theorem C19_never_panics (db : DB K V) (ops : List (Op K V)) {p : Plain K V} {rs : List (Option (Option V))}
    (h : (Plain.mk (fun k => db.utxos.get k) db.best).run 0 ops = some (p, rs)) :
    ∃ s rs', Stack.run ⟨[], db⟩ ops = .ok (s, rs') ∧
      ∀ l ∈ s.layers, ∀ k e, l.utxos.get k = some e →
        (e.utxo ≠ none → e.fresh = true → e.dirty = true) ∧ (e.utxo = none → e.fresh ≠ e.dirty) := by
  obtain ⟨s, rs', h1, -, h3, -⟩ := run_spec ops (s := ⟨[], db⟩) trivial ⟨rfl, rfl⟩ h
  refine ⟨s, rs', h1, ?_⟩
  obtain ⟨layers, db0⟩ := s
  simp only at h3 ⊢
  induction layers with
  | nil => intro l hl; cases hl
  | cons top rest ih =>
    have hrest : ∀ l ∈ rest, ∀ k e, l.utxos.get k = some e →
        (e.utxo ≠ none → e.fresh = true → e.dirty = true) ∧ (e.utxo = none → e.fresh ≠ e.dirty) := by
      have : ∀ (ls : List (Layer K V)), SInv db0 ls → ∀ l ∈ ls, ∀ k e, l.utxos.get k = some e →
          (e.utxo ≠ none → e.fresh = true → e.dirty = true) ∧ (e.utxo = none → e.fresh ≠ e.dirty) := by
        intro ls
        induction ls with
        | nil => intro _ l hl; cases hl
        | cons t r ih2 =>
          intro hs l hl k e he
          rcases List.mem_cons.1 hl with rfl | hl
          · obtain ⟨hv, -⟩ := hs.1 k e he
            obtain ⟨u, f, d⟩ := e
            cases u <;> cases f <;> cases d <;> simp_all [Entry.valid]
          · exact ih2 hs.2 l hl k e he
      exact this rest h3.2
    intro l hl k e he
    rcases List.mem_cons.1 hl with rfl | hl
    · obtain ⟨hv, -⟩ := h3.1 k e he
      obtain ⟨u, f, d⟩ := e
      cases u <;> cases f <;> cases d <;> simp_all [Entry.valid]
    · exact hrest l hl k e he

/-- Every cache reachable by the operations is well-formed relative to what is below it: a fresh entry hides nothing,
a clean entry equals what is below. -/
theorem C19_invariant (db : DB K V) (ops : List (Op K V)) {p : Plain K V} {rs : List (Option (Option V))}
    (h : (Plain.mk (fun k => db.utxos.get k) db.best).run 0 ops = some (p, rs)) :
    ∃ s rs', Stack.run ⟨[], db⟩ ops = .ok (s, rs') ∧
      ∀ top rest, s.layers = top :: rest → LInv (viewOf s.db rest) top := by
  obtain ⟨s, rs', h1, -, h3, -⟩ := run_spec ops (s := ⟨[], db⟩) trivial ⟨rfl, rfl⟩ h
  refine ⟨s, rs', h1, ?_⟩
  intro top rest hl
  rw [hl] at h3
  exact h3.1

/-- Connecting and disconnecting keep the cache well-formed. -/
theorem C19_connect_invariant {parent : View OutPoint Coin} {l l1 : Layer OutPoint Coin} {b : Block} {u}
    (hi : LInv parent l) (hf : ∀ tx ∈ b.txs, TxFresh (l.view parent) tx.id) (hn : (b.txs.map Tx.id).Nodup)
    (hrf : RewardFresh (l.view parent) b.id) (hr : b.reward.utxoInputs)
    (h : connectBlock parent l b = .ok (l1, u)) : LInv parent l1 :=
  (connectBlock_spec hi hf hn hrf hr h).1

/-- Finding: without uniqueness the cache's own error or a wrong set is reached: an outpoint added fresh above a cache
that already has it makes the flush fail. -/
theorem C19_uniqueness_needed :
    (Stack.run ⟨[], exDB⟩ [.push, .touch 1, .push, .add 1 99 false, .flush]).isOk = false := by decide +kernel

end Verif.Utxo
