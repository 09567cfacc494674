import Verif.TxPool.Props

/-!
# C73 on a concrete pool
-/

set_option maxRecDepth 100000

namespace Verif.TxPool.Ex

open Verif.Mempool

def env : Env := ⟨fun s => 10 * (inOrder s).length, 100, 1000, 25, 100000⟩

/-- a chain with one transaction that has two unspent outputs -/
def L0 : Ledger := fun c => if c = .known 1 ∨ c = .out 1 0 ∨ c = .out 1 1 then 1 else 0

def tip0 : Tip := ⟨L0, fun _ => true⟩

theorem outKnown0 : OutKnown L0 := by
  intro u n h
  by_cases hu : u = 1
  · subst hu; simp [L0]
  · exfalso; apply h; simp [L0, hu]

/-- creates the stake pool 50 -/
def t2 : Tx := ⟨2, 10, 100, 5, [.utxo (some 1) 0], [.other, .createPool 50], none, none, none⟩
/-- spends from it and creates the delegation 60 in the pool -/
def t3 : Tx := ⟨3, 10, 100, 6, [.utxo (some 2) 0], [.createDelegation 50, .other], none, some 60, none⟩
/-- withdraws from the delegation -/
def t4 : Tx := ⟨4, 10, 100, 7, [.delegation 60 0], [.other], none, none, none⟩
def t4' : Tx := ⟨14, 10, 100, 7, [.delegation 60 1], [.other], none, none, none⟩
def t5 : Tx := ⟨5, 10, 100, 8, [.utxo (some 1) 1], [.other], none, none, none⟩
/-- spends the same output -/
def t6 : Tx := ⟨6, 10, 100, 9, [.utxo (some 1) 1], [.other], none, none, none⟩
def t7 : Tx := ⟨7, 10, 100, 9, [.utxo (some 5) 0], [.other], none, none, none⟩

def all : List Tx := [t2, t3, t4, t4', t5, t7]

def fill : List Event := all.map (fun t => .submit 10 (fun _ => true) t)

/-- the ids in the pool after events -/
def idsAfter (es : List Event) : Option (List Nat) :=
  (es.foldlM (event env) (fresh env tip0 100)).toOption.map (fun p => (inOrder p.store).map Tx.id)

/-- the tip after a block with `t2` and `t6` -/
def tip1 : Tip := ⟨(connectAll tip0 [t2, t6] L0).getD L0, fun _ => true⟩

theorem outKnown1 : OutKnown tip1.ledger := by
  have h : (connectAll tip0 [t2, t6] L0).isSome = true := by decide +kernel
  obtain ⟨L, hL⟩ := Option.isSome_iff_exists.1 h
  unfold tip1
  rw [hL]
  exact (connectAll_eq.1 hL).2.outKnown outKnown0

-- all are taken in; the second spender of an output and the second use of a nonce are not
example : idsAfter fill = some [2, 3, 4, 14, 5, 7] := by decide +kernel
example : idsAfter (fill ++ [.submit 11 (fun _ => true) t6, .submit 11 (fun _ => true) { t4 with id := 99 }]) =
    some [2, 3, 4, 14, 5, 7] := by decide +kernel
-- a block with the first transaction and a rival of the fifth: the fifth and its child go, the others stay
example : idsAfter (fill ++ [.newTip 12 (fun _ => true) tip1 [[t2, t6]] []]) = some [3, 4, 14] := by decide +kernel
-- and back: the transactions of the block return, before the others
example : idsAfter (fill ++ [.newTip 12 (fun _ => true) tip1 [[t2, t6]] [],
    .newTip 13 (fun _ => true) tip0 [] [[t2, t6]]]) = some [2, 6, 3, 4, 14] := by decide +kernel
-- less room: the pool shrinks by whole families
example : idsAfter (fill ++ [.setLimit 45]) = some [5, 7] := by decide +kernel
-- old transactions go with their descendants when something is added
example : idsAfter (fill ++ [.submit 106 (fun _ => true) { t6 with id := 8, inputs := [.utxo (some 4) 0], time := 106 }]) =
    some [5, 7] := by decide +kernel
-- the refused ones have no effect on a selection: a part without the first transaction does not connect
example : (connectAll tip0 [t2, t3, t5, t7] L0).isSome = true ∧ (connectAll tip0 [t3, t5] L0).isSome = false := by
  decide +kernel

/-- the pool after `fill` -/
theorem filled : ∃ p, Reachable env p ∧ inOrder p.store = all ∧ p.tip = tip0 ∧ p.limit = 100 := by
  have hev : (fill.foldlM (event env) (fresh env tip0 100)).toOption.map (fun p => (inOrder p.store, p.limit)) =
      some (all, 100) := by decide +kernel
  obtain ⟨p, h1, h2, -⟩ := C73_connects env tip0 100 outKnown0 fill (by
    intro e he
    obtain ⟨t, -, rfl⟩ := List.mem_map.1 he
    trivial)
  rw [h1] at hev
  simp only [Except.toOption, Option.map_some, Option.some.injEq, Prod.mk.injEq] at hev
  refine ⟨p, ⟨tip0, 100, fill, outKnown0, ?_, h1⟩, hev.1, ?_, hev.2⟩
  · intro e he
    obtain ⟨t, -, rfl⟩ := List.mem_map.1 he
    trivial
  · rw [h2]; rfl

theorem roomy : Roomy env 12 (fun _ => true) 100 all := by
  refine ⟨by decide +kernel, by decide +kernel, by decide +kernel, by decide +kernel, by decide +kernel, ?_⟩
  intro s hs
  have := hs.length_le
  simp only [env]
  have h6 : all.length = 6 := rfl
  omega

/-- all the hypotheses of `C73_reorg_keeps` hold for the block with the rival -/
example : ∃ p, Reachable env p ∧ inOrder p.store = all ∧
    (∃ ok, connectAll ⟨L0, ok⟩ ([] : List (List Tx)).reverse.flatten L0 = some p.tip.ledger) ∧
    (∃ ok, connectAll ⟨L0, ok⟩ [[t2, t6]].reverse.flatten L0 = some tip1.ledger) ∧
    (∀ t ∈ concerned 12 [] p, ∀ u ∈ [[t2, t6]].flatten, t.id = u.id → SameBody t u) ∧
    Roomy env 12 (fun _ => true) p.limit (concerned 12 [] p) := by
  obtain ⟨p, h1, h2, h3, h4⟩ := filled
  have hcon : concerned 12 [] p = all := by unfold concerned; rw [h2]; rfl
  refine ⟨p, h1, h2, ⟨fun _ => true, by rw [h3]; rfl⟩, ⟨fun _ => true, ?_⟩, ?_, ?_⟩
  · have h : (connectAll tip0 [t2, t6] L0).isSome = true := by decide +kernel
    obtain ⟨L, hL⟩ := Option.isSome_iff_exists.1 h
    show connectAll tip0 [t2, t6] L0 = some ((connectAll tip0 [t2, t6] L0).getD L0)
    rw [hL]; rfl
  · rw [hcon]; unfold SameBody; decide +kernel
  · rw [hcon, h4]; exact roomy

-- the fifth clashes with the rival, the last one depends on it
example : Clash t5 t6 ∧ DependsOn t5 t7 ∧ Doomed (fun _ => true) all [t2, t6] t7 := by
  have h1 : Clash t5 t6 := .inl ⟨.txOutput 1 1, by decide +kernel, by decide +kernel⟩
  have h2 : DependsOn t5 t7 := .inl (by decide +kernel)
  exact ⟨h1, h2, .parent (a := t5) (by decide +kernel) (by decide +kernel) h2
    (.clash (u := t6) (by decide +kernel) (by decide +kernel) h1)⟩

end Verif.TxPool.Ex
