import Verif.Chainstate.Props
import Verif.Verifier.Props

/-!
# The chain state of the transaction verifier under block processing

The abstract chain state of the block processing model filled in with the stored state of the transaction verifier model.
-/

set_option maxRecDepth 100000

namespace Verif.Chainstate
open Verif BlockTree Spec
open Verif.Verifier (Ledger NewChain ChainInRange)

/-- block processing on top of the transaction verifier: `connect_tip` and `disconnect_tip` run it on the block and store its changes –
chainstateref/mod.rs 1264-1306, 1367-1403 -/
def ledgerEnv (venv : Verifier.Env) (c : Cfg) (maxDepth : Nat) (l0 : Ledger) (blk : Nat → Verifier.Block) : Env Ledger where
  tree := c
  maxDepth := maxDepth
  genesis := l0
  connect := fun l id => (l.connect venv (blk id)).toOption
  disconnect := fun l id => (l.disconnect (blk id)).toOption

namespace Spec

/-- the blocks after genesis on the way to a block -/
inductive Way (c : Cfg) : Nat → List Nat → Prop
  | genesis : Way c c.genesisId []
  | block {id p} : id ≠ c.genesisId → Way c (c.body id).prev p → Way c id (p ++ [id])

/-- the blocks of every chain that can be connected are new to the chain below them and keep all balances in range (see C49) -/
def FreshChains (venv : Verifier.Env) (c : Cfg) (l0 : Ledger) (blk : Nat → Verifier.Block) : Prop :=
  ∀ id p l l', id ≠ c.genesisId → Way c (c.body id).prev p → l0.connects venv (p.map blk) = .ok l → l.connect venv (blk id) = .ok l' →
    NewChain l0 ((p ++ [id]).map blk) ∧ ChainInRange venv l0 ((p ++ [id]).map blk)

end Spec

variable {venv : Verifier.Env} {c : Cfg} {d : Nat} {l0 : Ledger} {blk : Nat → Verifier.Block}

theorem toOption_some {ε α} {x : Except ε α} {a} : x.toOption = some a ↔ x = .ok a := by
  cases x <;> simp [Except.toOption]

theorem led_path {id l} (h : Led (ledgerEnv venv c d l0 blk) id l) : ∃ p, Way c id p ∧ l0.connects venv (p.map blk) = .ok l := by
  induction h with
  | genesis => exact ⟨[], .genesis, rfl⟩
  | block hn _ hc ih =>
    obtain ⟨p, hp, hl⟩ := ih
    refine ⟨_, .block hn hp, ?_⟩
    rw [List.map_append, List.map_singleton, Verifier.connects_snoc]
    exact ⟨_, hl, toOption_some.1 hc⟩

/-- with the transaction verifier, disconnecting a block restores the chain state (from C49) -/
theorem C36_verifier_undoes (hw : l0.WF) (hf : FreshChains venv c l0 blk) : Undoes (ledgerEnv venv c d l0 blk) := by
  intro id l l' hn hl hc
  obtain ⟨p, hp, hlp⟩ := led_path hl
  have hc' := toOption_some.1 hc
  obtain ⟨h1, h2⟩ := hf id p l l' hn hp hlp hc'
  rw [List.map_append, List.map_singleton] at h1 h2
  exact toOption_some.2 (Verifier.disconnect_tip hw h1 h2 hlp hc')

/-- so after any history of processed, invalidated and reset blocks the stored state – coins, pools, delegations, tokens, orders, nonces and undo data –
is exactly the one obtained by connecting the blocks of the main chain in order to the genesis state -/
theorem C36_stored_state (hw : l0.WF) (hf : FreshChains venv c l0 blk) {s : Db Ledger} (h : Reach (ledgerEnv venv c d l0 blk) s) :
    ∃ p, Way c s.best p ∧ l0.connects venv (p.map blk) = .ok s.ledger :=
  led_path (C36_chain_state (C36_verifier_undoes hw hf) h)

/-! ### the example chain of C49 as a tree of two blocks -/

/-- blocks 101 and 102 of the example of C49 -/
def twoBlocks : Cfg where
  genesisId := 0
  genesisTime := 0
  body := fun id => if id = 101 then ⟨0, 1, 3, 1⟩ else if id = 102 then ⟨101, 2, 5, 1⟩ else ⟨999, 0, 0, 0⟩

/-- their contents -/
def twoBodies (id : Nat) : Verifier.Block := if id = 101 then Verifier.exBlock1 else Verifier.exBlock2

theorem twoBlocks_path {id p} (h : Way twoBlocks id p) : id = 0 ∧ p = [] ∨ id = 101 ∧ p = [101] ∨ id = 102 ∧ p = [101, 102] := by
  induction h with
  | genesis => exact .inl ⟨rfl, rfl⟩
  | block hn _ ih =>
    rename_i id p _
    by_cases h1 : id = 101
    · subst h1
      rcases ih with ⟨h, rfl⟩ | ⟨h, _⟩ | ⟨h, _⟩
      · exact .inr (.inl ⟨rfl, rfl⟩)
      · simp [twoBlocks] at h
      · simp [twoBlocks] at h
    · by_cases h2 : id = 102
      · subst h2
        rcases ih with ⟨h, _⟩ | ⟨h, rfl⟩ | ⟨h, _⟩
        · simp [twoBlocks] at h
        · exact .inr (.inr ⟨rfl, rfl⟩)
        · simp [twoBlocks] at h
      · exfalso
        rcases ih with ⟨h, _⟩ | ⟨h, _⟩ | ⟨h, _⟩ <;> simp [twoBlocks, h1, h2] at h

theorem twoBlocks_fresh : FreshChains Verifier.exEnv twoBlocks Verifier.exGenesis twoBodies := by
  intro id p l l' hn hp _ _
  have h2 : ([101, 102] : List Nat).map twoBodies = Verifier.exChain := rfl
  rcases twoBlocks_path (.block hn hp) with ⟨_, h⟩ | ⟨_, h⟩ | ⟨_, h⟩
  · simp at h
  · rw [h]
    exact ⟨Verifier.NewChain.init (cs := [Verifier.exBlock2]) Verifier.exChain_new,
      Verifier.ChainInRange.init (cs := [Verifier.exBlock2]) Verifier.exChain_inRange⟩
  · rw [h, h2]
    exact ⟨Verifier.exChain_new, Verifier.exChain_inRange⟩

/-- the node on these blocks -/
abbrev twoEnv : Env Ledger := ledgerEnv Verifier.exEnv twoBlocks 1000 Verifier.exGenesis twoBodies

example : Undoes twoEnv := C36_verifier_undoes Verifier.exGenesis_wf twoBlocks_fresh

/-- the node after some calls -/
def twoRun (ops : List Op) : Db Ledger := ops.foldl (step twoEnv) (Db.init twoEnv)

/-- both blocks connected, then the second one invalidated and reset -/
example : let s := twoRun [.process 101 {}, .process 102 {}]
    s.best = 102 ∧ s.ledger.pos.delegationBalances.get 8 = some 55 ∧ s.ledger.utxo.best = 102 := by decide +kernel
example : let s := twoRun [.process 101 {}, .process 102 {}, .invalidate 102 {}]
    s.best = 101 ∧ s.ledger.pos.delegationBalances.get 8 = none ∧ s.ledger.utxo.best = 101 := by decide +kernel
example : Reach twoEnv (twoRun [.process 101 {}, .process 102 {}, .invalidate 102 {}]) := by
  refine Later.step (.invalidate 102 {}) ?_ trivial trivial
  refine Later.step (.process 102 {}) ?_ trivial (by simp [Proper, ledgerEnv, twoBlocks])
  exact Later.step (.process 101 {}) .refl trivial (by simp [Proper, ledgerEnv, twoBlocks])

end Verif.Chainstate
