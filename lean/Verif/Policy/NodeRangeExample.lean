import Verif.Policy.NodeRange
import Verif.Policy.NodeExample

set_option maxRecDepth 100000

/-!
# C57 on the chain of C55
-/

namespace Verif.Policy
open Verif
open Verif.Codec
open Verif.Verifier (Src Effect Out Tx Block Views Env Ledger)

theorem nd_stakers : Node.Stakers ndNode ndGenesis ndTxs.flatten where
  tables := by
    refine ⟨fun _ _ => rfl, fun _ _ => rfl, ?_⟩
    intro p x h
    simp [ndGenesis, Verifier.exGenesis] at h
  delegations _ := rfl
  pools _ _ _ _ := rfl

theorem nd_fine : Node.Fine ndNode ndGenesis ndChain ndTxs where
  written := nd_written
  noClash := nd_noClash
  ids := by decide +kernel
  linked := ⟨rfl, rfl, rfl, rfl, trivial⟩
  stakers := nd_stakers
  coins := by
    have e2 : (ndChain.map fun b => (ndNode.subsidy b.height : Int)).sum = 210 := by decide +kernel
    have e3 : ndGenesis.holds ndNode.read 0 = 40000 := by decide +kernel
    unfold Verifier.Affordable
    rw [e2, e3]
    norm_num

example : (ndChain.flatMap Block.newPools).length = 1 := by decide +kernel

example : ∃ l', ndGenesis.connects ndEnv ndChain = .ok l' ∧ Verifier.ChainInRange ndEnv ndGenesis ndChain ∧
    l'.disconnects ndChain.reverse = .ok ndGenesis := by
  cases h : ndGenesis.connects ndEnv ndChain with
  | error e =>
    have : (ndGenesis.connects ndEnv ndChain).toOption.isSome = true := by decide +kernel
    rw [h] at this; simp [Except.toOption] at this
  | ok l' =>
    exact ⟨l', rfl, (Node.C57_node_in_range nd_enforces ndGenesis_wf nd_origin nd_fine h).1,
      (Node.C57_node_rollback nd_enforces ndGenesis_wf nd_origin nd_fine h).1⟩

end Verif.Policy
