import Verif.Epoch.Lemmas

/-!
# C60: the sealed staking state
-/

set_option maxRecDepth 100000

namespace Verif.Epoch
open Verif Verif.Pos Verif.Accounting
open Verif.Stake (Net)

variable {n : Net} {g : DB} {c : List DB} {st : Store}

/-- **C60 (sealed).**  Whatever blocks were connected and disconnected before: the sealed staking state is exactly the one after the last block of an epoch of the present chain,
namely of the latest epoch such that the epoch `sealDistance` later is over too; it is the one of the genesis while there is none. -/
theorem C60_sealed (hL : 0 < n.epochLength) (hg : Sound g) (h : Reach n g c st) :
    (∃ e, Ended n (e + n.sealDistance) (c.length - 1) ∧ ¬ Ended n (e + 1 + n.sealDistance) (c.length - 1) ∧ c[lastOf n e]? = some st.sealed) ∨
    ((∀ e, ¬ Ended n (e + n.sealDistance) (c.length - 1)) ∧ st.sealed = g) := by
  have hI := reach_inv hL hg h
  have hc0 : c[0]? = some g := by
    clear hI
    induction h with
    | genesis => rfl
    | connect h _ _ ih => exact get_append ih
    | @disconnect chain t st st' d h _ _ hl ih =>
      cases chain with
      | nil => simp at hl
      | cons x l => simpa using ih
  have hne := hI.ne
  have hs := hI.sealed
  obtain ⟨b1, b2⟩ := epoch_bounds (h := c.length) hL
  simp only [Ended, lastOf, Nat.sub_add_cancel hne]
  have hended : ∀ e, (e + n.sealDistance + 1) * n.epochLength ≤ c.length ↔ e + n.sealDistance + 1 ≤ c.length / n.epochLength := fun e =>
    (Nat.le_div_iff_mul_le hL).symm
  rcases Nat.eq_zero_or_pos (c.length / n.epochLength - n.sealDistance) with h0 | hp
  · right
    refine ⟨fun e => ?_, ?_⟩
    · rw [hended]; omega
    · rw [h0, Nat.zero_mul] at hs
      rw [hc0] at hs
      exact (Option.some.inj hs).symm
  · left
    refine ⟨c.length / n.epochLength - n.sealDistance - 1, ?_, ?_, ?_⟩
    · rw [hended]; omega
    · rw [show c.length / n.epochLength - n.sealDistance - 1 + 1 + n.sealDistance + 1 = (c.length / n.epochLength - n.sealDistance) + n.sealDistance + 1 by omega, hended]; omega
    · rw [show c.length / n.epochLength - n.sealDistance - 1 + 1 = c.length / n.epochLength - n.sealDistance by omega]
      exact hs

/-- **C60 (agreement).**  Two nodes on the same chain have the same sealed state, however they came there. -/
theorem C60_agree {st1 st2 : Store} (hL : 0 < n.epochLength) (hg : Sound g) (h1 : Reach n g c st1) (h2 : Reach n g c st2) :
    st1.sealed = st2.sealed ∧ st1.tip = st2.tip := by
  have a := reach_inv hL hg h1
  have b := reach_inv hL hg h2
  exact ⟨Option.some.inj (a.sealed.symm.trans b.sealed), Option.some.inj (a.tip.symm.trans b.tip)⟩

/-- **C60 (connecting).**  Keeping the deltas and sealing never stops a node: if the changes of a block apply to the staking state of the tip, the block is connected. -/
theorem C60_connect (hL : 0 < n.epochLength) (hg : Sound g) (h : Reach n g c st) {d : Option Delta} (hd : CleanOpt d) {t' : DB} {u : Delta}
    (hm : st.tip.mergeWithDelta (d.getD Delta.empty) = .ok (t', u)) : ∃ st', connect n st c.length d = .ok st' ∧ st'.tip = t' := by
  obtain ⟨st', h1, h2, -⟩ := inv_connect hL (reach_inv hL hg h) hd hm
  exact ⟨st', h1, h2⟩

/-- **C60 (disconnecting).**  Nor does rolling back: if the changes that undo the last block apply to the staking state of the tip, the block is disconnected. -/
theorem C60_disconnect {t t' : DB} (hL : 0 < n.epochLength) (hg : Sound g) (h : Reach n g (c ++ [t]) st) {d : Option Delta} (hd : CleanOpt d) {u : Delta}
    (hc : c.getLast? = some t') (hm : st.tip.mergeWithDelta (d.getD Delta.empty) = .ok (t', u)) : ∃ st', disconnect n st c.length d = .ok st' ∧ st'.tip = t' := by
  obtain ⟨st', h1, h2, -⟩ := inv_disconnect hL (reach_inv hL hg h) hd hc hm
  exact ⟨st', h1, h2⟩

/-- one thing that happens to the changes of a block: an operation, or the undo of one -/
inductive Change
  | perform (op : Op)
  | revert (u : Undo)

def change (c : Cache) : Change → Except Pos.Err Cache
  | .perform op => do
    let (c', _) ← step c op
    pure c'
  | .revert u => undo c u

/-- **C60 (clean).**  The changes made by any operations and undos are clean, so that the theorems above apply to them. -/
theorem C60_clean {v : View} (l : List Change) {k : Cache} (h : l.foldlM change (Cache.new v) = .ok k) : Clean k.delta := by
  have key : ∀ (l : List Change) (a b : Cache), Pos.Inv a → l.foldlM change a = .ok b → Pos.Inv b := by
    intro l
    induction l with
    | nil => intro a b ha hb; cases hb; exact ha
    | cons x l ih =>
      intro a b ha hb
      rw [List.foldlM_cons, bind_eq_ok] at hb
      obtain ⟨m, hm, hb⟩ := hb
      refine ih m b ?_ hb
      cases x with
      | perform op =>
        simp only [change, bind_eq_ok, pure_eq_ok, Prod.exists] at hm
        obtain ⟨c', u, h1, rfl⟩ := hm
        exact step_inv ha h1
      | revert u => exact undo_inv ha hm
  obtain ⟨h1, h2, h3⟩ := key l _ _ (new_inv v) h
  exact ⟨fun k hk => (h1 k 0 hk).1 rfl, fun k hk => (h2 k 0 hk).1 rfl, fun k hk => (h3 k 0 hk).1 rfl⟩

end Verif.Epoch
