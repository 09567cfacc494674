import Verif.Script.Spec

namespace Verif.Script

variable {L E : Type}

theorem sats_le_length : ∀ c : Conds L, c.sats.length ≤ c.length
  | .nil => le_refl _
  | .sat _ r => by simp only [Conds.sats, Conds.length, List.length_cons]; have := sats_le_length r; omega
  | .dissat r => by simp only [Conds.sats, Conds.length]; have := sats_le_length r; omega

theorem collectLoop_eq : ∀ (c : Conds L) (ls ld : Nat) (acc : List (Scr L)), ls + ld = c.length →
    collectLoop (E := E) ls ld acc c =
      if c.sats.length = ls then .ok (acc ++ c.sats)
      else if ls < c.sats.length then .error (.err (.threshold .excessive))
      else .error (.err (.threshold .insufficient))
  | .nil, ls, ld, acc, h => by
      simp only [Conds.length] at h
      have h1 : ls = 0 := by omega
      have h2 : ld = 0 := by omega
      subst h1 h2
      simp [collectLoop, Conds.sats]
  | .sat s r, ls, ld, acc, h => by
      simp only [Conds.length] at h
      have hr := sats_le_length r
      simp only [collectLoop, Conds.sats, List.length_cons]
      by_cases h0 : ls = 0
      · subst h0; simp
      · rw [if_neg h0, collectLoop_eq r (ls - 1) ld _ (by omega)]
        by_cases h1 : r.sats.length = ls - 1
        · have h1' : r.sats.length + 1 = ls := by omega
          rw [if_pos h1]; simp [h1']
        · have h1' : ¬ r.sats.length + 1 = ls := by omega
          rw [if_neg h1]
          by_cases h2 : ls - 1 < r.sats.length
          · have h2' : ls < r.sats.length + 1 := by omega
            rw [if_pos h2]; simp [h1', h2']
          · have h2' : ¬ ls < r.sats.length + 1 := by omega
            rw [if_neg h2]; simp [h1', h2']
  | .dissat r, ls, ld, acc, h => by
      simp only [Conds.length] at h
      have hr := sats_le_length r
      simp only [collectLoop, Conds.sats]
      by_cases h0 : ld = 0
      · have h1 : ¬ r.sats.length = ls := by omega
        have h2 : ¬ ls < r.sats.length := by omega
        rw [if_pos h0]; simp [h1, h2]
      · rw [if_neg h0, collectLoop_eq r ls (ld - 1) _ (by omega)]; rfl

theorem collectSatisfied_eq (n : Nat) (c : Conds L) (h : n ≤ c.length) :
    collectSatisfied (E := E) n c =
      if c.sats.length = n then .ok c.sats
      else if n < c.sats.length then .error (.err (.threshold .excessive))
      else .error (.err (.threshold .insufficient)) := by
  simp only [collectSatisfied]
  rw [if_neg (by omega), collectLoop_eq _ _ _ _ (by omega), List.nil_append]

/-- Total size of a stack. -/
def stackSize (st : List (Scr L)) : Nat := (st.map Scr.size).sum

theorem stackSize_append (a b : List (Scr L)) : stackSize (a ++ b) = stackSize a + stackSize b := by
  simp [stackSize]

theorem sats_size : ∀ c : Conds L, stackSize c.sats = c.size
  | .nil => rfl
  | .sat s r => by
      have := sats_size r
      simp only [stackSize] at this ⊢
      simp [Conds.sats, Conds.size, this]
  | .dissat r => by simpa [Conds.sats, Conds.size] using sats_size r

theorem size_pos : ∀ s : Scr L, 0 < s.size
  | .leaf _ => by simp [Scr.size]
  | .threshold _ c => by simp [Scr.size]

/-- The loop never runs out of fuel. -/
theorem verifyLoop_fuel (v : L → Except (Err E) Unit) : ∀ (n : Nat) (st : List (Scr L)),
    stackSize st ≤ n → verifyLoop v n st ≠ none
  | 0, [], _ => by simp [verifyLoop]
  | _ + 1, [], _ => by simp [verifyLoop]
  | 0, s :: st, h => by
      have := size_pos s
      simp [stackSize] at h
      omega
  | n + 1, .leaf l :: st, h => by
      simp only [verifyLoop]
      split
      · exact verifyLoop_fuel v n st (by simp [stackSize, Scr.size] at h ⊢; omega)
      · simp
      · simp
  | n + 1, .threshold m c :: st, h => by
      simp only [verifyLoop]
      split
      · rename_i ss hs
        refine verifyLoop_fuel v n (ss ++ st) ?_
        by_cases hm : c.length < m
        · simp [collectSatisfied, hm] at hs
        · rw [collectSatisfied_eq _ _ (by omega)] at hs
          split at hs
          · injection hs with hs; subst hs
            rw [stackSize_append, sats_size]
            simp [stackSize, Scr.size] at h ⊢; omega
          · split at hs <;> exact absurd hs (by simp)
      · simp

theorem allHold_iff (v : L → Except (Err E) Unit) : ∀ c : Conds L,
    c.AllHold v ↔ ∀ s ∈ c.sats, s.Holds v
  | .nil => by simp [Conds.AllHold, Conds.sats]
  | .sat s r => by simp [Conds.AllHold, Conds.sats, allHold_iff v r]
  | .dissat r => by simp [Conds.AllHold, Conds.sats, allHold_iff v r]

theorem condsWF_iff : ∀ c : Conds L, c.WF ↔ ∀ s ∈ c.sats, s.WF
  | .nil => by simp [Conds.WF, Conds.sats]
  | .sat s r => by simp [Conds.WF, Conds.sats, condsWF_iff r]
  | .dissat r => by simp [Conds.WF, Conds.sats, condsWF_iff r]

theorem condsBalanced_iff : ∀ c : Conds L, c.Balanced ↔ ∀ s ∈ c.sats, s.Balanced
  | .nil => by simp [Conds.Balanced, Conds.sats]
  | .sat s r => by simp [Conds.Balanced, Conds.sats, condsBalanced_iff r]
  | .dissat r => by simp [Conds.Balanced, Conds.sats, condsBalanced_iff r]

theorem condsLeaves_eq : ∀ c : Conds L, c.leaves = c.sats.flatMap Scr.leaves
  | .nil => by simp [Conds.leaves, Conds.sats]
  | .sat s r => by simp [Conds.leaves, Conds.sats, condsLeaves_eq r]
  | .dissat r => by simp [Conds.leaves, Conds.sats, condsLeaves_eq r]

theorem verifyLoop_ok_iff (v : L → Except (Err E) Unit) : ∀ (n : Nat) (st : List (Scr L)),
    stackSize st ≤ n → (∀ s ∈ st, s.WF) →
    (verifyLoop v n st = some (.ok ()) ↔ ∀ s ∈ st, s.Holds v)
  | 0, [], _, _ => by simp [verifyLoop]
  | _ + 1, [], _, _ => by simp [verifyLoop]
  | 0, s :: st, h, _ => by
      have := size_pos s
      simp [stackSize] at h
      omega
  | n + 1, .leaf l :: st, h, hw => by
      have ih := verifyLoop_ok_iff v n st (by simp [stackSize, Scr.size] at h ⊢; omega)
        (fun s hs => hw s (List.mem_cons_of_mem _ hs))
      simp only [verifyLoop, List.mem_cons, forall_eq_or_imp, Scr.Holds]
      split
      · rename_i hv; rw [ih]; simp [hv]
      · rename_i hv; simp [hv]
      · rename_i hv; simp [hv]
  | n + 1, .threshold m c :: st, h, hw => by
      have hwc : m ≤ c.length ∧ c.WF := by
        have := hw _ (List.mem_cons_self)
        simpa only [Scr.WF] using this
      simp only [verifyLoop, List.mem_cons, forall_eq_or_imp, Scr.Holds]
      rw [collectSatisfied_eq _ _ hwc.1]
      by_cases hm : c.sats.length = m
      · rw [if_pos hm]
        have ih := verifyLoop_ok_iff v n (c.sats ++ st)
          (by rw [stackSize_append, sats_size]; simp [stackSize, Scr.size] at h ⊢; omega)
          (by
            intro s hs
            rcases List.mem_append.1 hs with hs | hs
            · exact (condsWF_iff c).1 hwc.2 s hs
            · exact hw s (List.mem_cons_of_mem _ hs))
        simp only []
        rw [ih, allHold_iff]
        simp only [List.mem_append]
        constructor
        · intro h'; exact ⟨⟨hm, fun s hs => h' s (.inl hs)⟩, fun s hs => h' s (.inr hs)⟩
        · rintro ⟨⟨_, h1⟩, h2⟩ s (hs | hs)
          · exact h1 s hs
          · exact h2 s hs
      · rw [if_neg hm]
        by_cases h2 : m < c.sats.length
        · rw [if_pos h2]; simp [hm]
        · rw [if_neg h2]; simp [hm]

theorem verifyLoop_no_panic (v : L → Except (Err E) Unit) (hv : ∀ l, v l ≠ .error .panic) :
    ∀ (n : Nat) (st : List (Scr L)), (∀ s ∈ st, s.WF) →
    verifyLoop v n st ≠ some (.error .panic)
  | 0, [], _ => by simp [verifyLoop]
  | _ + 1, [], _ => by simp [verifyLoop]
  | 0, s :: st, _ => by simp [verifyLoop]
  | n + 1, .leaf l :: st, hw => by
      simp only [verifyLoop]
      split
      · exact verifyLoop_no_panic v hv n st (fun s hs => hw s (List.mem_cons_of_mem _ hs))
      · rename_i h; exact absurd h (hv l)
      · simp
  | n + 1, .threshold m c :: st, hw => by
      have hwc : m ≤ c.length ∧ c.WF := by
        have := hw _ (List.mem_cons_self)
        simpa only [Scr.WF] using this
      simp only [verifyLoop]
      rw [collectSatisfied_eq _ _ hwc.1]
      by_cases hm : c.sats.length = m
      · rw [if_pos hm]
        refine verifyLoop_no_panic v hv n (c.sats ++ st) ?_
        intro s hs
        rcases List.mem_append.1 hs with hs | hs
        · exact (condsWF_iff c).1 hwc.2 s hs
        · exact hw s (List.mem_cons_of_mem _ hs)
      · rw [if_neg hm]
        by_cases h2 : m < c.sats.length
        · rw [if_pos h2]; simp
        · rw [if_neg h2]; simp

/-- The way `verify` reports a failure of a leaf. -/
def liftErr : Except (Err E) Unit → Except (Err (ScrErr E)) Unit
  | .ok () => .ok ()
  | .error .panic => .error .panic
  | .error (.err e) => .error (.err (.visitor e))

theorem verifyLoop_balanced (v : L → Except (Err E) Unit) : ∀ (n : Nat) (st : List (Scr L)),
    stackSize st ≤ n → (∀ s ∈ st, s.WF) → (∀ s ∈ st, s.Balanced) →
    verifyLoop v n st = some (liftErr (firstFailure v (st.flatMap Scr.leaves)))
  | 0, [], _, _, _ => by simp [verifyLoop, firstFailure, liftErr]
  | _ + 1, [], _, _, _ => by simp [verifyLoop, firstFailure, liftErr]
  | 0, s :: st, h, _, _ => by
      have := size_pos s
      simp [stackSize] at h
      omega
  | n + 1, .leaf l :: st, h, hw, hb => by
      have ih := verifyLoop_balanced v n st (by simp [stackSize, Scr.size] at h ⊢; omega)
        (fun s hs => hw s (List.mem_cons_of_mem _ hs)) (fun s hs => hb s (List.mem_cons_of_mem _ hs))
      simp only [verifyLoop, List.flatMap_cons, Scr.leaves, List.singleton_append, firstFailure]
      rcases hv : v l with e | _
      · rcases e with _ | e <;> simp [liftErr]
      · simp [ih]
  | n + 1, .threshold m c :: st, h, hw, hb => by
      have hwc : m ≤ c.length ∧ c.WF := by
        have := hw _ (List.mem_cons_self)
        simpa only [Scr.WF] using this
      have hbc : c.sats.length = m ∧ c.Balanced := by
        have := hb _ (List.mem_cons_self)
        simpa only [Scr.Balanced] using this
      simp only [verifyLoop]
      rw [collectSatisfied_eq _ _ hwc.1, if_pos hbc.1]
      have ih := verifyLoop_balanced v n (c.sats ++ st)
        (by rw [stackSize_append, sats_size]; simp [stackSize, Scr.size] at h ⊢; omega)
        (by
          intro s hs
          rcases List.mem_append.1 hs with hs | hs
          · exact (condsWF_iff c).1 hwc.2 s hs
          · exact hw s (List.mem_cons_of_mem _ hs))
        (by
          intro s hs
          rcases List.mem_append.1 hs with hs | hs
          · exact (condsBalanced_iff c).1 hbc.2 s hs
          · exact hb s (List.mem_cons_of_mem _ hs))
      simp only []
      rw [ih]
      simp only [List.flatMap_append, List.flatMap_cons, Scr.leaves, condsLeaves_eq]

theorem built_wf {s : Scr L} (h : Built s) : s.WF := by
  induction h with
  | leaf l => simp [Scr.WF]
  | threshold n c s _ hm ih =>
      simp only [mkThreshold] at hm
      split at hm
      · rename_i hn
        injection hm with hm; subst hm
        simp only [Scr.WF]
        exact ⟨hn, (condsWF_iff c).2 ih⟩
      · cases hm
  | conjunction c _ ih =>
      simp only [conjunction, Scr.WF]
      exact ⟨le_refl _, (condsWF_iff c).2 ih⟩

theorem ofSats_sats : ∀ l : List (Scr L), (Conds.ofSats l).sats = l
  | [] => rfl
  | s :: r => by simp [Conds.ofSats, Conds.sats, ofSats_sats r]

theorem ofSats_length : ∀ l : List (Scr L), (Conds.ofSats l).length = l.length
  | [] => rfl
  | s :: r => by simp [Conds.ofSats, Conds.length, ofSats_length r]

mutual
theorem holds_mono {F : Type} {v : L → Except (Err E) Unit} {w : L → Except (Err F) Unit}
    (h : ∀ l, v l = .ok () → w l = .ok ()) : ∀ s : Scr L, s.Holds v → s.Holds w
  | .leaf l, hs => by simp only [Scr.Holds] at hs ⊢; exact h l hs
  | .threshold n c, hs => by
      simp only [Scr.Holds] at hs ⊢
      exact ⟨hs.1, allHold_mono h c hs.2⟩
theorem allHold_mono {F : Type} {v : L → Except (Err E) Unit} {w : L → Except (Err F) Unit}
    (h : ∀ l, v l = .ok () → w l = .ok ()) : ∀ c : Conds L, c.AllHold v → c.AllHold w
  | .nil, _ => by simp [Conds.AllHold]
  | .sat s r, hs => by
      simp only [Conds.AllHold] at hs ⊢
      exact ⟨holds_mono h s hs.1, allHold_mono h r hs.2⟩
  | .dissat r, hs => by
      simp only [Conds.AllHold] at hs ⊢
      exact allHold_mono h r hs
end

end Verif.Script
