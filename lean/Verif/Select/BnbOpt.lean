import Verif.Select.Bnb

/-!
# Branch and bound: the search is complete
-/

namespace Verif.Select
open Verif

variable {O : Type} {c : BnbIn O} {st : Bnb}

/-- the choice agrees with the selection below an index -/
def Agree (S : Nat → Bool) (sel : List Nat) (m : Nat) : Prop := ∀ j, j < m → S j = mem sel j

/-- choices not yet explored: those below the current node, and those that leave out one of the selected groups -/
def Open (st : Bnb) (S : Nat → Bool) : Prop := Agree S st.sel st.index ∨ ∃ i ∈ st.sel, Agree S st.sel i ∧ S i = false

/-- a choice within the range and the weight -/
structure Feasible (c : BnbIn O) (S : Nat → Bool) : Prop where
  ge : c.target ≤ sumB (worth c.pay) c.pool S
  le : sumB (worth c.pay) c.pool S ≤ c.target + c.cost
  weight : sumB (·.weight) c.pool S ≤ c.max

/-- the waste of a choice without change -/
def wasteS (c : BnbIn O) (S : Nat → Bool) : Int := wasteB c.pool S + ((sumB (worth c.pay) c.pool S : Int) - c.target)

/-- the best selection found is at least as good -/
def Acc (c : BnbIn O) (st : Bnb) (S : Nat → Bool) : Prop := st.best ≠ [] ∧ st.bestWaste ≤ wasteS c S

/-- every feasible choice is explored or still open -/
structure BOpt (c : BnbIn O) (st : Bnb) : Prop where
  cover : ∀ S, Feasible c S → Acc c st S ∨ Open st S
  fresh : st.best = [] → st.bestWaste = I128 - 1

theorem agree_ge (f : Group O → Nat) (h : BInv c st) {S : Nat → Bool} (ha : Agree S st.sel st.index) : sumB f c.pool (mem st.sel) ≤ sumB f c.pool S := by
  rw [sumB_split f st.index c.pool (mem st.sel), sumB_split f st.index c.pool S]
  have h1 : sumB f (c.pool.take st.index) (mem st.sel) = sumB f (c.pool.take st.index) S := by
    apply sumB_congr
    intro j hj
    rw [List.length_take] at hj
    exact (ha j (by omega)).symm
  have h2 : sumB f (c.pool.drop st.index) (fun j => mem st.sel (j + st.index)) = 0 := by
    apply sumB_none
    intro j _
    simp only [mem, decide_eq_false_iff_not]
    intro hc
    have := h.down.below _ hc
    omega
  omega

theorem agree_le (f : Group O → Nat) (h : BInv c st) {S : Nat → Bool} (ha : Agree S st.sel st.index) :
    sumB f c.pool S ≤ sumB f c.pool (mem st.sel) + total f (c.pool.drop st.index) := by
  rw [sumB_split f st.index c.pool (mem st.sel), sumB_split f st.index c.pool S]
  have h1 : sumB f (c.pool.take st.index) (mem st.sel) = sumB f (c.pool.take st.index) S := by
    apply sumB_congr
    intro j hj
    rw [List.length_take] at hj
    exact (ha j (by omega)).symm
  have h2 := sumB_le f (c.pool.drop st.index) (fun j => S (j + st.index))
  omega

theorem fee_split : ∀ {l : List (Group O)} {S : Nat → Bool}, (∀ g ∈ l, g.longFee ≤ g.fee) → sumB (·.fee) l S = sumB (·.longFee) l S + sumB (fun g => g.fee - g.longFee) l S
  | [], _, _ => rfl
  | g :: l, S, h => by
    have ih := fee_split (S := fun j => S (j + 1)) (fun x hx => h x (List.mem_cons_of_mem _ hx))
    have := h g (by simp)
    unfold sumB
    split <;> omega

theorem waste_mono (hr : Regular c.pay c.pool) (h : BInv c st) {S : Nat → Bool} (ha : Agree S st.sel st.index) : wasteB c.pool (mem st.sel) ≤ wasteB c.pool S := by
  unfold wasteB
  rw [fee_split hr.costly, fee_split hr.costly]
  have := agree_ge (fun g => g.fee - g.longFee) h ha
  omega

theorem waste_lt (hS : c.Small) (h : BInv c st) : st.waste ≤ I128 - 1 := by
  have h1 := (small_waste hS (mem st.sel) (x := 0) (by omega) (by omega)).2
  rw [h.waste]
  generalize I128 = I at *
  omega

theorem sel_ne (hin : Input c) (h : BInv c st) (hv : c.target ≤ st.value) : st.sel ≠ [] := by
  intro hc
  have h1 := h.value
  rw [hc, sumB_none _ (by intro j _; simp [mem])] at h1
  have := hin.target
  omega

/-- a node that is left has been dealt with; nothing gets worse -/
theorem check_opt (hin : Input c) (hS : c.Small) (hr : Regular c.pay c.pool) (h : BInv c st) (ho : BOpt c st) {st' : Bnb} {b : Bool} (hc : bnbCheck c st = .ok (st', b)) :
    BOpt c st' ∧ (b = true → ∀ S, Feasible c S → Agree S st.sel st.index → Acc c st' S) := by
  have hl := waste_lt hS h
  simp only [bnbCheck, bind_eq_ok, okOr_eq_ok] at hc
  obtain ⟨all, hall, hc⟩ := hc
  obtain ⟨rfl, -⟩ := add_some.1 hall
  clear hall
  split at hc
  · next hlt =>
    simp only [pure_eq_ok, Prod.mk.injEq] at hc
    obtain ⟨rfl, rfl⟩ := hc
    refine ⟨ho, fun _ S hf ha => ?_⟩
    exfalso
    have h1 := agree_le (worth c.pay) h ha
    rw [← h.value, ← h.avail] at h1
    have := hf.ge
    omega
  · simp only [bind_eq_ok, okOr_eq_ok] at hc
    obtain ⟨full, hf, hc⟩ := hc
    obtain ⟨hf, -⟩ := add_some.1 hf
    split at hc
    · next hor =>
      simp only [pure_eq_ok, Prod.mk.injEq] at hc
      obtain ⟨rfl, rfl⟩ := hc
      refine ⟨ho, fun _ S hfe ha => ?_⟩
      have h1 := agree_ge (worth c.pay) h ha
      rw [← h.value] at h1
      have h2 := hfe.le
      rcases hor with hgt | ⟨hw, -⟩
      · exfalso; omega
      · have hne : st.best ≠ [] := by
          intro he
          have := ho.fresh he
          omega
        refine ⟨hne, ?_⟩
        have h3 := waste_mono hr h ha
        rw [← h.waste] at h3
        have h4 := hfe.ge
        unfold wasteS
        omega
    · next hno =>
      split at hc
      · next hw =>
        simp only [pure_eq_ok, Prod.mk.injEq] at hc
        obtain ⟨rfl, rfl⟩ := hc
        refine ⟨⟨ho.cover, ho.fresh⟩, fun _ S hfe ha => ?_⟩
        exfalso
        have h1 := agree_ge (·.weight) h ha
        rw [← h.weight] at h1
        have := hfe.weight
        omega
      · split at hc
        · next hge =>
          simp only [bind_eq_ok, okOr_eq_ok] at hc
          obtain ⟨d, hd, w, hw1, hb⟩ := hc
          simp only [pure_eq_ok, Prod.mk.injEq] at hb
          obtain ⟨rfl, rfl⟩ := hb
          obtain ⟨hd, -⟩ := sub_some.1 hd
          simp only [Option.bind_eq_bind, Option.bind_eq_some_iff, signed_some, sadd_some] at hw1
          obtain ⟨x, ⟨rfl, -⟩, hw2, hr2⟩ := hw1
          have hwle : w ≤ I128 - 1 := by
            have := hr2.2
            rw [← hw2] at this
            clear hw2 hr2 hl
            generalize I128 = I at *
            omega
          clear hr2
          have hok : ∀ S, Feasible c S → Agree S st.sel st.index → w ≤ wasteS c S := by
            intro S hfe ha
            have h1 := agree_ge (worth c.pay) h ha
            rw [← h.value] at h1
            have h3 := waste_mono hr h ha
            rw [← h.waste] at h3
            unfold wasteS
            omega
          split
          · next hbw =>
            refine ⟨⟨?_, ?_⟩, fun _ S hfe ha => ⟨sel_ne hin h hge, hok S hfe ha⟩⟩
            · intro S hfe
              rcases ho.cover S hfe with ha | ha
              · exact .inl ⟨sel_ne hin h hge, Int.le_trans hbw ha.2⟩
              · exact .inr ha
            · intro he
              exact absurd he (sel_ne hin h hge)
          · next hbw =>
            refine ⟨ho, fun _ S hfe ha => ?_⟩
            have hne : st.best ≠ [] := by
              intro he
              have := ho.fresh he
              omega
            exact ⟨hne, by have := hok S hfe ha; omega⟩
        · simp only [pure_eq_ok, Prod.mk.injEq] at hc
          obtain ⟨rfl, rfl⟩ := hc
          exact ⟨ho, by intro hh; cases hh⟩

/-- the part of the tree still to be explored -/
def nodes (n : Nat) (st : Bnb) : Nat := (2 ^ (n + 1 - st.index) - 1) + (st.sel.map fun i => 2 ^ (n - i) - 1).sum

theorem pow_pos' (k : Nat) : 1 ≤ 2 ^ k := Nat.one_le_two_pow

/-- exchanging two equal groups -/
theorem swap_sum (f : Group O → Nat) {l : List (Group O)} {S : Nat → Bool} {i k : Nat} {g p : Group O} (hk : l[k]? = some g) (hi : l[i]? = some p) (hne : i ≠ k)
    (hS : S k = true) (hS' : S i = false) (hf : f g = f p) : sumB f l (fun j => decide (j = i) || (decide (j ≠ k) && S j)) = sumB f l S := by
  have h1 : sumB f l (fun j => decide (j = i) || (decide (j ≠ k) && S j)) = sumB f l (fun j => decide (j ≠ k) && S j) + f p :=
    sumB_add f hi (S := fun j => decide (j ≠ k) && S j) (by simp [hS'])
  have h2 : sumB f l (fun j => decide (j = k) || (decide (j ≠ k) && S j)) = sumB f l (fun j => decide (j ≠ k) && S j) + f g :=
    sumB_add f hk (S := fun j => decide (j ≠ k) && S j) (by simp)
  have h3 : sumB f l (fun j => decide (j = k) || (decide (j ≠ k) && S j)) = sumB f l S := by
    apply sumB_congr
    intro j _
    by_cases hj : j = k
    · simp [hj, hS]
    · simp [hj]
  omega

theorem step_opt (hin : Input c) (hS : c.Small) (hr : Regular c.pay c.pool) (h : BInv c st) (ho : BOpt c st) {st' : Bnb} {go : Bool} (hc : bnbStep c st = .ok (st', go)) :
    BInv c st' ∧ (go = true → BOpt c st' ∧ nodes c.pool.length st' < nodes c.pool.length st) ∧ (go = false → ∀ S, Feasible c S → Acc c st' S) := by
  simp only [bnbStep, bind_eq_ok, Prod.exists] at hc
  obtain ⟨st1, b, h1, hc⟩ := hc
  obtain ⟨hi1, hs1, hx1, hf1⟩ := (check_spec hin h).2 st1 b h1
  obtain ⟨ho1, hacc⟩ := check_opt hin hS hr h ho h1
  have hidx := h.index
  cases b with
  | true =>
    simp only [if_true, bind_eq_ok] at hc
    obtain ⟨o, h2, hc⟩ := hc
    rcases (back_spec hin hi1).2 o h2 with ⟨rfl, hnil⟩ | ⟨i, sel, st2, hsel, rfl, hi2, hs2, hx2, hb2, hw2⟩
    · simp only [pure_eq_ok, Prod.mk.injEq] at hc
      obtain ⟨rfl, rfl⟩ := hc
      refine ⟨hi1, by nofun, fun _ S hfe => ?_⟩
      rcases ho1.cover S hfe with ha | ha | ⟨i, hi, -⟩
      · exact ha
      · rw [hs1, hx1] at ha
        exact hacc rfl S hfe ha
      · rw [hnil] at hi; cases hi
    · simp only [pure_eq_ok, Prod.mk.injEq] at hc
      obtain ⟨rfl, rfl⟩ := hc
      have hd := hi1.down
      rw [hsel] at hd
      refine ⟨hi2, fun _ => ⟨⟨?_, ?_⟩, ?_⟩, by intro hh; cases hh⟩
      · intro S hfe
        rcases ho1.cover S hfe with ha | ha | ⟨j, hj, ha, hj'⟩
        · left
          unfold Acc
          rw [hb2, hw2]
          exact ha
        · rw [hs1, hx1] at ha
          left
          unfold Acc
          rw [hb2, hw2]
          exact hacc rfl S hfe ha
        · right
          rw [hsel] at hj ha
          rcases List.mem_cons.1 hj with rfl | hj
          · left
            rw [hs2, hx2]
            intro k hk
            rcases Nat.lt_or_ge k j with hlt | hge
            · rw [ha k hlt]
              simp only [mem, List.mem_cons, decide_eq_decide, or_iff_right_iff_imp]
              intro e; omega
            · have : k = j := by omega
              subst this
              rw [hj']
              simp [mem, hd.notin]
          · right
            refine ⟨j, by rw [hs2]; exact hj, ?_, hj'⟩
            rw [hs2]
            intro k hk
            rw [ha k hk]
            have := hd.tail.below j hj
            simp only [mem, List.mem_cons, decide_eq_decide, or_iff_right_iff_imp]
            intro e; omega
      · intro he
        rw [hw2]
        exact ho1.fresh (by rw [← hb2]; exact he)
      · unfold nodes
        rw [hs2, hx2, ← hs1, hsel, ← hx1, List.map_cons, List.sum_cons]
        have hix := hi1.index
        have e1 : c.pool.length + 1 - (i + 1) = c.pool.length - i := by omega
        have e2 : c.pool.length + 1 - st1.index = (c.pool.length - st1.index) + 1 := by omega
        rw [e1, e2, Nat.pow_succ]
        have := pow_pos' (c.pool.length - st1.index)
        omega
  | false =>
    simp only [Bool.false_eq_true, if_false, bind_eq_ok, pure_eq_ok, Prod.mk.injEq] at hc
    obtain ⟨st2, h2, rfl, rfl⟩ := hc
    obtain ⟨hlt, hge⟩ := hf1 rfl
    have hval : st1.value = st.value := by rw [hi1.value, h.value, hs1]
    have hav : st1.avail = st.avail := by rw [hi1.avail, h.avail, hx1]
    obtain ⟨hl, hi2, hx2, hb2, hw2, hsel⟩ := (forward_spec hin hi1 (by omega) (by omega)).2 st2 h2
    have hnot : st1.index ∉ st1.sel := fun hc => Nat.lt_irrefl _ (hi1.down.below _ hc)
    refine ⟨hi2, fun _ => ⟨⟨?_, ?_⟩, ?_⟩, by intro hh; cases hh⟩
    · intro S hfe
      have hacc2 : ∀ T, Acc c st1 T → Acc c st2 T := by
        intro T ht
        unfold Acc
        rw [hb2, hw2]
        exact ht
      rcases ho1.cover S hfe with ha | ha | ⟨j, hj, ha, hj'⟩
      · exact .inl (hacc2 S ha)
      · rcases hsel with hsel | ⟨hsel, g, p, hg, hpos, hpn, hp, hw, hfee⟩
        · right
          cases hSi : S st1.index with
          | true =>
            left
            rw [hsel, hx2]
            intro k hk
            rcases Nat.lt_or_ge k st1.index with hk1 | hk1
            · rw [ha k hk1]
              simp only [mem, List.mem_cons, decide_eq_decide]
              constructor
              · intro hh; exact .inr hh
              · rintro (e | hh)
                · omega
                · exact hh
            · have : k = st1.index := by omega
              subst this
              simp [mem, hSi]
          | false =>
            right
            refine ⟨st1.index, by rw [hsel]; simp, ?_, hSi⟩
            rw [hsel]
            intro k hk
            rw [ha k hk]
            simp only [mem, List.mem_cons, decide_eq_decide]
            constructor
            · intro hh; exact .inr hh
            · rintro (e | hh)
              · omega
              · exact hh
        · cases hSi : S st1.index with
          | false =>
            right; left
            rw [hsel, hx2]
            intro k hk
            rcases Nat.lt_or_ge k st1.index with hk1 | hk1
            · exact ha k hk1
            · have : k = st1.index := by omega
              subst this
              rw [hSi]
              simp [mem, hnot]
          | true =>
            left
            have hSp : S (st1.index - 1) = false := by
              rw [ha _ (by omega)]
              simp [mem, hpn]
            obtain ⟨hwe, hlo⟩ := hr.same g (List.mem_of_getElem? hg) p (List.mem_of_getElem? hp) hw hfee
            have hne : st1.index - 1 ≠ st1.index := by omega
            have e1 := swap_sum (worth c.pay) hg hp hne hSi hSp hw
            have e2 := swap_sum (·.weight) hg hp hne hSi hSp hwe
            have e3 := swap_sum (·.fee) hg hp hne hSi hSp hfee
            have e4 := swap_sum (·.longFee) hg hp hne hSi hSp hlo
            have hfe' : Feasible c (fun j => decide (j = st1.index - 1) || (decide (j ≠ st1.index) && S j)) :=
              ⟨by rw [e1]; exact hfe.ge, by rw [e1]; exact hfe.le, by rw [e2]; exact hfe.weight⟩
            rcases ho1.cover _ hfe' with hb | hb | ⟨j, hj, hb, hj'⟩
            · have := hacc2 _ hb
              unfold Acc wasteS wasteB at this ⊢
              rw [e1, e3, e4] at this
              exact this
            · exfalso
              have := hb (st1.index - 1) (by omega)
              simp [mem, hpn] at this
            · exfalso
              have hjlt := hi1.down.below j hj
              have h5 := ha j hjlt
              have h6 : mem st1.sel j = true := by simp [mem, hj]
              rw [h6] at h5
              simp only [Bool.or_eq_false_iff, decide_eq_false_iff_not, Bool.and_eq_false_iff] at hj'
              rcases hj'.2 with h7 | h7
              · omega
              · rw [h5] at h7; cases h7
      · right; right
        have hjlt := hi1.down.below j hj
        rcases hsel with hsel | ⟨hsel, -⟩
        · refine ⟨j, by rw [hsel]; simp [hj], ?_, hj'⟩
          rw [hsel]
          intro k hk
          rw [ha k hk]
          simp only [mem, List.mem_cons, decide_eq_decide]
          constructor
          · intro hh; exact .inr hh
          · rintro (e | hh)
            · omega
            · exact hh
        · exact ⟨j, by rw [hsel]; exact hj, by rw [hsel]; exact ha, hj'⟩
    · intro he
      rw [hw2]
      exact ho1.fresh (by rw [← hb2]; exact he)
    · unfold nodes
      rw [hx2, ← hs1, ← hx1]
      have e2 : c.pool.length + 1 - st1.index = (c.pool.length - st1.index) + 1 := by omega
      have e3 : c.pool.length + 1 - (st1.index + 1) = c.pool.length - st1.index := by omega
      rw [e2, e3, Nat.pow_succ]
      have := pow_pos' (c.pool.length - st1.index)
      rcases hsel with hsel | ⟨hsel, -⟩
      · rw [hsel, List.map_cons, List.sum_cons]
        omega
      · rw [hsel]
        omega

/-- without assumptions on fees: the invariant is kept and no error occurs -/
theorem step_inv (hin : Input c) (h : BInv c st) : ON c.Small (bnbStep c st) ∧ ∀ st' go, bnbStep c st = .ok (st', go) → BInv c st' := by
  constructor
  · unfold bnbStep
    refine ON.bind (check_spec hin h).1 fun x hx => ?_
    obtain ⟨st1, b⟩ := x
    obtain ⟨hi1, hs1, hx1, hf1⟩ := (check_spec hin h).2 st1 b hx
    cases b with
    | true =>
      simp only [if_true]
      refine ON.bind (back_spec hin hi1).1 fun o _ => ?_
      cases o <;> exact ON.pure
    | false =>
      simp only [Bool.false_eq_true, if_false]
      obtain ⟨hlt, hge⟩ := hf1 rfl
      have hval : st1.value = st.value := by rw [hi1.value, h.value, hs1]
      have hav : st1.avail = st.avail := by rw [hi1.avail, h.avail, hx1]
      exact ON.bind (forward_spec hin hi1 (by omega) (by omega)).1 fun _ _ => ON.pure
  · intro st' go hc
    simp only [bnbStep, bind_eq_ok, Prod.exists] at hc
    obtain ⟨st1, b, h1, hc⟩ := hc
    obtain ⟨hi1, hs1, hx1, hf1⟩ := (check_spec hin h).2 st1 b h1
    cases b with
    | true =>
      simp only [if_true, bind_eq_ok] at hc
      obtain ⟨o, h2, hc⟩ := hc
      rcases (back_spec hin hi1).2 o h2 with ⟨rfl, -⟩ | ⟨i, sel, st2, -, rfl, hi2, -⟩
      · simp only [pure_eq_ok, Prod.mk.injEq] at hc
        obtain ⟨rfl, rfl⟩ := hc
        exact hi1
      · simp only [pure_eq_ok, Prod.mk.injEq] at hc
        obtain ⟨rfl, rfl⟩ := hc
        exact hi2
    | false =>
      simp only [Bool.false_eq_true, if_false, bind_eq_ok, pure_eq_ok, Prod.mk.injEq] at hc
      obtain ⟨st2, h2, rfl, rfl⟩ := hc
      obtain ⟨hlt, hge⟩ := hf1 rfl
      have hval : st1.value = st.value := by rw [hi1.value, h.value, hs1]
      have hav : st1.avail = st.avail := by rw [hi1.avail, h.avail, hx1]
      exact ((forward_spec hin hi1 (by omega) (by omega)).2 st2 h2).2.1

theorem loop_inv (hin : Input c) : ∀ (n : Nat) {st : Bnb}, BInv c st → ON c.Small (bnbLoop c n st) ∧ ∀ st', bnbLoop c n st = .ok st' → BInv c st'
  | 0, st, h => ⟨ON.ok, fun st' h' => by simp only [bnbLoop, Except.ok.injEq] at h'; subst h'; exact h⟩
  | n + 1, st, h => by
    obtain ⟨h1, h2⟩ := step_inv hin h
    constructor
    · unfold bnbLoop
      refine ON.bind h1 fun x hx => ?_
      obtain ⟨st', go⟩ := x
      cases go with
      | true => exact (loop_inv hin n (h2 st' true hx)).1
      | false => exact ON.pure
    · intro st' hl
      simp only [bnbLoop, bind_eq_ok, Prod.exists] at hl
      obtain ⟨st1, go, h3, h4⟩ := hl
      cases go with
      | true => exact (loop_inv hin n (h2 st1 true h3)).2 st' h4
      | false =>
        simp only [Bool.false_eq_true, if_false, pure_eq_ok] at h4
        subst h4
        exact h2 _ false h3

theorem loop_opt (hin : Input c) (hS : c.Small) (hr : Regular c.pay c.pool) : ∀ (n : Nat) {st st' : Bnb}, BInv c st → BOpt c st → nodes c.pool.length st < n →
    bnbLoop c n st = .ok st' → ∀ S, Feasible c S → Acc c st' S
  | 0, _, _, _, _, hn, _ => absurd hn (by omega)
  | n + 1, st, st', h, ho, hn, hl => by
    simp only [bnbLoop, bind_eq_ok, Prod.exists] at hl
    obtain ⟨st1, go, h3, h4⟩ := hl
    obtain ⟨h5, h6, h7⟩ := step_opt hin hS hr h ho h3
    cases go with
    | true => exact loop_opt hin hS hr n h5 (h6 rfl).1 (by have := (h6 rfl).2; omega) h4
    | false =>
      simp only [Bool.false_eq_true, if_false, pure_eq_ok] at h4
      subst h4
      exact h7 rfl

end Verif.Select
