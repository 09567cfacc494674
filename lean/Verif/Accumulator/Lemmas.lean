import Verif.Accumulator.Spec
import Verif.Orders.Invariant
import Verif.Pos.Lemmas
import Mathlib.Tactic.Linarith
import Mathlib.Tactic.Ring

/-!
# Lemmas about value accumulators
-/

namespace Verif.Accumulator
open Verif Verif.Accounting

theorem sub_some {a b r : Nat} : Amt.sub a b = some r ↔ b ≤ a ∧ r = a - b := by
  unfold Amt.sub
  split <;> simp_all [eq_comm]

theorem amt_insert (m : BMap Nat Nat) (k v k' : Nat) : amt (m.insert k v) k' = if k' = k then v else amt m k' := by
  unfold amt
  rw [BMap.get_insert]
  split <;> rfl

@[simp] theorem amt_empty (k : Nat) : amt BMap.empty k = 0 := rfl

/-- replacing the value at a key -/
theorem sumV_insert_amt (g : Nat → Nat → Nat) (hg : ∀ k, g k 0 = 0) (m : BMap Nat Nat) (k v : Nat) :
    (m.insert k v).sumV g + g k (amt m k) = m.sumV g + g k v := by
  rw [BMap.sumV_insert]
  unfold amt
  cases h : m.get k with
  | none => rw [BMap.erase_of_none h]; simp [hg]
  | some w =>
    rw [BMap.sumV_erase_of_get g h]
    simp only [Option.getD_some]
    omega

theorem insertOrIncrease_ok {m m' : BMap Nat Nat} {k a : Nat} :
    insertOrIncrease m k a = .ok m' ↔ amt m k + a < U128 ∧ m' = m.insert k (amt m k + a) := by
  unfold insertOrIncrease
  simp only [bind_eq_ok, okOr_eq_ok, Amt_add_some, pure_eq_ok]
  constructor
  · rintro ⟨v, ⟨h1, rfl⟩, rfl⟩; exact ⟨h1, rfl⟩
  · rintro ⟨h1, rfl⟩; exact ⟨_, ⟨h1, rfl⟩, rfl⟩

theorem amt_increase {m m' : BMap Nat Nat} {k a : Nat} (h : insertOrIncrease m k a = .ok m') (k' : Nat) :
    amt m' k' = amt m k' + if k' = k then a else 0 := by
  obtain ⟨_, rfl⟩ := insertOrIncrease_ok.1 h
  rw [amt_insert]
  split
  · subst_vars; rfl
  · rfl

theorem sumV_increase {m m' : BMap Nat Nat} {k a : Nat} (h : insertOrIncrease m k a = .ok m') (p : Nat → Prop)
    [DecidablePred p] :
    m'.sumV (fun k v => if p k then v else 0) = m.sumV (fun k v => if p k then v else 0) + if p k then a else 0 := by
  obtain ⟨_, rfl⟩ := insertOrIncrease_ok.1 h
  have := sumV_insert_amt (fun k v => if p k then v else 0) (by intro k; simp) m k (amt m k + a)
  beta_reduce at this
  split_ifs at this ⊢ <;> omega

theorem sumV_increase' {m m' : BMap Nat Nat} {k a : Nat} (h : insertOrIncrease m k a = .ok m') :
    m'.sumV (fun _ v => v) = m.sumV (fun _ v => v) + a := by
  have := sumV_increase h (fun _ => True)
  simpa using this

/-! ### `decrease_or` -/

theorem decreaseOr_isOk {m : BMap Nat Nat} {k a : Nat} {e : Err} :
    (∃ m', decreaseOr m k a e = .ok m') ↔ a ≤ amt m k := by
  unfold decreaseOr amt
  split
  · cases h : m.get k with
    | none => simp; omega
    | some v =>
      simp only [bind_eq_ok, okOr_eq_ok, sub_some, pure_eq_ok, Option.getD_some]
      constructor
      · rintro ⟨m', r, ⟨h1, _⟩, _⟩; exact h1
      · intro h1; exact ⟨_, _, ⟨h1, rfl⟩, rfl⟩
  · constructor
    · intro _; omega
    · intro _; exact ⟨m, rfl⟩

theorem decreaseOr_ok {m m' : BMap Nat Nat} {k a : Nat} {e : Err} (h : decreaseOr m k a e = .ok m') (k' : Nat) :
    amt m' k' + (if k' = k then a else 0) = amt m k' := by
  unfold decreaseOr at h
  split at h
  · cases hg : m.get k with
    | none => simp [hg] at h
    | some v =>
      simp only [hg, bind_eq_ok, okOr_eq_ok, sub_some, pure_eq_ok] at h
      obtain ⟨r, ⟨h1, rfl⟩, rfl⟩ := h
      rw [amt_insert]
      split
      · subst_vars
        have : amt m k' = v := by unfold amt; rw [hg]; rfl
        omega
      · rfl
  · cases h
    split <;> omega

/-- amounts listed under key `k` -/
def sumAt (l : List (Nat × Nat)) (k : Nat) : Nat := (l.map (fun kv => if kv.1 = k then kv.2 else 0)).sum

theorem sumAt_entries (m : BMap Nat Nat) (k : Nat) : sumAt m.entries k = amt m k := by
  have h := sumV_insert_amt (fun k' v => if k' = k then v else 0) (by intro; simp) m k 0
  have e : (m.insert k 0).sumV (fun k' v => if k' = k then v else 0) = 0 := by
    have : (m.insert k 0).sumV (fun k' v => if k' = k then v else 0) = (m.insert k 0).sumV (fun _ _ => 0) := by
      apply BMap.sumV_congr
      intro k' v hv
      split
      · subst_vars; rw [BMap.get_insert_self] at hv; cases hv; rfl
      · rfl
    rw [this]; simp [BMap.sumV]
  simp only [if_true] at h
  unfold sumAt
  unfold BMap.sumV at h e
  beta_reduce at h e
  omega

theorem decreaseAll_ok {l : List (Nat × Nat)} {m m' : BMap Nat Nat} {e : Err}
    (h : l.foldlM (fun m kv => decreaseOr m kv.1 kv.2 e) m = .ok m') (k : Nat) :
    amt m' k + sumAt l k = amt m k := by
  induction l generalizing m with
  | nil => cases h; simp [sumAt]
  | cons x l ih =>
    rw [List.foldlM_cons, bind_eq_ok] at h
    obtain ⟨m1, h1, h2⟩ := h
    have a1 := decreaseOr_ok h1 k
    have a2 := ih h2
    simp only [sumAt, List.map_cons, List.sum_cons] at a2 ⊢
    simp only [eq_comm (a := k)] at a1
    omega

theorem decreaseAll_isOk {l : List (Nat × Nat)} {m : BMap Nat Nat} {e : Err} :
    (∃ m', l.foldlM (fun m kv => decreaseOr m kv.1 kv.2 e) m = .ok m') ↔ ∀ k, sumAt l k ≤ amt m k := by
  induction l generalizing m with
  | nil => simp [sumAt, pure, Except.pure]
  | cons x l ih =>
    simp only [List.foldlM_cons, bind_eq_ok]
    constructor
    · rintro ⟨m', m1, h1, h2⟩ k
      have a1 := decreaseOr_ok h1 k
      have a2 := ih.1 ⟨m', h2⟩ k
      simp only [sumAt, List.map_cons, List.sum_cons] at a2 ⊢
      simp only [eq_comm (a := k)] at a1
      omega
    · intro h
      have hx : x.2 ≤ amt m x.1 := by
        have := h x.1
        simp only [sumAt, List.map_cons, List.sum_cons, if_true] at this
        omega
      obtain ⟨m1, h1⟩ := decreaseOr_isOk (e := e).2 hx
      have : ∀ k, sumAt l k ≤ amt m1 k := by
        intro k
        have a1 := decreaseOr_ok h1 k
        have := h k
        simp only [sumAt, List.map_cons, List.sum_cons] at this ⊢
        simp only [eq_comm (a := k)] at a1
        omega
      obtain ⟨m', h2⟩ := ih.2 this
      exact ⟨m', m1, h1, h2⟩

/-! ### cells -/

/-- weighted amount of coins -/
def meas (w : Nat) (g : Nat → Nat) (a : Acc) : Nat := w * amt a.unc coin + a.locked.sumV (fun k v => g k * v)

def wt (w : Nat) (g : Nat → Nat) : Cell → Nat
  | .lock d => g d
  | .free => w

theorem meas_setCell (w : Nat) (g : Nat → Nat) (a : Acc) (c : Cell) (v : Nat) :
    meas w g (a.setCell c v) + wt w g c * a.cell c = meas w g a + wt w g c * v := by
  cases c with
  | lock d =>
    have := sumV_insert_amt (fun k v => g k * v) (by intro; simp) a.locked d v
    simp only [meas, Acc.setCell, wt, Acc.cell] at *
    omega
  | free =>
    simp only [meas, Acc.setCell, wt, Acc.cell, amt_insert, if_true]
    omega

theorem cell_setCell (a : Acc) (c c' : Cell) (v : Nat) :
    (a.setCell c v).cell c' = if c' = c then v else a.cell c' := by
  cases c <;> cases c' <;> simp [Acc.cell, Acc.setCell, amt_insert]

theorem unc_setCell (a : Acc) (c : Cell) (v k : Nat) (hk : k ≠ coin) :
    amt (a.setCell c v).unc k = amt a.unc k := by
  cases c
  · rfl
  · simp [Acc.setCell, amt_insert, hk]

theorem useCells_unc {cs : List Cell} {a a' : Acc} {n : Nat} (h : useCells a cs n = .ok a') (k : Nat)
    (hk : k ≠ coin) : amt a'.unc k = amt a.unc k := by
  induction cs generalizing a n with
  | nil =>
    unfold useCells at h
    split at h <;> cases h
    rfl
  | cons c cs ih =>
    unfold useCells at h
    split at h
    · split at h
      · rw [ih h, unc_setCell _ _ _ _ hk]
      · cases h; rw [unc_setCell _ _ _ _ hk]
    · cases h; rfl

theorem useCells_meas {cs : List Cell} {a a' : Acc} {n : Nat} (h : useCells a cs n = .ok a')
    (w : Nat) (g : Nat → Nat) (lo hi : Nat) (hw : ∀ c ∈ cs, lo ≤ wt w g c ∧ wt w g c ≤ hi) :
    meas w g a' + lo * n ≤ meas w g a ∧ meas w g a ≤ meas w g a' + hi * n := by
  induction cs generalizing a n with
  | nil =>
    unfold useCells at h
    split at h
    · cases h
    · cases h
      have : n = 0 := by omega
      subst this; simp
  | cons c cs ih =>
    have hc := hw c (by simp)
    unfold useCells at h
    split at h
    · split at h
      · rename_i h1 h2
        have i := ih h (fun c hc => hw c (by simp [hc]))
        have s := meas_setCell w g a c 0
        have l1 : lo * a.cell c ≤ wt w g c * a.cell c := Nat.mul_le_mul_right _ hc.1
        have l2 : wt w g c * a.cell c ≤ hi * a.cell c := Nat.mul_le_mul_right _ hc.2
        have e1 : lo * n = lo * (n - a.cell c) + lo * a.cell c := by
          rw [← Nat.mul_add]; congr 1; omega
        have e2 : hi * n = hi * (n - a.cell c) + hi * a.cell c := by
          rw [← Nat.mul_add]; congr 1; omega
        rw [e1, e2]
        omega
      · rename_i h1 h2
        cases h
        have s := meas_setCell w g a c (a.cell c - n)
        have l1 : lo * n ≤ wt w g c * n := Nat.mul_le_mul_right _ hc.1
        have l2 : wt w g c * n ≤ hi * n := Nat.mul_le_mul_right _ hc.2
        have e : wt w g c * a.cell c = wt w g c * (a.cell c - n) + wt w g c * n := by
          rw [← Nat.mul_add]; congr 1; omega
        omega
    · cases h
      have : n = 0 := by omega
      subst this; simp

theorem useCells_isOk {cs : List Cell} (hn : cs.Nodup) {a : Acc} {n : Nat} :
    (∃ a', useCells a cs n = .ok a') ↔ n ≤ (cs.map a.cell).sum := by
  induction cs generalizing a n with
  | nil =>
    unfold useCells
    split
    · simp; omega
    · simp [pure, Except.pure]; omega
  | cons c cs ih =>
    rw [List.nodup_cons] at hn
    unfold useCells
    rw [List.map_cons, List.sum_cons]
    split
    · split
      · rw [ih hn.2]
        have : cs.map (a.setCell c 0).cell = cs.map a.cell := by
          apply List.map_congr_left
          intro x hx
          rw [cell_setCell, if_neg]
          rintro rfl
          exact hn.1 hx
        rw [this]
        omega
      · constructor
        · intro _; omega
        · intro _; exact ⟨_, rfl⟩
    · constructor
      · intro _; omega
      · intro _; exact ⟨_, rfl⟩

theorem mem_cells_lock {a : Acc} {t d : Nat} (h : Cell.lock d ∈ a.cellsUpTo t) : d ≤ t := by
  unfold Acc.cellsUpTo at h
  rw [List.mem_append] at h
  rcases h with h | h
  · simp only [List.mem_map, List.mem_reverse, List.mem_filter, Cell.lock.injEq, decide_eq_true_eq] at h
    obtain ⟨x, ⟨_, h2⟩, rfl⟩ := h
    exact h2
  · split at h <;> simp at h

theorem cells_nodup (a : Acc) (t : Nat) : (a.cellsUpTo t).Nodup := by
  have hnd : (a.locked.entries.map Prod.fst).Nodup := by
    have := a.locked.sorted
    rw [List.Nodup, List.pairwise_map]
    exact this.imp (fun h => ne_of_lt h)
  unfold Acc.cellsUpTo
  rw [List.nodup_append]
  refine ⟨?_, ?_, ?_⟩
  · refine List.Nodup.map (fun x y h => by cases h; rfl) ?_
    exact List.nodup_reverse.2 (hnd.filter _)
  · split <;> simp
  · intro x hx y hy
    split at hy
    · simp only [List.mem_singleton] at hy
      subst hy
      simp only [List.mem_map] at hx
      obtain ⟨d, _, rfl⟩ := hx
      simp
    · simp at hy

theorem cells_sum (a : Acc) (t : Nat) : ((a.cellsUpTo t).map a.cell).sum = a.upTo t := by
  unfold Acc.cellsUpTo Acc.upTo BMap.sumV
  rw [List.map_append, List.sum_append, List.map_map, List.map_reverse, List.sum_reverse]
  have e1 : ((if (a.unc.get coin).isSome then [Cell.free] else []).map a.cell).sum = (a.unc.get 0).getD 0 := by
    cases h : a.unc.get coin with
    | none =>
      have h' : a.unc.get 0 = none := h
      simp [h']
    | some v =>
      have h' : a.unc.get 0 = some v := h
      simp [h', Acc.cell, amt, h]
  have e2 : (((a.locked.entries.map Prod.fst).filter (· ≤ t)).map (a.cell ∘ Cell.lock)).sum
      = (a.locked.entries.map (fun kv => if kv.1 ≤ t then kv.2 else 0)).sum := by
    have : ∀ l : List (Nat × Nat), (∀ x ∈ l, amt a.locked x.1 = x.2) →
        (((l.map Prod.fst).filter (· ≤ t)).map (a.cell ∘ Cell.lock)).sum
          = (l.map (fun kv => if kv.1 ≤ t then kv.2 else 0)).sum := by
      intro l hl
      induction l with
      | nil => rfl
      | cons x l ih =>
        have i := ih (fun y hy => hl y (by simp [hy]))
        have hx := hl x (by simp)
        simp only [List.map_cons, List.sum_cons, List.filter_cons, decide_eq_true_eq]
        split
        · simp only [List.map_cons, List.sum_cons, i, Function.comp, Acc.cell, hx]
        · simp only [i, Nat.zero_add]
    apply this
    rintro ⟨k, v⟩ hk
    unfold amt
    rw [BMap.mem_entries.1 hk]; rfl
  rw [e1, e2, Nat.add_comm]

theorem meas_total (a : Acc) : meas 1 (fun _ => 1) a = a.total coin := by
  simp [meas, Acc.total, coin, amt]

theorem meas_lockedFrom (a : Acc) (d : Nat) : meas 0 (fun k => if d ≤ k then 1 else 0) a = a.lockedFrom d := by
  simp [meas, Acc.lockedFrom]

theorem meas_upTo (a : Acc) (d : Nat) : meas 1 (fun k => if k ≤ d then 1 else 0) a = a.upTo d := by
  simp [meas, Acc.upTo, coin, amt]

/-- the loop over locked outputs -/
theorem locked_fold {l : List (Nat × Nat)} {a a' : Acc}
    (h : l.foldlM (fun a kv => useCells a (a.cellsUpTo kv.1) kv.2) a = .ok a') :
    (∀ k, k ≠ coin → amt a'.unc k = amt a.unc k) ∧
    a'.total coin + (l.map Prod.snd).sum = a.total coin ∧
    ∀ d, a.lockedFrom d ≤ a'.lockedFrom d + (l.map (fun kv => if d ≤ kv.1 then kv.2 else 0)).sum := by
  induction l generalizing a with
  | nil => cases h; simp
  | cons x l ih =>
    rw [List.foldlM_cons, bind_eq_ok] at h
    obtain ⟨a1, h1, h2⟩ := h
    obtain ⟨i1, i2, i3⟩ := ih h2
    refine ⟨fun k hk => by rw [i1 k hk, useCells_unc h1 k hk], ?_, ?_⟩
    · have := useCells_meas h1 1 (fun _ => 1) 1 1 (by intro c _; cases c <;> simp [wt])
      rw [meas_total, meas_total] at this
      simp only [List.map_cons, List.sum_cons]
      omega
    · intro d
      have i3 := i3 d
      simp only [List.map_cons, List.sum_cons]
      by_cases hd : d ≤ x.1
      · have := useCells_meas h1 0 (fun k => if d ≤ k then 1 else 0) 0 1
          (by intro c _; cases c <;> simp [wt]; split <;> omega)
        rw [meas_lockedFrom, meas_lockedFrom] at this
        rw [if_pos hd]
        omega
      · have := useCells_meas h1 0 (fun k => if d ≤ k then 1 else 0) 0 0 (by
          intro c hc
          cases c with
          | free => simp [wt]
          | lock k =>
            have := mem_cells_lock hc
            simp only [wt]
            rw [if_neg (by omega)]; simp)
        rw [meas_lockedFrom, meas_lockedFrom] at this
        rw [if_neg hd]
        omega

theorem locked_fold_isOk {l : List (Nat × Nat)} (hs : l.Pairwise (fun a b => a.1 < b.1)) {a : Acc} :
    (∃ a', l.foldlM (fun a kv => useCells a (a.cellsUpTo kv.1) kv.2) a = .ok a') ↔
      ∀ d, (l.map (fun kv => if kv.1 ≤ d then kv.2 else 0)).sum ≤ a.upTo d := by
  induction l generalizing a with
  | nil => simp [pure, Except.pure]
  | cons x l ih =>
    rw [List.pairwise_cons] at hs
    have key : ∀ a1, useCells a (a.cellsUpTo x.1) x.2 = .ok a1 → ∀ d, x.1 ≤ d → a1.upTo d + x.2 = a.upTo d := by
      intro a1 h1 d hd
      have := useCells_meas h1 1 (fun k => if k ≤ d then 1 else 0) 1 1 (by
        intro c hc
        cases c with
        | free => simp [wt]
        | lock k =>
          have := mem_cells_lock hc
          simp only [wt]
          rw [if_pos (by omega)]; simp)
      rw [meas_upTo, meas_upTo] at this
      omega
    have zero : ∀ d, d < x.1 → (l.map (fun kv => if kv.1 ≤ d then kv.2 else 0)).sum = 0 := by
      intro d hd
      rw [List.sum_eq_zero]
      intro y hy
      rw [List.mem_map] at hy
      obtain ⟨z, hz, rfl⟩ := hy
      have := hs.1 z hz
      rw [if_neg (by omega)]
    simp only [List.foldlM_cons, bind_eq_ok]
    constructor
    · rintro ⟨a', a1, h1, h2⟩ d
      simp only [List.map_cons, List.sum_cons]
      by_cases hd : x.1 ≤ d
      · have := (ih hs.2).1 ⟨a', h2⟩ d
        have := key a1 h1 d hd
        rw [if_pos hd]; omega
      · rw [if_neg hd, zero d (by omega)]; omega
    · intro h
      have h0 := h x.1
      simp only [List.map_cons, List.sum_cons, le_refl, if_true] at h0
      obtain ⟨a1, h1⟩ := (useCells_isOk (cells_nodup a x.1)).2 (show x.2 ≤ _ by rw [cells_sum]; omega)
      have : ∀ d, (l.map (fun kv => if kv.1 ≤ d then kv.2 else 0)).sum ≤ a1.upTo d := by
        intro d
        by_cases hd : x.1 ≤ d
        · have hh := h d
          simp only [List.map_cons, List.sum_cons, if_pos hd] at hh
          have := key a1 h1 d hd
          omega
        · rw [zero d (by omega)]; omega
      obtain ⟨a', h2⟩ := (ih hs.2).2 this
      exact ⟨a', a1, h1, h2⟩

end Verif.Accumulator
