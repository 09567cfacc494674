import Verif.Emission.Spec
import Mathlib.Tactic.Ring
import Mathlib.Tactic.Linarith

/-! # Lemmas for the emission schedule -/

namespace Verif.Emission
open Verif Spec

theorem sub_some {a b : Nat} (h : b ≤ a) : Amt.sub a b = some (a - b) := by simp [Amt.sub, h]
theorem mul_some {a b : Nat} (h : a * b < U128) : Amt.mul a b = some (a * b) := by simp [Amt.mul, h]
theorem add_some {a b : Nat} (h : a + b < U128) : Amt.add a b = some (a + b) := by simp [Amt.add, h]
theorem mul_none {a b : Nat} (h : ¬ a * b < U128) : Amt.mul a b = none := by simp [Amt.mul, h]
theorem add_none {a b : Nat} (h : ¬ a + b < U128) : Amt.add a b = none := by simp [Amt.add, h]

/-- strictly sorted with all keys at least `st` -/
def Srt (st : Nat) (l : List (Nat × Nat)) : Prop := l.Pairwise (fun a b => a.1 < b.1) ∧ ∀ x ∈ l, st ≤ x.1

theorem Srt.tail {st e n l} (h : Srt st ((e, n) :: l)) : st ≤ e ∧ Srt e l ∧ ∀ x ∈ l, e < x.1 := by
  obtain ⟨h1, h2⟩ := h
  rw [List.pairwise_cons] at h1
  exact ⟨h2 (e, n) (by simp), ⟨h1.2, fun x hx => Nat.le_of_lt (h1.1 x hx)⟩, h1.1⟩

/-- supply by walking through the periods -/
def amt : Nat → Nat → Nat → List (Nat × Nat) → Nat → Nat
  | s, o, st, [], h => s + o * (h - st)
  | s, o, st, (e, n) :: l, h => if h ≤ e then s + o * (h - st) else amt (s + o * (e - st)) n e l h

/-- subsidy of block `i` by walking through the periods -/
def rate : Nat → List (Nat × Nat) → Nat → Nat
  | o, [], _ => o
  | o, (e, n) :: l, i => if i ≤ e then o else rate n l i

/-- last period start, `st` if there is none -/
def lastStart : Nat → List (Nat × Nat) → Nat
  | st, [] => st
  | _, (e, _) :: l => lastStart e l

theorem amt_self {s o st l} (h : Srt st l) : amt s o st l st = s := by
  cases l with
  | nil => simp [amt]
  | cons x l =>
    obtain ⟨e, n⟩ := x
    have := h.tail.1
    simp [amt, this]

theorem amt_succ {l : List (Nat × Nat)} : ∀ {s o st h}, Srt st l → st ≤ h → amt s o st l (h+1) = amt s o st l h + rate o l (h+1) := by
  induction l with
  | nil =>
    intro s o st h _ hle
    have e : h + 1 - st = (h - st) + 1 := by omega
    simp only [amt, rate, e]; ring
  | cons x l ih =>
    obtain ⟨e, n⟩ := x
    intro s o st h hs hle
    obtain ⟨h1, h2, h3⟩ := hs.tail
    have e1 : h + 1 - st = (h - st) + 1 := by omega
    by_cases h4 : h + 1 ≤ e
    · simp only [amt, rate, if_pos h4, if_pos (by omega : h ≤ e), e1]; ring
    · by_cases h5 : h = e
      · subst h5
        have e2 := ih (s := s + o * (h - st)) (o := n) h2 (le_refl h)
        simp only [amt, rate, if_neg h4, le_refl, if_true]
        rw [e2, amt_self h2]
      · have e2 := ih (s := s + o * (e - st)) (o := n) h2 (by omega : e ≤ h)
        simp only [amt, rate, if_neg h4, if_neg (by omega : ¬ h ≤ e)]
        rw [e2]

theorem amt_mono {l : List (Nat × Nat)} {s o st a b} (hs : Srt st l) (ha : st ≤ a) (hab : a ≤ b) : amt s o st l a ≤ amt s o st l b := by
  induction b with
  | zero => have : a = 0 := by omega
            rw [this]
  | succ b ih =>
    by_cases h : a = b + 1
    · rw [h]
    · have := amt_succ (s := s) (o := o) hs (by omega : st ≤ b)
      have := ih (by omega)
      omega

theorem le_lastStart {l : List (Nat × Nat)} : ∀ {st}, Srt st l → st ≤ lastStart st l := by
  induction l with
  | nil => intro st _; exact le_refl _
  | cons x l ih =>
    obtain ⟨e, n⟩ := x
    intro st h
    obtain ⟨h1, h2, -⟩ := h.tail
    have := ih h2
    simp only [lastStart]; omega

theorem mem_le_lastStart {l : List (Nat × Nat)} : ∀ {st}, Srt st l → ∀ x ∈ l, x.1 ≤ lastStart st l := by
  induction l with
  | nil => intro st _ x hx; cases hx
  | cons y l ih =>
    obtain ⟨e, n⟩ := y
    intro st h x hx
    obtain ⟨h1, h2, -⟩ := h.tail
    rcases List.mem_cons.1 hx with rfl | hx
    · exact le_lastStart h2
    · exact ih h2 x hx

/-- table entry used for height `h` -/
def pick (tbl : List (Nat × (Nat × Nat))) (ini : Nat × (Nat × Nat)) (h : Nat) : Nat × (Nat × Nat) :=
  ((tbl.filter (fun e => e.1 < h)).getLast?).getD ini

theorem scan_ok {l : List (Nat × Nat)} : ∀ {s o st}, Srt st l → amt s o st l (lastStart st l) < U128 →
    ∃ tbl, scan s o st l = .ok tbl ∧ (∀ x ∈ tbl, ∃ y ∈ l, y.1 = x.1) ∧ ∀ h, st ≤ h → (pick tbl (st, (s, o)) h).1 ≤ h ∧
      (pick tbl (st, (s, o)) h).2.1 + (pick tbl (st, (s, o)) h).2.2 * (h - (pick tbl (st, (s, o)) h).1) = amt s o st l h := by
  induction l with
  | nil =>
    intro s o st _ _
    exact ⟨[], rfl, by simp, fun h hh => ⟨by simpa [pick] using hh, by simp [pick, amt]⟩⟩
  | cons x l ih =>
    obtain ⟨e, n⟩ := x
    intro s o st hs hlt
    obtain ⟨h1, h2, h3⟩ := hs.tail
    have hle := le_lastStart h2
    have hltL : amt s o st ((e, n) :: l) (lastStart e l) < U128 := hlt
    have hlt2 : amt (s + o * (e - st)) n e l (lastStart e l) < U128 := by
      simp only [amt] at hltL
      split at hltL
      · rename_i hh
        have heq : lastStart e l = e := by omega
        rw [heq] at hltL ⊢
        rwa [amt_self h2]
      · exact hltL
    have hsum : s + o * (e - st) < U128 := by
      have := amt_mono (s := s + o * (e - st)) (o := n) h2 (le_refl e) hle
      rw [amt_self h2] at this
      omega
    obtain ⟨tbl, e1, hk, hp⟩ := ih h2 hlt2
    refine ⟨(e, (s + o * (e - st), n)) :: tbl, ?_, ?_, ?_⟩
    · simp only [scan, sub_some h1, mul_some (by omega : o * (e - st) < U128), add_some hsum, okOr, bind, Except.bind, e1]
      rfl
    · intro x hx
      rcases List.mem_cons.1 hx with rfl | hx
      · exact ⟨(e, n), by simp, rfl⟩
      · obtain ⟨y, hy, hy'⟩ := hk x hx
        exact ⟨y, by simp [hy], hy'⟩
    · intro h hh
      by_cases h4 : h ≤ e
      · have hf : ((e, (s + o * (e - st), n)) :: tbl).filter (fun e => decide (e.1 < h)) = [] := by
          rw [List.filter_eq_nil_iff]
          intro x hx
          simp only [decide_eq_true_eq]
          rcases List.mem_cons.1 hx with rfl | hx
          · simp only; omega
          · obtain ⟨y, hy, hy'⟩ := hk x hx
            have := h3 y hy
            omega
        simp only [pick, hf, List.getLast?_nil, Option.getD_none, amt, if_pos h4]
        exact ⟨hh, trivial⟩
      · have hf : pick ((e, (s + o * (e - st), n)) :: tbl) (st, (s, o)) h = pick tbl (e, (s + o * (e - st), n)) h := by
          simp only [pick]
          rw [List.filter_cons_of_pos (by simp; omega), List.getLast?_cons]
          rfl
        rw [hf]
        simp only [amt, if_neg h4]
        exact hp h (by omega)

theorem scan_fail {l : List (Nat × Nat)} : ∀ {s o st}, Srt st l → s < U128 → ¬ amt s o st l (lastStart st l) < U128 →
    scan s o st l = .error .subsidyOverflow := by
  induction l with
  | nil => intro s o st hs h0 h; rw [lastStart, amt_self hs] at h; exact absurd h0 h
  | cons x l ih =>
    obtain ⟨e, n⟩ := x
    intro s o st hs h0 hge
    obtain ⟨h1, h2, h3⟩ := hs.tail
    have hle := le_lastStart h2
    have hge2 : ¬ amt (s + o * (e - st)) n e l (lastStart e l) < U128 := by
      intro hlt
      apply hge
      show amt s o st ((e, n) :: l) (lastStart e l) < U128
      simp only [amt]
      split
      · rename_i hh
        have heq : lastStart e l = e := by omega
        rw [heq] at hlt ⊢
        rwa [amt_self h2] at hlt
      · exact hlt
    by_cases hm : o * (e - st) < U128
    · by_cases ha : s + o * (e - st) < U128
      · simp only [scan, sub_some h1, okOr, bind, Except.bind, mul_some hm, add_some ha, ih h2 ha hge2]
      · simp only [scan, sub_some h1, okOr, bind, Except.bind, mul_some hm, add_none ha]
    · simp only [scan, sub_some h1, okOr, bind, Except.bind, mul_none hm]

/-- supply at `h` according to the table -/
def total (t : Table) (h : Nat) : Nat := amt t.initialSupply t.initialSubsidy 0 t.periods.entries h

theorem srt (t : Table) : Srt 0 t.periods.entries := ⟨t.periods.sorted, fun _ _ => Nat.zero_le _⟩

/-- start of the last period -/
def tail (t : Table) : Nat := lastStart 0 t.periods.entries

theorem total_mono (t : Table) {a b : Nat} (h : a ≤ b) : total t a ≤ total t b := amt_mono (srt t) (Nat.zero_le _) h

theorem closure_eq {ini tbl h a b c} (hp : pick tbl (0, ini) h = (a, (b, c))) (h1 : a ≤ h) :
    closure ini tbl h = if b + c * (h - a) < U128 then .ok (b + c * (h - a)) else .error .subsidyOverflow := by
  unfold pick at hp
  by_cases hm : c * (h - a) < U128
  · by_cases ha : b + c * (h - a) < U128
    · simp only [closure, hp, ensure, h1, if_true, sub_some h1, okOr, mul_some hm, add_some ha, bind, Except.bind, if_pos ha]
    · simp only [closure, hp, ensure, h1, if_true, sub_some h1, okOr, mul_some hm, add_none ha, bind, Except.bind, if_neg ha]
  · have ha : ¬ b + c * (h - a) < U128 := by omega
    simp only [closure, hp, ensure, h1, if_true, sub_some h1, okOr, mul_none hm, bind, Except.bind, if_neg ha]

theorem amountAt_ok (t : Table) (ht : total t (tail t) < U128) (h : Nat) :
    amountAt t h = if total t h < U128 then .ok (total t h) else .error .subsidyOverflow := by
  obtain ⟨tbl, e, -, hp⟩ := scan_ok (srt t) ht
  obtain ⟨h1, h2⟩ := hp h (Nat.zero_le _)
  simp only [amountAt, schedule, e, bind, Except.bind, pure, Except.pure]
  generalize hpk : pick tbl (0, (t.initialSupply, t.initialSubsidy)) h = p at h1 h2
  obtain ⟨a, b, c⟩ := p
  rw [closure_eq hpk h1]
  have h2' : b + c * (h - a) = total t h := h2
  rw [h2']

theorem amountAt_fail (t : Table) (hi : t.initialSupply < U128) (ht : ¬ total t (tail t) < U128) (h : Nat) :
    amountAt t h = .error .subsidyOverflow := by
  have e := scan_fail (srt t) hi ht
  simp only [amountAt, schedule, e, bind, Except.bind]

theorem total_succ (t : Table) (h : Nat) : total t (h+1) = total t h + rate t.initialSubsidy t.periods.entries (h+1) :=
  amt_succ (srt t) (Nat.zero_le _)

theorem total_zero (t : Table) : total t 0 = t.initialSupply := amt_self (srt t)

theorem rate_pays {l : List (Nat × Nat)} : ∀ {st o i}, Srt st l →
    (∃ s, (s, rate o l i) ∈ l ∧ s < i ∧ ∀ x ∈ l, x.1 < i → x.1 ≤ s) ∨ (rate o l i = o ∧ ∀ x ∈ l, i ≤ x.1) := by
  induction l with
  | nil => intro st o i _; exact Or.inr ⟨rfl, by simp⟩
  | cons x l ih =>
    obtain ⟨e, n⟩ := x
    intro st o i hs
    obtain ⟨h1, h2, h3⟩ := hs.tail
    by_cases h4 : i ≤ e
    · refine Or.inr ⟨by simp [rate, h4], ?_⟩
      intro x hx
      rcases List.mem_cons.1 hx with rfl | hx
      · exact h4
      · have := h3 x hx; omega
    · left
      simp only [rate, if_neg h4]
      rcases ih (o := n) (i := i) h2 with ⟨s, a, b, c⟩ | ⟨a, b⟩
      · refine ⟨s, by simp [a], b, ?_⟩
        intro x hx hxi
        rcases List.mem_cons.1 hx with rfl | hx
        · exact Nat.le_of_lt (h3 _ a)
        · exact c x hx hxi
      · refine ⟨e, by simp [a], by omega, ?_⟩
        intro x hx hxi
        rcases List.mem_cons.1 hx with rfl | hx
        · exact le_refl _
        · have := b x hx; omega

theorem pays_rate (t : Table) (i : Nat) : Pays t i (rate t.initialSubsidy t.periods.entries i) := by
  rcases rate_pays (o := t.initialSubsidy) (i := i) (srt t) with ⟨s, a, b, c⟩ | ⟨a, b⟩
  · exact Or.inl ⟨s, BMap.mem_entries.1 a, b, fun s' r' h hi => c (s', r') (BMap.mem_entries.2 h) hi⟩
  · exact Or.inr ⟨a, fun s' r' h => b (s', r') (BMap.mem_entries.2 h)⟩

theorem pays_unique {t : Table} {i r r' : Nat} (h : Pays t i r) (h' : Pays t i r') : r = r' := by
  rcases h with ⟨s, a, b, c⟩ | ⟨a, b⟩ <;> rcases h' with ⟨s', a', b', c'⟩ | ⟨a', b'⟩
  · have : s = s' := le_antisymm (c' _ _ a b) (c _ _ a' b')
    subst this
    rw [a] at a'; exact Option.some.inj a'
  · have := b' _ _ a; omega
  · have := b _ _ a'; omega
  · rw [a, a']

theorem total_eq {t : Table} {pay : Nat → Nat} (hp : ∀ i, 0 < i → Pays t i (pay i)) (h : Nat) : total t h = supply t pay h := by
  induction h with
  | zero => simp [total_zero, supply]
  | succ h ih =>
    rw [total_succ, ih, supply, supply, Finset.sum_range_succ, pays_unique (hp (h+1) (by omega)) (pays_rate t (h+1))]
    omega

theorem lastStart_getLast {l : List (Nat × Nat)} : ∀ {st o}, lastStart st l = (l.getLast?.getD (st, o)).1 := by
  induction l with
  | nil => intro st o; rfl
  | cons x l ih =>
    obtain ⟨e, n⟩ := x
    intro st o
    simp only [lastStart]
    rw [List.getLast?_cons, ih (st := e) (o := n)]
    rfl

theorem rate_after {l : List (Nat × Nat)} : ∀ {st o i}, Srt st l → lastStart st l < i → rate o l i = (l.getLast?.getD (st, o)).2 := by
  induction l with
  | nil => intro st o i _ _; rfl
  | cons x l ih =>
    obtain ⟨e, n⟩ := x
    intro st o i hs hi
    obtain ⟨h1, h2, h3⟩ := hs.tail
    have := le_lastStart h2
    simp only [lastStart] at hi
    simp only [rate, if_neg (by omega : ¬ i ≤ e)]
    rw [List.getLast?_cons, ih (o := n) h2 hi]
    rfl

theorem total_after (t : Table) (h0 : (tailEmission t).2 = 0) {h : Nat} (hh : tail t ≤ h) : total t h = total t (tail t) := by
  induction h with
  | zero => have : tail t = 0 := by omega
            rw [this]
  | succ h ih =>
    by_cases he : tail t = h + 1
    · rw [he]
    · rw [total_succ, ih (by omega), rate_after (st := 0) (srt t) (by unfold tail at hh he; omega)]
      unfold tailEmission at h0
      rw [h0]; rfl

theorem total_le_tail (t : Table) (h0 : (tailEmission t).2 = 0) (h : Nat) : total t h ≤ total t (tail t) := by
  by_cases hh : tail t ≤ h
  · rw [total_after t h0 hh]
  · exact total_mono t (by omega)

end Verif.Emission
