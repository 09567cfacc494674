import Verif.TxPool.Model
import Mathlib.Data.List.Nodup

/-! # Runs on a ledger, cell by cell -/

namespace Verif.TxPool

open Verif.Mempool

/-- the steps on a cell -/
def on (c : Cell) (A : List Act) : List Act := A.filter (fun a => decide (a.cell = c))

/-- steps on a single value -/
def valRun : List Act → Nat → Option Nat
  | [], v => some v
  | a :: as, v => if v = a.old then valRun as a.new else none

theorem mem_on {c : Cell} {A : List Act} {a : Act} : a ∈ on c A ↔ a ∈ A ∧ a.cell = c := by
  simp [on]

theorem on_append (c : Cell) (A B : List Act) : on c (A ++ B) = on c A ++ on c B := by simp [on]

theorem on_nil_iff {c : Cell} {A : List Act} : on c A = [] ↔ ∀ a ∈ A, a.cell ≠ c := by
  simp [on, List.filter_eq_nil_iff]

theorem valRun_append (A B : List Act) (v : Nat) : valRun (A ++ B) v = (valRun A v).bind (valRun B) := by
  induction A generalizing v with
  | nil => rfl
  | cons a A ih =>
    simp only [List.cons_append, valRun]
    split
    · exact ih _
    · rfl

theorem run_append (A B : List Act) (L : Ledger) : run (A ++ B) L = (run A L).bind (run B) := by
  induction A generalizing L with
  | nil => rfl
  | cons a A ih =>
    simp only [List.cons_append, run]
    cases step L a with
    | none => rfl
    | some L' => exact ih _

theorem run_iff {A : List Act} {L L' : Ledger} :
    run A L = some L' ↔ ∀ c, valRun (on c A) (L c) = some (L' c) := by
  induction A generalizing L with
  | nil =>
    simp only [run, on, List.filter_nil, valRun, Option.some.injEq]
    exact ⟨fun h c => by rw [h], fun h => funext h⟩
  | cons a A ih =>
    have key : ∀ c, on c (a :: A) = if a.cell = c then a :: on c A else on c A := by
      intro c; simp only [on, List.filter_cons]; by_cases h : a.cell = c <;> simp [h]
    simp only [run, step]
    by_cases h : L a.cell = a.old
    · simp only [h, if_true, Option.bind_some]
      rw [ih]
      constructor
      · intro h2 c
        have h3 := h2 c
        rw [key]
        by_cases hc : a.cell = c
        · subst hc
          simpa [valRun, h] using h3
        · rw [if_neg hc]
          rwa [Function.update_of_ne (fun e => hc e.symm)] at h3
      · intro h2 c
        have h3 := h2 c
        rw [key] at h3
        by_cases hc : a.cell = c
        · subst hc
          simpa [valRun, h] using h3
        · rw [if_neg hc] at h3
          rwa [Function.update_of_ne (fun e => hc e.symm)]
    · simp only [h, if_false, Option.bind_none, reduceCtorEq, false_iff]
      intro h2
      have h3 := h2 a.cell
      rw [key, if_pos rfl] at h3
      simp [valRun, h] at h3

theorem run_untouched {A : List Act} {L L' : Ledger} (h : run A L = some L') {c : Cell}
    (hc : ∀ a ∈ A, a.cell ≠ c) : L' c = L c := by
  have := run_iff.1 h c
  rw [on_nil_iff.2 hc] at this
  exact (Option.some.inj this).symm

/-- taking back what has been done -/
theorem run_rev {A : List Act} {L L' : Ledger} (h : run A L = some L') :
    run (A.reverse.map Act.rev) L' = some L := by
  induction A generalizing L with
  | nil => simp only [run, Option.some.injEq] at h; subst h; rfl
  | cons a A ih =>
    simp only [run, step] at h
    split at h
    · rename_i h1
      simp only [Option.bind_some] at h
      rw [List.reverse_cons, List.map_append, run_append, ih h]
      simp only [Option.bind_some, List.map_cons, List.map_nil, run, step, Act.rev, Function.update_self, if_true]
      rw [← h1, Function.update_idem, Function.update_eq_self]
    · simp at h

/-! ## Values -/

/-- all steps lead to the same value -/
theorem val_const {F : List Act} {w v v' : Nat} (hF : ∀ x ∈ F, x.new = w) (h : valRun F v = some v') :
    (F = [] ∧ v' = v) ∨ (F ≠ [] ∧ v' = w) := by
  induction F generalizing v with
  | nil => simp only [valRun, Option.some.injEq] at h; exact .inl ⟨rfl, h.symm⟩
  | cons a F ih =>
    simp only [valRun] at h
    split at h
    · right
      have hw := hF a (by simp)
      rcases ih (fun x hx => hF x (by simp [hx])) h with ⟨-, h2⟩ | ⟨-, h2⟩
      · exact ⟨by simp, h2.trans hw⟩
      · exact ⟨by simp, h2⟩
    · simp at h

/-- the first step finds the value -/
theorem val_head {F : List Act} {v v' : Nat} (h : valRun F v = some v') (hF : F ≠ []) :
    ∃ x ∈ F, x.old = v := by
  cases F with
  | nil => exact absurd rfl hF
  | cons a F =>
    simp only [valRun] at h
    split at h
    · rename_i h1; exact ⟨a, by simp, h1.symm⟩
    · simp at h

/-- steps that change the value from `o` to another `w` can be done once -/
theorem val_once {F : List Act} {o w v v' : Nat} (how : o ≠ w) (hF : ∀ x ∈ F, x.old = o ∧ x.new = w)
    (h : valRun F v = some v') (hne : F ≠ []) : v = o ∧ v' = w ∧ F.length = 1 := by
  cases F with
  | nil => exact absurd rfl hne
  | cons a F =>
    simp only [valRun] at h
    split at h
    · rename_i h1
      have ha := hF a (by simp)
      cases F with
      | nil => simp only [valRun, Option.some.injEq] at h; exact ⟨h1.trans ha.1, h.symm.trans ha.2, rfl⟩
      | cons b F =>
        have hb := hF b (by simp)
        simp only [valRun, ha.2, hb.1] at h
        rw [if_neg (Ne.symm how)] at h
        simp at h
    · simp at h

/-- steps that only read -/
theorem val_read {F : List Act} {v v' : Nat} (hF : ∀ x ∈ F, x.old = x.new) (h : valRun F v = some v') : v' = v := by
  induction F generalizing v with
  | nil => simp only [valRun, Option.some.injEq] at h; exact h.symm
  | cons a F ih =>
    simp only [valRun] at h
    split at h
    · rename_i h1
      rw [ih (fun x hx => hF x (by simp [hx])) h, ← hF a (by simp), h1]
    · simp at h

/-- counting steps -/
theorem val_count {F : List Act} {v v' : Nat} (hF : ∀ x ∈ F, x.new = x.old + 1) (h : valRun F v = some v') :
    v' = v + F.length ∧ (∀ x ∈ F, v ≤ x.old ∧ x.old < v') ∧ ∀ m, v ≤ m → m < v' → ∃ x ∈ F, x.old = m := by
  induction F generalizing v with
  | nil =>
    simp only [valRun, Option.some.injEq] at h
    exact ⟨by simp [h], by simp, fun m h1 h2 => by omega⟩
  | cons a F ih =>
    simp only [valRun] at h
    split at h
    · rename_i h1
      have ha := hF a (by simp)
      obtain ⟨h2, h3, h4⟩ := ih (fun x hx => hF x (by simp [hx])) h
      simp only [List.length_cons]
      refine ⟨by omega, ?_, ?_⟩
      · intro x hx
        rcases List.mem_cons.1 hx with rfl | hx
        · omega
        · have := h3 x hx; omega
      · intro m hm1 hm2
        by_cases hm : m = v
        · exact ⟨a, by simp, by omega⟩
        · obtain ⟨x, hx, hxm⟩ := h4 m (by omega) hm2
          exact ⟨x, by simp [hx], hxm⟩
    · simp at h

/-! ## Commuting -/

/-- runs that meet only in cells that both just read commute -/
theorem run_comm {A B : List Act} {L L1 L2 : Ledger} (hA : run A L = some L1) (hB : run B L1 = some L2)
    (hd : ∀ x ∈ A, ∀ y ∈ B, x.cell = y.cell → x.old = x.new ∧ y.old = y.new) :
    ∃ M, run B L = some M ∧ run A M = some L2 := by
  rw [run_iff] at hA hB
  have hcell : ∀ c, ∃ m, valRun (on c B) (L c) = some m ∧ valRun (on c A) m = some (L2 c) := by
    intro c
    have h1 := hA c
    have h2 := hB c
    by_cases ha : on c A = []
    · rw [ha] at h1 ⊢
      simp only [valRun, Option.some.injEq] at h1
      exact ⟨L2 c, by rw [h1]; exact h2, rfl⟩
    · by_cases hb : on c B = []
      · rw [hb] at h2 ⊢
        simp only [valRun, Option.some.injEq] at h2
        exact ⟨L c, rfl, by rw [← h2]; exact h1⟩
      · obtain ⟨x, hx⟩ := List.exists_mem_of_ne_nil _ ha
        obtain ⟨y, hy⟩ := List.exists_mem_of_ne_nil _ hb
        rw [mem_on] at hx hy
        have e1 : L1 c = L c := val_read (fun z hz => by
          rw [mem_on] at hz
          exact (hd z hz.1 y hy.1 (hz.2.trans hy.2.symm)).1) h1
        have e2 : L2 c = L1 c := val_read (fun z hz => by
          rw [mem_on] at hz
          exact (hd x hx.1 z hz.1 (hx.2.trans hz.2.symm)).2) h2
        refine ⟨L c, ?_, ?_⟩
        · rw [← e1, h2, e2]
        · rw [h1, e2]
  choose M hM1 hM2 using hcell
  exact ⟨M, run_iff.2 hM1, run_iff.2 hM2⟩

/-- runs from the same ledger that meet only in cells that both just read can follow each other -/
theorem run_diamond {A B : List Act} {L L1 L2 : Ledger} (hA : run A L = some L1) (hB : run B L = some L2)
    (hd : ∀ x ∈ A, ∀ y ∈ B, x.cell = y.cell → x.old = x.new ∧ y.old = y.new) :
    ∃ M, run B L1 = some M := by
  rw [run_iff] at hA hB
  have hcell : ∀ c, ∃ m, valRun (on c B) (L1 c) = some m := by
    intro c
    by_cases hb : on c B = []
    · exact ⟨L1 c, by rw [hb]; rfl⟩
    · obtain ⟨y, hy⟩ := List.exists_mem_of_ne_nil _ hb
      rw [mem_on] at hy
      have e1 : L1 c = L c := val_read (fun z hz => by
        rw [mem_on] at hz
        exact (hd z hz.1 y hy.1 (hz.2.trans hy.2.symm)).1) (hA c)
      exact ⟨L2 c, by rw [e1]; exact hB c⟩
  choose M hM using hcell
  exact ⟨M, run_iff.2 hM⟩

end Verif.TxPool
