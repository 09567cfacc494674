import Verif.Base.Amount

/-!
# Histories of undoable operations

Generic vocabulary for "any sequence of operations, with the newest operations undone at any point".  Each
accounting area instantiates `step`/`undo` with its own functions.
-/

namespace Verif.History
open Verif

variable {C Op U E : Type}

/-- perform operations in order, collecting the undo records, oldest first -/
def run (step : C → Op → Except E (C × U)) (c : C) : List Op → Except E (C × List U)
  | [] => .ok (c, [])
  | op :: ops => do
    let (c1, u) ← step c op
    let (c2, us) ← run step c1 ops
    pure (c2, u :: us)

/-- undo records (oldest first) applied newest first -/
def undoAll (undo : C → U → Except E C) (c : C) : List U → Except E C
  | [] => .ok c
  | u :: us => do
    let c1 ← undoAll undo c us
    undo c1 u

/-- an action of a history with undo: perform an operation, or undo the newest one not yet undone -/
inductive Act (Op : Type)
  | perform (op : Op)
  | undoLast

/-- run actions; the state carries the stack of undo records, newest first; `undoLast` with nothing to undo is a
no-op -/
def runActs (step : C → Op → Except E (C × U)) (undo : C → U → Except E C) :
    C × List U → List (Act Op) → Except E (C × List U)
  | s, [] => .ok s
  | (c, st), .perform op :: as => do
    let (c1, u) ← step c op
    runActs step undo (c1, u :: st) as
  | (c, []), .undoLast :: as => runActs step undo (c, []) as
  | (c, u :: st), .undoLast :: as => do
    let c1 ← undo c u
    runActs step undo (c1, st) as

theorem run_cons_ok {step : C → Op → Except E (C × U)} {c c' : C} {op : Op} {ops : List Op} {us : List U}
    (h : run step c (op :: ops) = .ok (c', us)) :
    ∃ c1 u us', step c op = .ok (c1, u) ∧ run step c1 ops = .ok (c', us') ∧ us = u :: us' := by
  simp only [run, bind_eq_ok, pure_eq_ok, Prod.mk.injEq] at h
  obtain ⟨⟨c1, u⟩, h1, ⟨c2, us'⟩, h2, rfl, rfl⟩ := h
  exact ⟨c1, u, us', h1, h2, rfl⟩

theorem run_cons {step : C → Op → Except E (C × U)} {c c1 c' : C} {op : Op} {ops : List Op} {u : U} {us : List U}
    (h1 : step c op = .ok (c1, u)) (h2 : run step c1 ops = .ok (c', us)) :
    run step c (op :: ops) = .ok (c', u :: us) := by
  simp only [run, bind_eq_ok, pure_eq_ok]
  exact ⟨_, h1, _, h2, rfl⟩

theorem run_snoc {step : C → Op → Except E (C × U)} {c c1 c' : C} {op : Op} {ops : List Op} {u : U} {us : List U}
    (h1 : run step c ops = .ok (c1, us)) (h2 : step c1 op = .ok (c', u)) :
    run step c (ops ++ [op]) = .ok (c', us ++ [u]) := by
  induction ops generalizing c us with
  | nil => cases h1; exact run_cons h2 rfl
  | cons o ops ih =>
    obtain ⟨c2, u2, us', g1, g2, rfl⟩ := run_cons_ok h1
    exact run_cons g1 (ih g2)

/-- invariants carry over to histories -/
theorem run_inv {step : C → Op → Except E (C × U)} {Inv : C → Prop}
    (hstep : ∀ {c op c' u}, Inv c → step c op = .ok (c', u) → Inv c')
    {c c' : C} {ops : List Op} {us : List U} (h0 : Inv c) (h : run step c ops = .ok (c', us)) : Inv c' := by
  induction ops generalizing c us with
  | nil => cases h; exact h0
  | cons op ops ih =>
    obtain ⟨c1, u, us', h1, h2, rfl⟩ := run_cons_ok h
    exact ih (hstep h0 h1) h2

/-- What an area has to show: `Ext c t` says that `t` is as good as `c` (it may differ from `c` by bookkeeping that
cannot be observed). -/
structure Undoable (step : C → Op → Except E (C × U)) (undo : C → U → Except E C) (Inv : C → Prop)
    (Ext : C → C → Prop) : Prop where
  refl : ∀ c, Ext c c
  inv : ∀ {c op c' u}, Inv c → step c op = .ok (c', u) → Inv c'
  undo_step : ∀ {c op c' u t'}, Inv c → step c op = .ok (c', u) → Ext c' t' → ∃ t, undo t' u = .ok t ∧ Ext c t
  ext_step : ∀ {c t op t' u}, Inv c → Ext c t → step t op = .ok (t', u) →
    ∃ c', step c op = .ok (c', u) ∧ Ext c' t'

variable {step : C → Op → Except E (C × U)} {undo : C → U → Except E C} {Inv : C → Prop} {Ext : C → C → Prop}

/-- undoing a whole history newest first leads back to the start, up to `Ext` -/
theorem Undoable.undoAll (H : Undoable step undo Inv Ext) {c0 c t' : C} {ops : List Op} {us : List U}
    (hi : Inv c0) (h : run step c0 ops = .ok (c, us)) (hx : Ext c t') :
    ∃ t, undoAll undo t' us = .ok t ∧ Ext c0 t := by
  induction ops generalizing c0 us with
  | nil => cases h; exact ⟨t', rfl, hx⟩
  | cons op ops ih =>
    obtain ⟨c1, u, us', h1, h2, rfl⟩ := run_cons_ok h
    obtain ⟨t1, g1, g2⟩ := ih (H.inv hi h1) h2
    obtain ⟨t, f1, f2⟩ := H.undo_step hi h1 g2
    refine ⟨t, ?_, f2⟩
    simp only [History.undoAll, bind_eq_ok]
    exact ⟨t1, g1, f1⟩

theorem run_snoc_ok {c c' : C} {op : Op} {ops : List Op} {us : List U}
    (h : run step c (ops ++ [op]) = .ok (c', us)) :
    ∃ c1 us' u, run step c ops = .ok (c1, us') ∧ step c1 op = .ok (c', u) ∧ us = us' ++ [u] := by
  induction ops generalizing c us with
  | nil =>
    obtain ⟨c1, u, us', h1, h2, rfl⟩ := run_cons_ok h
    cases h2
    exact ⟨c, [], u, rfl, h1, rfl⟩
  | cons o ops ih =>
    obtain ⟨c1, u, us', h1, h2, rfl⟩ := run_cons_ok h
    obtain ⟨c2, us2, u2, g1, g2, rfl⟩ := ih h2
    exact ⟨c2, u :: us2, u2, run_cons h1 g1, g2, rfl⟩

theorem run_length {c c' : C} {ops : List Op} {us : List U}
    (h : run step c ops = .ok (c', us)) : us.length = ops.length := by
  induction ops generalizing c us with
  | nil => cases h; rfl
  | cons op ops ih =>
    obtain ⟨c1, u, us', h1, h2, rfl⟩ := run_cons_ok h
    simp [ih h2]

/-- Any interleaving of operations and undos of the newest operation ends in a state that is as good as the state
reached by performing only the operations that were not undone, and the stack of undo records is theirs. -/
theorem Undoable.acts (H : Undoable step undo Inv Ext) {c0 c : C} {as : List (Act Op)} {st : List U}
    (hi : Inv c0) (h : runActs step undo (c0, []) as = .ok (c, st)) :
    ∃ ops c1, run step c0 ops = .ok (c1, st.reverse) ∧ Ext c1 c ∧ ∀ op ∈ ops, Act.perform op ∈ as := by
  have gen : ∀ (P : Op → Prop) (as : List (Act Op)) (_ : ∀ op, Act.perform op ∈ as → P op)
      (c0' : C) (st0 : List U) (ops : List Op) (c1 : C),
      run step c0 ops = .ok (c1, st0.reverse) → Ext c1 c0' → (∀ op ∈ ops, P op) →
      runActs step undo (c0', st0) as = .ok (c, st) →
      ∃ ops c1, run step c0 ops = .ok (c1, st.reverse) ∧ Ext c1 c ∧ ∀ op ∈ ops, P op := by
    intro P as
    induction as with
    | nil => intro _ c0' st0 ops c1 h1 h2 hP h3; cases h3; exact ⟨ops, c1, h1, h2, hP⟩
    | cons a as ih =>
      intro hPas c0' st0 ops c1 h1 h2 hP h3
      have hPas' : ∀ op, Act.perform op ∈ as → P op := fun op h => hPas op (List.mem_cons_of_mem _ h)
      cases a with
      | perform op =>
        simp only [runActs, bind_eq_ok] at h3
        obtain ⟨⟨t', u⟩, g1, g2⟩ := h3
        obtain ⟨c', f1, f2⟩ := H.ext_step (run_inv H.inv hi h1) h2 g1
        refine ih hPas' t' (u :: st0) (ops ++ [op]) c' ?_ f2 ?_ g2
        · rw [List.reverse_cons]
          exact run_snoc h1 f1
        · intro o ho
          rcases List.mem_append.1 ho with ho | ho
          · exact hP o ho
          · cases List.mem_singleton.1 ho; exact hPas _ (by simp)
      | undoLast =>
        cases st0 with
        | nil => exact ih hPas' c0' [] ops c1 h1 h2 hP h3
        | cons u st1 =>
          simp only [runActs, bind_eq_ok] at h3
          obtain ⟨t, g1, g2⟩ := h3
          rw [List.reverse_cons] at h1
          rcases List.eq_nil_or_concat ops with rfl | ⟨ops', op, rfl⟩
          · simp [run] at h1
          · rw [List.concat_eq_append] at h1 hP
            obtain ⟨c2, us2, u2, k1, k2, k3⟩ := run_snoc_ok h1
            obtain ⟨rfl, k4⟩ := List.append_inj' k3 rfl
            cases k4
            obtain ⟨t2, m1, m2⟩ := H.undo_step (run_inv H.inv hi k1) k2 h2
            rw [m1] at g1; cases g1
            exact ih hPas' _ st1 ops' c2 k1 m2 (fun o ho => hP o (List.mem_append_left _ ho)) g2
  exact gen (fun op => Act.perform op ∈ as) as (fun _ h => h) c0 [] [] c0 rfl (H.refl c0) (by simp) h

/-- and an undo is never refused in such a state -/
theorem Undoable.undo_never_fails (H : Undoable step undo Inv Ext) {c0 c : C} {as : List (Act Op)} {u : U}
    {st : List U} (hi : Inv c0) (h : runActs step undo (c0, []) as = .ok (c, u :: st)) :
    ∃ c', undo c u = .ok c' := by
  obtain ⟨ops, c1, h1, h2, _⟩ := H.acts hi h
  rw [List.reverse_cons] at h1
  rcases List.eq_nil_or_concat ops with rfl | ⟨ops', op, rfl⟩
  · simp [run] at h1
  · rw [List.concat_eq_append] at h1
    obtain ⟨c2, us2, u2, k1, k2, k3⟩ := run_snoc_ok h1
    obtain ⟨rfl, k4⟩ := List.append_inj' k3 rfl
    cases k4
    obtain ⟨t2, m1, m2⟩ := H.undo_step (run_inv H.inv hi k1) k2 h2
    exact ⟨t2, m1⟩

end Verif.History
