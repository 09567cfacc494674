import Verif.TxPool.Cells

/-! # What a transaction does to the cells -/

namespace Verif.TxPool

open Verif.Mempool

/-- the kinds of steps of a transaction, with the dependencies the mempool records for them -/
inductive Kind (t : Tx) : Act → Prop
  | known : Kind t (.make (.known t.id))
  | useOut {u n : Nat} : .txOutput u n ∈ t.consumed → u ∈ t.sources → Kind t (.use (.out u n))
  | useReward {n : Nat} : Kind t (.use (.reward n))
  | nonceD {d n : Nat} : .delegationSpending d n ∈ t.consumed → n ≤ maxNonce →
      (n < maxNonce → .delegationSpending d (n + 1) ∈ t.provided) → Kind t ⟨.nonceD d, n, n + 1⟩
  | nonceT {d n : Nat} : .tokenManagement d n ∈ t.consumed → n ≤ maxNonce →
      (n < maxNonce → .tokenManagement d (n + 1) ∈ t.provided) → Kind t ⟨.nonceT d, n, n + 1⟩
  | need {d : Dep} : d ∈ t.required → d.isConsumed = false → Kind t (.need (.made d))
  | make {d : Dep} : d ∈ t.provided → d.isConsumed = false → Kind t (.make (.made d))
  | out {n : Nat} : Kind t (.make (.out t.id n))

theorem mem_required_in {t : Tx} {i : Input} {d : Dep} (hi : i ∈ t.inputs) (hd : d ∈ i.requires) :
    d ∈ t.required := by
  unfold Tx.required
  exact List.mem_append_left _ (List.mem_flatMap.2 ⟨i, hi, hd⟩)

theorem mem_required_out {t : Tx} {o : Output} {d : Dep} (hi : o ∈ t.outputs) (hd : o.requires = some d) :
    d ∈ t.required := by
  unfold Tx.required
  exact List.mem_append_right _ (List.mem_filterMap.2 ⟨o, hi, hd⟩)

theorem mem_consumed {t : Tx} {d : Dep} : d ∈ t.consumed ↔ d ∈ t.required ∧ d.isConsumed = true := by
  simp [Tx.consumed]

theorem mem_provided_in {t : Tx} {i : Input} {d : Dep} (hi : i ∈ t.inputs) (hd : i.provides = some d) :
    d ∈ t.provided := by
  unfold Tx.provided
  exact List.mem_append_left _ (List.mem_filterMap.2 ⟨i, hi, hd⟩)

theorem mem_provided_out {t : Tx} {o : Output} {d : Dep} (hi : o ∈ t.outputs) (hd : o.provides t = some d) :
    d ∈ t.provided := by
  unfold Tx.provided
  exact List.mem_append_right _ (List.mem_filterMap.2 ⟨o, hi, hd⟩)

theorem mem_outActs {id : Nat} {os : List Output} : ∀ {i : Nat} {a : Act}, a ∈ outActs id i os →
    ∃ n, i ≤ n ∧ a = .make (.out id n) := by
  induction os with
  | nil => intro i a h; simp [outActs] at h
  | cons o os ih =>
    intro i a h
    simp only [outActs, List.mem_append] at h
    rcases h with h | h
    · split at h
      · rw [List.mem_singleton] at h; exact ⟨i, le_refl _, h⟩
      · simp at h
    · obtain ⟨n, hn, ha⟩ := ih h
      exact ⟨n, by omega, ha⟩

theorem kind_input {t : Tx} (hok : noncesOk t = true) {i : Input} (hi : i ∈ t.inputs) {a : Act}
    (ha : a ∈ inputActs i) : Kind t a := by
  have hn := List.all_eq_true.1 hok i hi
  cases i with
  | utxo s n =>
    cases s with
    | none =>
      simp only [inputActs, List.mem_singleton] at ha; subst ha; exact .useReward
    | some u =>
      simp only [inputActs, List.mem_singleton] at ha; subst ha
      refine .useOut (mem_consumed.2 ⟨mem_required_in hi (by simp [Input.requires]), rfl⟩) ?_
      exact List.mem_filterMap.2 ⟨_, hi, rfl⟩
  | delegation d n =>
    simp only [inputActs, List.mem_append, List.mem_singleton] at ha
    simp only [decide_eq_true_eq] at hn
    rcases ha with ha | rfl
    · split at ha
      · rename_i h0; rw [List.mem_singleton] at ha; subst ha
        exact .need (mem_required_in hi (by simp [Input.requires, h0])) rfl
      · simp at ha
    · refine .nonceD (mem_consumed.2 ⟨mem_required_in hi (by simp [Input.requires]), rfl⟩) hn (fun h => ?_)
      exact mem_provided_in hi (by simp [Input.provides, incNonce, h])
  | tokenCommand d n =>
    simp only [inputActs, List.mem_append, List.mem_singleton] at ha
    simp only [decide_eq_true_eq] at hn
    rcases ha with ha | rfl
    · split at ha
      · rename_i h0; rw [List.mem_singleton] at ha; subst ha
        exact .need (mem_required_in hi (by simp [Input.requires, h0])) rfl
      · simp at ha
    · refine .nonceT (mem_consumed.2 ⟨mem_required_in hi (by simp [Input.requires]), rfl⟩) hn (fun h => ?_)
      exact mem_provided_in hi (by simp [Input.provides, incNonce, h])
  | orderCommandV0 => simp [inputActs] at ha
  | orderCommand o =>
    simp only [inputActs, List.mem_singleton] at ha; subst ha
    exact .need (mem_required_in hi (by simp [Input.requires])) rfl

theorem mem_makeAct {d : Option Dep} {a : Act} : a ∈ makeAct d ↔ ∃ x, d = some x ∧ a = .make (.made x) := by
  cases d <;> simp [makeAct]

theorem provides_creation {t : Tx} {o : Output} {d : Dep} (h : o.provides t = some d) : d.isConsumed = false := by
  cases o <;> simp only [Output.provides, Option.map_eq_some_iff, Option.some.injEq, reduceCtorEq] at h
  · obtain ⟨x, -, rfl⟩ := h; rfl
  · subst h; rfl
  · obtain ⟨x, -, rfl⟩ := h; rfl
  · obtain ⟨x, -, rfl⟩ := h; rfl

theorem requires_creation {o : Output} {d : Dep} (h : o.requires = some d) : d.isConsumed = false := by
  cases o <;> simp only [Output.requires, Option.some.injEq, reduceCtorEq] at h
  · subst h; rfl
  · subst h; rfl

/-- the steps of an output: what it needs, then what it creates -/
theorem outputActs_eq (t : Tx) (o : Output) :
    outputActs t o = (o.requires.map (fun d => Act.need (.made d))).toList ++ makeAct (o.provides t) := by
  cases o <;> rfl

theorem kind_output {t : Tx} {o : Output} (ho : o ∈ t.outputs) {a : Act} (ha : a ∈ outputActs t o) : Kind t a := by
  rw [outputActs_eq, List.mem_append] at ha
  rcases ha with ha | ha
  · cases hr : o.requires with
    | none => simp [hr] at ha
    | some d =>
      simp only [hr, Option.map_some, Option.toList_some, List.mem_singleton] at ha
      subst ha
      exact .need (mem_required_out ho hr) (requires_creation hr)
  · obtain ⟨d, hd, rfl⟩ := mem_makeAct.1 ha
    exact .make (mem_provided_out ho hd) (provides_creation hd)

/-- the steps before the new outputs -/
def ins (t : Tx) : List Act :=
  .make (.known t.id) :: t.inputs.flatMap inputActs ++ t.outputs.flatMap (outputActs t)

theorem acts_eq (t : Tx) : acts t = ins t ++ outActs t.id 0 t.outputs := rfl

theorem kind_acts {t : Tx} (hok : noncesOk t = true) {a : Act} (ha : a ∈ acts t) : Kind t a := by
  simp only [acts, List.cons_append, List.mem_cons, List.mem_append, List.mem_flatMap, or_assoc] at ha
  rcases ha with rfl | ⟨i, hi, h⟩ | ⟨o, ho, h⟩ | h
  · exact .known
  · exact kind_input hok hi h
  · exact kind_output ho h
  · obtain ⟨n, -, rfl⟩ := mem_outActs h
    exact .out

theorem input_act {i : Input} {a : Act} (h : a ∈ inputActs i) {u n : Nat} (hc : a.cell = .out u n) :
    a = .use (.out u n) := by
  cases i with
  | utxo s m =>
    cases s <;> simp only [inputActs, List.mem_singleton] at h <;> subst h <;> simp only [Act.use, reduceCtorEq] at hc ⊢
    rw [hc]
  | delegation d m =>
    simp only [inputActs, List.mem_append, List.mem_singleton] at h
    rcases h with h | rfl
    · split at h
      · rw [List.mem_singleton] at h; subst h; simp [Act.need] at hc
      · simp at h
    · simp at hc
  | tokenCommand d m =>
    simp only [inputActs, List.mem_append, List.mem_singleton] at h
    rcases h with h | rfl
    · split at h
      · rw [List.mem_singleton] at h; subst h; simp [Act.need] at hc
      · simp at h
    · simp at hc
  | orderCommandV0 => simp [inputActs] at h
  | orderCommand o => simp only [inputActs, List.mem_singleton] at h; subst h; simp [Act.need] at hc

theorem ins_out {t : Tx} {a : Act} (h : a ∈ ins t) {u n : Nat} (hc : a.cell = .out u n) : a = .use (.out u n) := by
  simp only [ins, List.cons_append, List.mem_cons, List.mem_append, List.mem_flatMap] at h
  rcases h with rfl | ⟨i, hi, h⟩ | ⟨o, ho, h⟩
  · simp [Act.make] at hc
  · exact input_act h hc
  · rw [outputActs_eq, List.mem_append] at h
    rcases h with h | h
    · cases hr : o.requires with
      | none => simp [hr] at h
      | some d =>
        simp only [hr, Option.map_some, Option.toList_some, List.mem_singleton] at h
        subst h; simp [Act.need] at hc
    · obtain ⟨d, hd, rfl⟩ := mem_makeAct.1 h
      simp [Act.make] at hc

theorem ins_known {t : Tx} {a : Act} (h : a ∈ acts t) {k : Nat} (hc : a.cell = .known k) :
    k = t.id ∧ a = .make (.known t.id) := by
  rw [acts_eq, List.mem_append] at h
  rcases h with h | h
  · simp only [ins, List.cons_append, List.mem_cons, List.mem_append, List.mem_flatMap] at h
    rcases h with rfl | ⟨i, hi, h⟩ | ⟨o, ho, h⟩
    · simp only [Act.make, Cell.known.injEq] at hc; exact ⟨hc.symm, rfl⟩
    · exfalso
      cases i with
      | utxo s m => cases s <;> simp only [inputActs, List.mem_singleton] at h <;> subst h <;> simp [Act.use] at hc
      | delegation d m =>
        simp only [inputActs, List.mem_append, List.mem_singleton] at h
        rcases h with h | rfl
        · split at h
          · rw [List.mem_singleton] at h; subst h; simp [Act.need] at hc
          · simp at h
        · simp at hc
      | tokenCommand d m =>
        simp only [inputActs, List.mem_append, List.mem_singleton] at h
        rcases h with h | rfl
        · split at h
          · rw [List.mem_singleton] at h; subst h; simp [Act.need] at hc
          · simp at h
        · simp at hc
      | orderCommandV0 => simp [inputActs] at h
      | orderCommand o => simp only [inputActs, List.mem_singleton] at h; subst h; simp [Act.need] at hc
    · exfalso
      rw [outputActs_eq, List.mem_append] at h
      rcases h with h | h
      · cases hr : o.requires with
        | none => simp [hr] at h
        | some d =>
          simp only [hr, Option.map_some, Option.toList_some, List.mem_singleton] at h
          subst h; simp [Act.need] at hc
      · obtain ⟨d, hd, rfl⟩ := mem_makeAct.1 h
        simp [Act.make] at hc
  · obtain ⟨n, -, rfl⟩ := mem_outActs h
    simp [Act.make] at hc

theorem known_mem (t : Tx) : Act.make (.known t.id) ∈ acts t := by simp [acts]

/-! ## From dependencies to steps -/

theorem mem_acts_in {t : Tx} {i : Input} (hi : i ∈ t.inputs) {a : Act} (ha : a ∈ inputActs i) : a ∈ acts t := by
  simp only [acts, List.cons_append, List.mem_cons, List.mem_append, List.mem_flatMap, or_assoc]
  exact .inr (.inl ⟨i, hi, ha⟩)

theorem mem_acts_out {t : Tx} {o : Output} (hi : o ∈ t.outputs) {a : Act} (ha : a ∈ outputActs t o) : a ∈ acts t := by
  simp only [acts, List.cons_append, List.mem_cons, List.mem_append, List.mem_flatMap, or_assoc]
  exact .inr (.inr (.inl ⟨o, hi, ha⟩))

/-- the step that consumes a dependency -/
def consumeAct : Dep → Act
  | .txOutput u n => .use (.out u n)
  | .delegationSpending d n => ⟨.nonceD d, n, n + 1⟩
  | .tokenManagement d n => ⟨.nonceT d, n, n + 1⟩
  | d => .need (.made d)

/-- the step that provides a dependency -/
def provideAct : Dep → Act
  | .txOutput u n => .make (.out u n)
  | .delegationSpending d n => ⟨.nonceD d, n - 1, n⟩
  | .tokenManagement d n => ⟨.nonceT d, n - 1, n⟩
  | d => .make (.made d)

theorem required_act {t : Tx} {d : Dep} (h : d ∈ t.required) : consumeAct d ∈ acts t := by
  unfold Tx.required at h
  rw [List.mem_append, List.mem_flatMap, List.mem_filterMap] at h
  rcases h with ⟨i, hi, hd⟩ | ⟨o, ho, hd⟩
  · refine mem_acts_in hi ?_
    cases i with
    | utxo s m =>
      cases s <;> simp only [Input.requires, List.mem_singleton, List.not_mem_nil] at hd
      subst hd; simp [consumeAct, inputActs]
    | delegation e m =>
      simp only [Input.requires, List.mem_cons] at hd
      rcases hd with rfl | hd
      · simp [consumeAct, inputActs]
      · split at hd
        · rename_i h0; rw [List.mem_singleton] at hd; subst hd; simp [consumeAct, inputActs, h0]
        · simp at hd
    | tokenCommand e m =>
      simp only [Input.requires, List.mem_cons] at hd
      rcases hd with rfl | hd
      · simp [consumeAct, inputActs]
      · split at hd
        · rename_i h0; rw [List.mem_singleton] at hd; subst hd; simp [consumeAct, inputActs, h0]
        · simp at hd
    | orderCommandV0 => simp [Input.requires] at hd
    | orderCommand o =>
      simp only [Input.requires, List.mem_singleton] at hd; subst hd; simp [consumeAct, inputActs]
  · refine mem_acts_out ho ?_
    rw [outputActs_eq, hd]
    have : consumeAct d = .need (.made d) := by
      cases o <;> simp only [Output.requires, Option.some.injEq, reduceCtorEq] at hd <;> subst hd <;> rfl
    rw [this]; simp

theorem provided_act {t : Tx} {d : Dep} (h : d ∈ t.provided) : provideAct d ∈ acts t ∧
    (d.isConsumed = false ∨ (∃ e n, d = .delegationSpending e (n + 1)) ∨ ∃ e n, d = .tokenManagement e (n + 1)) := by
  unfold Tx.provided at h
  rw [List.mem_append, List.mem_filterMap, List.mem_filterMap] at h
  rcases h with ⟨i, hi, hd⟩ | ⟨o, ho, hd⟩
  · cases i <;> simp only [Input.provides, reduceCtorEq, Option.map_eq_some_iff] at hd
    · obtain ⟨m, hm, rfl⟩ := hd
      simp only [incNonce] at hm
      split at hm
      · simp only [Option.some.injEq] at hm; subst hm
        exact ⟨mem_acts_in hi (by simp [provideAct, inputActs]), .inr (.inl ⟨_, _, rfl⟩)⟩
      · simp at hm
    · obtain ⟨m, hm, rfl⟩ := hd
      simp only [incNonce] at hm
      split at hm
      · simp only [Option.some.injEq] at hm; subst hm
        exact ⟨mem_acts_in hi (by simp [provideAct, inputActs]), .inr (.inr ⟨_, _, rfl⟩)⟩
      · simp at hm
  · have hc := provides_creation hd
    refine ⟨mem_acts_out ho ?_, .inl hc⟩
    rw [outputActs_eq, hd, List.mem_append, mem_makeAct]
    right
    refine ⟨d, rfl, ?_⟩
    cases d <;> simp [Dep.isConsumed] at hc <;> rfl

theorem source_act {t : Tx} {u : Nat} (h : u ∈ t.sources) : ∃ n, Act.use (.out u n) ∈ acts t := by
  obtain ⟨i, hi, hs⟩ := List.mem_filterMap.1 h
  cases i with
  | utxo s m =>
    simp only at hs; subst hs
    exact ⟨m, mem_acts_in hi (by simp [inputActs])⟩
  | _ => simp at hs

/-! ## Repetitions -/

theorem sublist_flatMap {α β : Type} {f g : α → List β} (h : ∀ x, List.Sublist (f x) (g x)) (l : List α) :
    List.Sublist (l.flatMap f) (l.flatMap g) := by
  induction l with
  | nil => exact List.Sublist.refl _
  | cons a l ih => simp only [List.flatMap_cons]; exact (h a).append ih

theorem filterMap_flatMap {α β : Type} (f : α → Option β) (l : List α) :
    l.filterMap f = l.flatMap (fun x => (f x).toList) := by
  induction l with
  | nil => rfl
  | cons a l ih => cases h : f a <;> simp [List.filterMap_cons, h, ih]

theorem consumed_sublist (t : Tx) : List.Sublist (t.consumed.map consumeAct) (acts t) := by
  have h1 : t.consumed.map consumeAct = t.inputs.flatMap (fun i => (i.requires.filter Dep.isConsumed).map consumeAct) := by
    have h2 : (t.outputs.filterMap Output.requires).filter Dep.isConsumed = [] := by
      rw [List.filter_eq_nil_iff]
      intro d hd
      obtain ⟨o, -, ho⟩ := List.mem_filterMap.1 hd
      simp [requires_creation ho]
    unfold Tx.consumed Tx.required
    rw [List.filter_append, h2, List.append_nil, List.filter_flatMap, List.map_flatMap]
  rw [h1]
  have h3 : ∀ i : Input, List.Sublist ((i.requires.filter Dep.isConsumed).map consumeAct) (inputActs i) := by
    intro i
    cases i with
    | utxo s m => cases s <;> simp [Input.requires, List.filter_cons, Dep.isConsumed, consumeAct, inputActs]
    | delegation d n =>
      by_cases h : n = 0 <;> simp [Input.requires, h, List.filter_cons, Dep.isConsumed, consumeAct, inputActs]
    | tokenCommand d n =>
      by_cases h : n = 0 <;> simp [Input.requires, h, List.filter_cons, Dep.isConsumed, consumeAct, inputActs]
    | orderCommandV0 => simp [Input.requires, inputActs]
    | orderCommand o => simp [Input.requires, Dep.isConsumed, inputActs]
  refine (sublist_flatMap h3 _).trans ?_
  unfold acts
  exact (List.Sublist.cons _ (List.sublist_append_left _ _)).trans (List.sublist_append_left _ _)

theorem provided_sublist (t : Tx) : List.Sublist (t.provided.map provideAct) (acts t) := by
  unfold Tx.provided
  rw [List.map_append, filterMap_flatMap, filterMap_flatMap, List.map_flatMap, List.map_flatMap]
  have h1 : ∀ i : Input, List.Sublist ((i.provides).toList.map provideAct) (inputActs i) := by
    intro i
    cases i with
    | utxo s m => simp [Input.provides]
    | delegation d n =>
      by_cases h : n < maxNonce <;> simp [Input.provides, incNonce, h, provideAct, inputActs]
    | tokenCommand d n =>
      by_cases h : n < maxNonce <;> simp [Input.provides, incNonce, h, provideAct, inputActs]
    | orderCommandV0 => simp [Input.provides]
    | orderCommand o => simp [Input.provides]
  have h2 : ∀ o : Output, List.Sublist ((o.provides t).toList.map provideAct) (outputActs t o) := by
    intro o
    rw [outputActs_eq]
    refine List.Sublist.trans ?_ (List.sublist_append_right _ _)
    cases hd : o.provides t with
    | none => simp
    | some d =>
      have hc := provides_creation hd
      cases d <;> simp [Dep.isConsumed] at hc <;> simp [provideAct, makeAct]
  unfold acts
  refine List.Sublist.trans ?_ (List.sublist_append_left _ _)
  exact ((sublist_flatMap h1 _).cons _).append (sublist_flatMap h2 _)

end Verif.TxPool
