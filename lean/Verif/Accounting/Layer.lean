import Verif.Accounting.Lemmas

/-!
# Layers: a change set on top of a parent view, and flushing it

Helper definitions and lemmas shared by the orders, tokens and staking accounting models.
All three Rust crates read data and balances through a layer with the same code shape.
-/

set_option linter.unusedSectionVars false

namespace Verif.Accounting

variable {K T E : Type} [LinearOrder K] [DecidableEq T]

/-- Reading data through a layer: `Present → Some`, `Deleted → None`, `Missing → parent`.
orders-accounting/src/cache.rs 123-131, tokens-accounting/src/cache.rs (get_token_data),
pos-accounting/src/pool/delta/view_impl.rs (get_pool_data, get_delegation_data). -/
def getVal (parent : K → Except E (Option T)) (c : DataColl K T) (k : K) : Except E (Option T) :=
  match getData c k with
  | .present d => .ok (some d)
  | .deleted => .ok none
  | .missing => parent k

/-- Reading a balance through a layer: parent balance combined with the local signed delta.
orders-accounting/src/cache.rs 133-143, tokens-accounting/src/cache.rs (get_circulating_supply),
pos-accounting/src/pool/delta/view_impl.rs. -/
def getBal (wrap : Err → E) (parent : K → Except E Nat) (c : AmountColl K) (k : K) : Except E Nat := do
  let p ← parent k
  (combineAmountDelta p (c.get k)).mapError wrap

theorem mapError_ok {E' A : Type} {x : Except Err A} {w : Err → E'} {a : A} :
    x.mapError w = .ok a ↔ x = .ok a := by
  cases x <;> simp [Except.mapError]

theorem getVal_none {parent : K → Except E (Option T)} {c : DataColl K T} {k : K} (h : c.get k = none) :
    getVal parent c k = parent k := by
  simp [getVal, getData, h]

theorem getVal_some {parent : K → Except E (Option T)} {c : DataColl K T} {k : K} {d : DataDelta T}
    (h : c.get k = some d) : getVal parent c k = .ok d.new := by
  obtain ⟨o, n⟩ := d
  cases n <;> simp [getVal, getData, h]

/-! ### Undo at the level of one entry -/

/-- `t` is `c` up to extra entries that record "no change" of a key whose parent value is what is recorded.
(An undone creation leaves such an entry behind, it is not removed from the map.) -/
def ExtD (parent : K → Except E (Option T)) (c t : DataColl K T) : Prop :=
  ∀ k, t.get k = c.get k ∨ (c.get k = none ∧ ∃ v, t.get k = some ⟨v, v⟩ ∧ parent k = .ok v)

theorem ExtD.refl (parent : K → Except E (Option T)) (c : DataColl K T) : ExtD parent c c :=
  fun _ => Or.inl rfl

theorem ExtD.getVal {parent : K → Except E (Option T)} {c t : DataColl K T} (h : ExtD parent c t) (k : K) :
    Accounting.getVal parent t k = Accounting.getVal parent c k := by
  rcases h k with h | ⟨h1, v, h2, h3⟩
  · unfold Accounting.getVal getData; rw [h]
  · rw [getVal_none h1, getVal_some h2, h3]

theorem mergeElem_ok {c c' : DataColl K T} {k : K} {d u : DataDelta T} :
    mergeDeltaDataElement c k d = .ok (c', u) ↔
      (∀ e, c.get k = some e → e.new = d.old) ∧ u = d.invert ∧
      c' = c.insert k ⟨match c.get k with | none => d.old | some e => e.old, d.new⟩ := by
  rw [mergeDeltaDataElement_eq]
  cases h : mergeStep k (c.get k) d with
  | error e =>
    simp only [Except.map, reduceCtorEq, false_iff, not_and]
    intro h1
    exfalso
    cases hc : c.get k with
    | none =>
      have := (mergeStep_ok (k := k) (cur := c.get k) (d := d)).2 (Or.inl ⟨hc, rfl⟩)
      rw [h] at this; cases this
    | some x =>
      have := (mergeStep_ok (k := k) (cur := c.get k) (d := d)).2 (Or.inr ⟨x, hc, h1 x hc, rfl⟩)
      rw [h] at this; cases this
  | ok r =>
    simp only [Except.map, Except.ok.injEq, Prod.mk.injEq]
    rcases mergeStep_ok.1 h with ⟨h1, rfl⟩ | ⟨x, h1, h2, rfl⟩
    · rw [h1]
      simp only [reduceCtorEq, false_imp_iff, implies_true, true_and, BMap.set]
      constructor <;> rintro ⟨rfl, rfl⟩ <;> exact ⟨rfl, rfl⟩
    · rw [h1]
      simp only [Option.some.injEq, forall_eq', h2, true_and, BMap.set]
      constructor <;> rintro ⟨rfl, rfl⟩ <;> exact ⟨rfl, rfl⟩

/-- Undoing an entry change, possibly later and on an extended layer, gives back an extension of the layer
before the change. -/
theorem undoElem {parent : K → Except E (Option T)} {c c' t' : DataColl K T} {k : K}
    {cur new : Option T} {u : DataDelta T}
    (hcur : getVal parent c k = .ok cur)
    (hm : mergeDeltaDataElement c k ⟨cur, new⟩ = .ok (c', u))
    (hx : ExtD parent c' t') :
    ∃ t, undoMergeDeltaDataElement t' k u = .ok t ∧ ExtD parent c t := by
  obtain ⟨h1, rfl, rfl⟩ := mergeElem_ok.1 hm
  simp only at h1
  have ht' : t'.get k = some ⟨match c.get k with | none => cur | some e => e.old, new⟩ := by
    rcases hx k with h | ⟨h, _⟩
    · rw [h, BMap.get_insert_self]
    · rw [BMap.get_insert_self] at h; cases h
  refine ⟨t'.insert k ⟨match c.get k with | none => cur | some e => e.old, cur⟩, ?_, ?_⟩
  · unfold undoMergeDeltaDataElement
    rw [bind_eq_ok]
    refine ⟨(t'.insert k ⟨match c.get k with | none => cur | some e => e.old, cur⟩,
      DataDelta.invert ⟨new, cur⟩), ?_, rfl⟩
    rw [mergeElem_ok]
    refine ⟨?_, rfl, ?_⟩
    · intro e he
      rw [ht'] at he
      cases he
      rfl
    · rw [ht']
      rfl
  · intro k'
    by_cases e : k' = k
    · subst e
      rw [BMap.get_insert_self]
      cases hc : c.get k' with
      | none =>
        refine Or.inr ⟨rfl, cur, rfl, ?_⟩
        rw [getVal_none hc] at hcur
        exact hcur
      | some x =>
        left
        have := h1 x hc
        simp only [← this]
    · rw [BMap.get_insert_ne _ _ e]
      have := hx k'
      rw [BMap.get_insert_ne _ _ e] at this
      exact this

/-- a change that can be recorded on an extension can be recorded on the original -/
theorem ExtD.mergeElem {parent : K → Except E (Option T)} {c t t' : DataColl K T} {k : K} {d u : DataDelta T}
    (hx : ExtD parent c t) (hm : mergeDeltaDataElement t k d = .ok (t', u))
    (hd : Accounting.getVal parent c k = .ok d.old) :
    ∃ c', mergeDeltaDataElement c k d = .ok (c', u) ∧ ExtD parent c' t' := by
  obtain ⟨h1, rfl, rfl⟩ := mergeElem_ok.1 hm
  refine ⟨_, mergeElem_ok.2 ⟨?_, rfl, rfl⟩, ?_⟩
  · intro e he
    rcases hx k with h | ⟨h, _⟩
    · exact h1 e (h.trans he)
    · rw [h] at he; cases he
  · intro k'
    by_cases e : k' = k
    · subst e
      left
      rw [BMap.get_insert_self, BMap.get_insert_self]
      rcases hx k' with h | ⟨h, v, h2, h3⟩
      · rw [h]
      · rw [h, h2]
        have := h1 _ h2
        simp only at this
        rw [this]
    · rw [BMap.get_insert_ne _ _ e, BMap.get_insert_ne _ _ e]
      exact hx k'

/-- after a change the new value is read back, other keys are unaffected -/
theorem getVal_merged {parent : K → Except E (Option T)} {c c' : DataColl K T} {k : K}
    {d u : DataDelta T} (hm : mergeDeltaDataElement c k d = .ok (c', u)) (k' : K) :
    getVal parent c' k' = if k' = k then .ok d.new else getVal parent c k' := by
  obtain ⟨-, -, rfl⟩ := mergeElem_ok.1 hm
  by_cases e : k' = k
  · subst e
    rw [if_pos rfl, getVal_some (BMap.get_insert_self _ _ _)]
  · rw [if_neg e]
    unfold getVal getData
    rw [BMap.get_insert_ne _ _ e]

theorem getVal_undoMerged {parent : K → Except E (Option T)} {c c' : DataColl K T} {k : K}
    {u : DataDelta T} (hm : undoMergeDeltaDataElement c k u = .ok c') (k' : K) :
    getVal parent c' k' = if k' = k then .ok u.new else getVal parent c k' := by
  unfold undoMergeDeltaDataElement at hm
  rw [bind_eq_ok] at hm
  obtain ⟨⟨c1, u1⟩, h1, h2⟩ := hm
  cases h2
  exact getVal_merged h1 k'

/-! ### Amount entries -/

/-- entries are non-zero 128-bit signed numbers; maintained by every operation -/
def WFA (c : AmountColl K) : Prop := ∀ k x, c.get k = some x → x ≠ 0 ∧ SAmt.InRange x

theorem WFA.empty : WFA (BMap.empty : AmountColl K) := by intro k x h; simp at h

theorem inRange_zero : SAmt.InRange 0 := by decide

theorem WFA.dval {c : AmountColl K} (h : WFA c) (k : K) : SAmt.InRange (dval (c.get k)) := by
  cases hc : c.get k with
  | none => exact inRange_zero
  | some x => exact (h k x hc).2

theorem WFA.norm {c : AmountColl K} (h : WFA c) (k : K) : norm (Accounting.dval (c.get k)) = c.get k := by
  cases hc : c.get k with
  | none => rfl
  | some x => simp [Accounting.norm, (h k x hc).1]

theorem WFA.merge {c r : AmountColl K} {k : K} {x : Int} (h : WFA c) (hx : SAmt.InRange x)
    (hm : mergeAmountElement c k x = .ok r) : WFA r := by
  obtain ⟨h1, rfl⟩ := mergeAmountElement_ok.1 hm
  intro k' y hy
  rw [BMap.get_set] at hy
  split at hy
  · unfold Accounting.norm at hy
    split at hy
    · cases hy
    · rename_i h0
      cases hy
      refine ⟨h0, ?_⟩
      cases hc : c.get k with
      | none => simpa [hc] using hx
      | some z => rw [hc] at h1; exact h1 rfl
  · exact h k' y hy

/-- signed value of an unsigned amount that passed `into_signed` -/
theorem intoSigned_some {a : Nat} {s : Int} : Amt.intoSigned a = some s ↔ (a : Int) < I128 ∧ s = a := by
  unfold Amt.intoSigned; split <;> simp_all [eq_comm]

theorem inRange_nat {a : Nat} (h : (a : Int) < I128) : SAmt.InRange (a : Int) := by
  have : (0 : Int) ≤ I128 := by decide
  exact ⟨by omega, h⟩

theorem inRange_neg_nat {a : Nat} (h : (a : Int) < I128) : SAmt.InRange (-(a : Int)) := by
  have : (0 : Int) < I128 := by decide
  exact ⟨by omega, by omega⟩

theorem addUnsigned_ok {c r : AmountColl K} {k : K} {a : Nat} :
    addUnsigned c k a = .ok r ↔ (a : Int) < I128 ∧ mergeAmountElement c k a = .ok r := by
  unfold addUnsigned
  simp only [bind_eq_ok, okOr_eq_ok, intoSigned_some]
  constructor
  · rintro ⟨s, ⟨h1, rfl⟩, h2⟩; exact ⟨h1, h2⟩
  · rintro ⟨h1, h2⟩; exact ⟨_, ⟨h1, rfl⟩, h2⟩

theorem subUnsigned_ok {c r : AmountColl K} {k : K} {a : Nat} :
    subUnsigned c k a = .ok r ↔ (a : Int) < I128 ∧ mergeAmountElement c k (-(a : Int)) = .ok r := by
  unfold subUnsigned
  simp only [bind_eq_ok, okOr_eq_ok, intoSigned_some]
  constructor
  · rintro ⟨s, ⟨h1, rfl⟩, n, h2, h3⟩
    obtain ⟨_, rfl⟩ := chk_eq_some.1 h2
    exact ⟨h1, h3⟩
  · rintro ⟨h1, h2⟩
    exact ⟨_, ⟨h1, rfl⟩, _, chk_isSome (inRange_neg_nat h1), h2⟩

theorem WFA.add {c r : AmountColl K} {k : K} {a : Nat} (h : WFA c) (hm : addUnsigned c k a = .ok r) :
    WFA r := by
  obtain ⟨h1, h2⟩ := addUnsigned_ok.1 hm
  exact h.merge (inRange_nat h1) h2

theorem WFA.sub {c r : AmountColl K} {k : K} {a : Nat} (h : WFA c) (hm : subUnsigned c k a = .ok r) :
    WFA r := by
  obtain ⟨h1, h2⟩ := subUnsigned_ok.1 hm
  exact h.merge (inRange_neg_nat h1) h2

/-- adding `x` then `-x` at a key restores a well-formed collection -/
theorem mergeAmount_cancel {c r : AmountColl K} {k : K} {x : Int} (h : WFA c)
    (hm : mergeAmountElement c k x = .ok r) : mergeAmountElement r k (-x) = .ok c := by
  obtain ⟨h1, rfl⟩ := mergeAmountElement_ok.1 hm
  rw [mergeAmountElement_ok, BMap.get_set_self, dval_norm]
  have e : Accounting.dval (c.get k) + x + -x = Accounting.dval (c.get k) := by ring
  rw [e]
  refine ⟨fun _ => h.dval k, ?_⟩
  rw [BMap.set_set, h.norm, BMap.set_get]

theorem add_sub_cancel' {c r : AmountColl K} {k : K} {a : Nat} (h : WFA c)
    (hm : addUnsigned c k a = .ok r) : subUnsigned r k a = .ok c := by
  obtain ⟨h1, h2⟩ := addUnsigned_ok.1 hm
  exact subUnsigned_ok.2 ⟨h1, mergeAmount_cancel h h2⟩

theorem sub_add_cancel' {c r : AmountColl K} {k : K} {a : Nat} (h : WFA c)
    (hm : subUnsigned c k a = .ok r) : addUnsigned r k a = .ok c := by
  obtain ⟨h1, h2⟩ := subUnsigned_ok.1 hm
  refine addUnsigned_ok.2 ⟨h1, ?_⟩
  have := mergeAmount_cancel h h2
  simpa using this

theorem get_merged {c r : AmountColl K} {k : K} {x : Int} (hm : mergeAmountElement c k x = .ok r) (k' : K) :
    r.get k' = if k' = k then norm (Accounting.dval (c.get k) + x) else c.get k' := by
  obtain ⟨_, rfl⟩ := mergeAmountElement_ok.1 hm
  rw [BMap.get_set]

/-- signed delta at a key after `add_unsigned` -/
theorem dval_add {c r : AmountColl K} {k : K} {a : Nat} (hm : addUnsigned c k a = .ok r) (k' : K) :
    Accounting.dval (r.get k') = Accounting.dval (c.get k') + if k' = k then (a : Int) else 0 := by
  obtain ⟨_, h2⟩ := addUnsigned_ok.1 hm
  rw [get_merged h2]
  split
  · rename_i e; subst e; simp
  · simp

theorem dval_sub {c r : AmountColl K} {k : K} {a : Nat} (hm : subUnsigned c k a = .ok r) (k' : K) :
    Accounting.dval (r.get k') = Accounting.dval (c.get k') - if k' = k then (a : Int) else 0 := by
  obtain ⟨_, h2⟩ := subUnsigned_ok.1 hm
  rw [get_merged h2]
  split
  · rename_i e; subst e; simp; ring
  · simp

/-- balance read through a layer, in integers -/
theorem getBal_ok {wrap : Err → E} {parent : K → Except E Nat} {c : AmountColl K} {k : K} {v : Nat} :
    getBal wrap parent c k = .ok v ↔
      ∃ p : Nat, parent k = .ok p ∧ (v : Int) = p + Accounting.dval (c.get k) ∧
        ((c.get k).isSome → (p : Int) < I128 ∧ (v : Int) < I128) := by
  unfold getBal
  rw [bind_eq_ok]
  refine exists_congr fun p => and_congr_right fun _ => ?_
  rw [mapError_ok, combineAmountDelta_ok]
  cases hc : c.get k with
  | none => simp
  | some x =>
    simp only [dval_some, Option.isSome_some, forall_const]
    constructor
    · rintro ⟨a, b, d⟩; exact ⟨d, a, by omega⟩
    · rintro ⟨a, b, d⟩; exact ⟨b, by omega, a⟩

/-- reading depends only on the entry -/
theorem getBal_congr {wrap : Err → E} {parent : K → Except E Nat} {c c' : AmountColl K} {k : K}
    (h : c'.get k = c.get k) : getBal wrap parent c' k = getBal wrap parent c k := by
  unfold getBal; rw [h]

theorem getBal_add_ne {wrap : Err → E} {parent : K → Except E Nat} {c r : AmountColl K} {k k' : K} {a : Nat}
    (hm : addUnsigned c k a = .ok r) (h : k' ≠ k) : getBal wrap parent r k' = getBal wrap parent c k' := by
  obtain ⟨_, h2⟩ := addUnsigned_ok.1 hm
  apply getBal_congr
  rw [get_merged h2, if_neg h]

theorem getBal_sub_ne {wrap : Err → E} {parent : K → Except E Nat} {c r : AmountColl K} {k k' : K} {a : Nat}
    (hm : subUnsigned c k a = .ok r) (h : k' ≠ k) : getBal wrap parent r k' = getBal wrap parent c k' := by
  obtain ⟨_, h2⟩ := subUnsigned_ok.1 hm
  apply getBal_congr
  rw [get_merged h2, if_neg h]

/-- a readable balance after subtraction is the exact difference -/
theorem getBal_sub {wrap : Err → E} {parent : K → Except E Nat} {c r : AmountColl K} {k : K} {a v w : Nat}
    (hm : subUnsigned c k a = .ok r) (h1 : getBal wrap parent c k = .ok v)
    (h2 : getBal wrap parent r k = .ok w) : v = w + a := by
  obtain ⟨p, hp, e1, _⟩ := getBal_ok.1 h1
  obtain ⟨p', hp', e2, _⟩ := getBal_ok.1 h2
  rw [hp] at hp'; cases hp'
  rw [dval_sub hm] at e2
  simp only [if_true] at e2
  omega

theorem getBal_add {wrap : Err → E} {parent : K → Except E Nat} {c r : AmountColl K} {k : K} {a v w : Nat}
    (hm : addUnsigned c k a = .ok r) (h1 : getBal wrap parent c k = .ok v)
    (h2 : getBal wrap parent r k = .ok w) : w = v + a := by
  obtain ⟨p, hp, e1, _⟩ := getBal_ok.1 h1
  obtain ⟨p', hp', e2, _⟩ := getBal_ok.1 h2
  rw [hp] at hp'; cases hp'
  rw [dval_add hm] at e2
  simp only [if_true] at e2
  omega

/-- subtracting at most the balance leaves a readable balance -/
theorem getBal_sub_exists {wrap : Err → E} {parent : K → Except E Nat} {c r : AmountColl K} {k : K} {a v : Nat}
    (hm : subUnsigned c k a = .ok r) (h1 : getBal wrap parent c k = .ok v) (hle : a ≤ v)
    (hv : (v : Int) < I128) (hp : ∀ p, parent k = .ok p → (p : Int) < I128) :
    getBal wrap parent r k = .ok (v - a) := by
  obtain ⟨p, hp', e1, e2⟩ := getBal_ok.1 h1
  refine getBal_ok.2 ⟨p, hp', ?_, ?_⟩
  · rw [dval_sub hm]; simp only [if_true]; omega
  · intro _; exact ⟨hp p hp', by omega⟩

/-! ### Flushing into a database -/

/-- Data part of `merge_with_delta` into a key-value store: orders-accounting/src/storage/db.rs 50-69,
tokens-accounting/src/storage/db.rs, pos-accounting/src/pool/storage/mod.rs (`merge_data_generic`).
Returns the new store and the undo collection. -/
def dbMergeData (store : BMap K T) (d : DataColl K T) : Except Err (BMap K T × DataColl K T) :=
  BMap.mergeUndoM (fun _ cur delta => combineDataWithDelta cur (some delta)) (fun _ delta => delta.invert)
    store d

/-- Balance part of `merge_with_delta` into a store: the stored balance (absent = 0) is combined with the delta;
a positive result is stored, otherwise the key is deleted: orders-accounting/src/storage/db.rs 71-94.
The `delta.neg().expect(..)` of line 91 panics when the negation is not representable (`Err.panicked`); that
this cannot happen is `dbMergeBalances_no_panic`. -/
def dbMergeBalances (store : BMap K Nat) (d : AmountColl K) : Except Err (BMap K Nat × AmountColl K) :=
  BMap.mergeUndoM (fun _ cur delta => do
      let r ← combineAmountDelta (cur.getD 0) (some delta)
      let _ ← okOr (SAmt.neg delta) .panicked
      pure (if r > 0 then some r else none))
    (fun _ delta => -delta) store d

/-- stored balance, absent = 0 -/
def bal (store : BMap K Nat) (k : K) : Nat := (store.get k).getD 0

/-- a delta that can be added to a balance can be negated -/
theorem neg_of_combine {b r : Nat} {x : Int} (h : combineAmountDelta b (some x) = .ok r) :
    SAmt.neg x = some (-x) := by
  rw [combineAmountDelta_ok] at h
  apply chk_isSome
  constructor <;> omega

theorem foldlM_error {S X Y : Type} {f : S → X → Except Y S} {l : List X} {s : S} {e : Y}
    (h : l.foldlM f s = .error e) : ∃ s x, f s x = .error e := by
  induction l generalizing s with
  | nil => cases h
  | cons a t ih =>
    rw [List.foldlM_cons] at h
    cases hf : f s a with
    | error e' =>
      rw [hf] at h
      cases h
      exact ⟨s, a, hf⟩
    | ok s' =>
      rw [hf] at h
      exact ih h

theorem combine_ne_panicked {b : Nat} {o : Option Int} : combineAmountDelta b o ≠ .error .panicked := by
  cases o with
  | none => simp [combineAmountDelta]
  | some x =>
    unfold combineAmountDelta
    cases Amt.intoSigned b with
    | none => simp [okOr, bind, Except.bind]
    | some v =>
      cases h2 : SAmt.add v x with
      | none => simp [okOr, bind, Except.bind, h2]
      | some w => cases h3 : SAmt.intoUnsigned w <;> simp [okOr, bind, Except.bind, h2, h3]

/-- the `expect` on negation never fires -/
theorem dbMergeBalances_no_panic (store : BMap K Nat) (d : AmountColl K) :
    dbMergeBalances store d ≠ .error .panicked := by
  intro h
  obtain ⟨s, x, h⟩ := foldlM_error h
  beta_reduce at h
  cases h1 : combineAmountDelta ((s.1.get x.1).getD 0) (some x.2) with
  | error e =>
    rw [h1] at h
    cases h
    exact combine_ne_panicked h1
  | ok r =>
    rw [h1] at h
    simp only [bind, Except.bind, neg_of_combine h1, okOr] at h
    cases h

theorem dbMergeData_get {store r : BMap K T} {d u : DataColl K T}
    (h : dbMergeData store d = .ok (r, u)) (k : K) :
    u.get k = (d.get k).map DataDelta.invert ∧
    match d.get k with
    | none => r.get k = store.get k
    | some x => store.get k = x.old ∧ r.get k = x.new := by
  obtain ⟨h', rfl⟩ := (BMap.mergeUndoM_ok_iff _ _ _ _ _ _).1 h
  refine ⟨BMap.get_mapV _ _ _, ?_⟩
  have hk := (BMap.mergeM_ok_iff _ _ _ _).1 h' k
  cases hd : d.get k with
  | none => simpa [hd] using hk
  | some x => rw [hd] at hk; simpa [combineDataWithDelta_some] using hk

theorem dbMergeBalances_get {store r : BMap K Nat} {d u : AmountColl K}
    (h : dbMergeBalances store d = .ok (r, u)) (k : K) :
    u.get k = (d.get k).map (fun x => -x) ∧
    match d.get k with
    | none => r.get k = store.get k
    | some x => combineAmountDelta (bal store k) (some x) = .ok (bal r k) ∧ r.get k ≠ some 0 := by
  obtain ⟨h', rfl⟩ := (BMap.mergeUndoM_ok_iff _ _ _ _ _ _).1 h
  refine ⟨BMap.get_mapV _ _ _, ?_⟩
  have hk := (BMap.mergeM_ok_iff _ _ _ _).1 h' k
  cases hd : d.get k with
  | none => simpa [hd] using hk
  | some x =>
    rw [hd] at hk
    simp only [bind_eq_ok, pure_eq_ok] at hk
    obtain ⟨v, h1, _, _, h2⟩ := hk
    simp only
    unfold bal
    rw [h1, ← h2]
    split
    · rename_i hv
      simp only [Option.getD_some, ne_eq, Option.some.injEq, true_and]
      omega
    · rename_i hv
      have : v = 0 := by omega
      simp [this]

/-- reading data through a layer over a store = reading after the flush -/
theorem getVal_flush {store r : BMap K T} {d u : DataColl K T}
    (h : dbMergeData store d = .ok (r, u)) (k : K) :
    getVal (E := E) (fun k => .ok (store.get k)) d k = .ok (r.get k) := by
  have := (dbMergeData_get h k).2
  cases hd : d.get k with
  | none => rw [hd] at this; rw [getVal_none hd, this]
  | some x => rw [hd] at this; rw [getVal_some hd, this.2]

/-- reading a balance through a layer over a store = reading after the flush -/
theorem getBal_flush {wrap : Err → E} {store r : BMap K Nat} {d u : AmountColl K}
    (h : dbMergeBalances store d = .ok (r, u)) (k : K) :
    getBal wrap (fun k => .ok (bal store k)) d k = .ok (bal r k) := by
  have := (dbMergeBalances_get h k).2
  unfold getBal
  rw [bind_eq_ok]
  refine ⟨_, rfl, ?_⟩
  rw [mapError_ok]
  cases hd : d.get k with
  | none => rw [hd] at this; simp [combineAmountDelta, bal, this]
  | some x => rw [hd] at this; exact this.1

/-! ### Flushing into a parent layer -/

/-- reading data through two layers = reading through the merged layer -/
theorem getVal_merge {parent : K → Except E (Option T)} {c d m u : DataColl K T}
    (h : mergeDeltaData c d = .ok (m, u)) (k : K) :
    getVal (getVal parent c) d k = getVal parent m k := by
  have := (mergeDeltaData_ok h k).2
  cases hd : d.get k with
  | none =>
    rw [getVal_none hd]
    rw [hd] at this
    have hm : m.get k = c.get k := by cases hc : c.get k <;> simp_all
    unfold getVal getData
    rw [hm]
  | some y =>
    rw [getVal_some hd]
    cases hc : c.get k with
    | none => rw [hd, hc] at this; rw [getVal_some this]
    | some x => rw [hd, hc] at this; rw [getVal_some this.2]

/-- a balance readable through two layers is the same through the merged layer -/
theorem getBal_merge {wrap : Err → E} {parent : K → Except E Nat} {c d m : AmountColl K}
    (h : mergeAmounts c d = .ok m) {k : K} {v : Nat}
    (hv : getBal wrap (getBal wrap parent c) d k = .ok v) :
    getBal wrap parent m k = .ok v := by
  have := mergeAmounts_ok h k
  obtain ⟨q, hq, e1, e2⟩ := getBal_ok.1 hv
  obtain ⟨p, hp, e3, e4⟩ := getBal_ok.1 hq
  refine getBal_ok.2 ⟨p, hp, ?_⟩
  cases hd : d.get k with
  | none =>
    rw [hd] at this e1
    simp only [dval_none] at this e1
    rw [this]
    refine ⟨by omega, fun hs => ?_⟩
    have := e4 hs
    constructor <;> omega
  | some y =>
    rw [hd] at this e1 e2
    simp only [dval_some, Option.isSome_some, forall_const] at this e1 e2
    rw [this, dval_norm]
    refine ⟨by omega, fun hs => ⟨?_, e2.2⟩⟩
    cases hc : c.get k with
    | none => rw [hc] at e3; simp only [dval_none] at e3; omega
    | some x => rw [hc] at e4; exact (e4 rfl).1

theorem anchored_merge {parent : K → Except E (Option T)} {c c' : DataColl K T}
    {k : K} {cur new : Option T} {u : DataDelta T}
    (hA : ∀ k e, c.get k = some e → parent k = .ok e.old)
    (hcur : getVal parent c k = .ok cur)
    (hm : mergeDeltaDataElement c k ⟨cur, new⟩ = .ok (c', u)) :
    ∀ k e, c'.get k = some e → parent k = .ok e.old := by
  obtain ⟨h1, -, rfl⟩ := mergeElem_ok.1 hm
  intro k' e he
  rw [BMap.get_insert] at he
  split at he
  · rename_i ek
    subst ek
    cases he
    cases hc : c.get k' with
    | none => rw [getVal_none hc] at hcur; exact hcur
    | some x => exact hA _ x hc
  · exact hA _ _ he

/-- a balance layer all of whose balances can be read can be flushed into the store -/
theorem dbMergeBalances_isOk {wrap : Err → E} {store : BMap K Nat} {d : AmountColl K}
    (h : ∀ k, ∃ v, getBal (E := E) wrap (fun k => .ok (bal store k)) d k = .ok v) :
    ∃ r u, dbMergeBalances store d = .ok (r, u) := by
  have : ∃ r, BMap.mergeM (fun (_ : K) (cur : Option Nat) (delta : Int) => (do
      let r ← combineAmountDelta (cur.getD 0) (some delta)
      let _ ← okOr (SAmt.neg delta) .panicked
      pure (if r > 0 then some r else none) : Except Err _)) store d = .ok r := by
    rw [BMap.mergeM_isOk_iff]
    intro k x hx
    obtain ⟨v, hv⟩ := h k
    unfold getBal at hv
    rw [bind_eq_ok] at hv
    obtain ⟨p, hp, hv⟩ := hv
    cases hp
    rw [mapError_ok, hx] at hv
    refine ⟨if v > 0 then some v else none, ?_⟩
    simp only [bind_eq_ok, okOr_eq_ok, pure_eq_ok]
    exact ⟨v, hv, _, neg_of_combine hv, rfl⟩
  obtain ⟨r, hr⟩ := this
  exact ⟨r, _, (BMap.mergeUndoM_ok_iff _ _ _ _ _ _).2 ⟨hr, rfl⟩⟩

theorem dbMergeData_isOk {store : BMap K T} {d : DataColl K T}
    (h : ∀ k e, d.get k = some e → store.get k = e.old) :
    ∃ r u, dbMergeData store d = .ok (r, u) := by
  have : ∃ r, BMap.mergeM (fun (_ : K) (cur : Option T) (delta : DataDelta T) =>
      combineDataWithDelta cur (some delta)) store d = .ok r := by
    rw [BMap.mergeM_isOk_iff]
    intro k x hx
    exact ⟨x.new, combineDataWithDelta_some.2 ⟨h k x hx, rfl⟩⟩
  obtain ⟨r, hr⟩ := this
  exact ⟨r, _, (BMap.mergeUndoM_ok_iff _ _ _ _ _ _).2 ⟨hr, rfl⟩⟩

/-- subtracting at most what can be read never overflows the signed delta -/
theorem subUnsigned_isOk {wrap : Err → E} {parent : K → Except E Nat} {c : AmountColl K} {k : K} {a v : Nat}
    (h : getBal wrap parent c k = .ok v) (hle : a ≤ v) (hv : (v : Int) < I128) :
    ∃ r, subUnsigned c k a = .ok r := by
  obtain ⟨p, hp, e1, e2⟩ := getBal_ok.1 h
  refine ⟨_, subUnsigned_ok.2 ⟨by omega, mergeAmountElement_ok.2 ⟨?_, rfl⟩⟩⟩
  intro hs
  have := (e2 hs).1
  constructor <;> omega

/-! ### Rolling a flush back -/

/-- the undo map of a data flush restores the store -/
theorem dbMergeData_undo {store r : BMap K T} {d u : DataColl K T} (h : dbMergeData store d = .ok (r, u)) :
    ∃ u', dbMergeData r u = .ok (store, u') := by
  refine ⟨_, (BMap.mergeUndoM_ok_iff _ _ _ _ _ _).2 ⟨(BMap.mergeM_ok_iff _ _ _ _).2 ?_, rfl⟩⟩
  intro k
  obtain ⟨h1, h2⟩ := dbMergeData_get h k
  cases hd : d.get k with
  | none => rw [hd] at h1 h2; rw [h1]; exact h2.symm
  | some x =>
    rw [hd] at h1 h2
    rw [h1]
    simp only [Option.map_some]
    exact combineDataWithDelta_some.2 ⟨h2.2, h2.1⟩

/-- the undo map of a balance flush restores every balance -/
theorem dbMergeBalances_undo {store r : BMap K Nat} {d u : AmountColl K} (h : dbMergeBalances store d = .ok (r, u)) :
    ∃ s u', dbMergeBalances r u = .ok (s, u') ∧ (∀ k, bal s k = bal store k) ∧
      ((∀ k, store.get k ≠ some 0) → s = store) := by
  have hc : ∀ k x, d.get k = some x → combineAmountDelta (bal r k) (some (-x)) = .ok (bal store k) := by
    intro k x hx
    have h2 := (dbMergeBalances_get h k).2
    rw [hx] at h2
    have h3 := h2.1
    rw [combineAmountDelta_ok] at h3 ⊢
    omega
  obtain ⟨s, u', hs⟩ := dbMergeBalances_isOk (E := Err) (wrap := id) (store := r) (d := u) (by
    intro k
    have h1 := (dbMergeBalances_get h k).1
    unfold getBal
    cases hd : d.get k with
    | none => rw [hd] at h1; rw [h1]; exact ⟨_, rfl⟩
    | some x =>
      rw [hd] at h1
      rw [h1]
      refine ⟨bal store k, ?_⟩
      rw [bind_eq_ok]
      exact ⟨_, rfl, by rw [mapError_ok]; exact hc k x hd⟩)
  have hb : ∀ k, bal s k = bal store k := by
    intro k
    have h1 := (dbMergeBalances_get h k)
    have h2 := (dbMergeBalances_get hs k).2
    rw [h1.1] at h2
    cases hd : d.get k with
    | none => rw [hd] at h2 h1; have := h1.2; simp only [Option.map_none] at h2; simp only at this; unfold bal; rw [h2, this]
    | some x =>
      rw [hd] at h2
      simp only [Option.map_some] at h2
      rw [hc k x hd] at h2
      injection h2.1 with h2
      exact h2.symm
  refine ⟨s, u', hs, hb, fun hz => BMap.ext_get fun k => ?_⟩
  have h1 := (dbMergeBalances_get h k)
  have h2 := (dbMergeBalances_get hs k).2
  rw [h1.1] at h2
  cases hd : d.get k with
  | none => rw [hd] at h2 h1; have := h1.2; simp only [Option.map_none] at h2; simp only at this; rw [h2, this]
  | some x =>
    rw [hd] at h2
    simp only [Option.map_some] at h2
    have e := hb k
    have z := hz k
    have z' := h2.2
    unfold bal at e
    cases h3 : s.get k <;> cases h4 : store.get k <;> simp_all

end Verif.Accounting
