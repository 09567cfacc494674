import Verif.Accounting.Layer

/-!
# What a layer shows

`RepD parent c f` / `RepB wrap parent c g`: the pending changes `c` on top of `parent` show exactly the data `f` /
the balances `g`, and are in the condition in which the operations leave them.  Two layers showing the same thing
need not be over the same parent: this is what is needed when a block is connected by one cache and disconnected
by another.
-/

namespace Verif.Accounting
open Verif

variable {K T E : Type} [LinearOrder K] [DecidableEq T]

/-- the data layer `c` over `parent` shows `f`, and every pending change starts from the parent's value -/
structure RepD (parent : K → Except E (Option T)) (c : DataColl K T) (f : K → Option T) : Prop where
  anchored : ∀ k e, c.get k = some e → parent k = .ok e.old
  val : ∀ k, getVal parent c k = .ok (f k)

/-- the balance layer `c` over `parent` shows `g`; all balances are below 2^127 -/
structure RepB (parent : K → Except E Nat) (c : AmountColl K) (g : K → Nat) : Prop where
  wf : WFA c
  bal : ∀ k, ∃ p : Nat, parent k = .ok p ∧ (p : Int) < I128 ∧ (g k : Int) = p + dval (c.get k) ∧ (g k : Int) < I128

omit [DecidableEq T] in
theorem RepD.inj {parent : K → Except E (Option T)} {c : DataColl K T} {f f' : K → Option T}
    (h : RepD parent c f) (h' : RepD parent c f') : f = f' := by
  funext k
  have := (h.val k).symm.trans (h'.val k)
  exact Except.ok.inj this

theorem RepB.inj {parent : K → Except E Nat} {c : AmountColl K} {g g' : K → Nat}
    (h : RepB parent c g) (h' : RepB parent c g') : g = g' := by
  funext k
  obtain ⟨p, h1, _, h2, _⟩ := h.bal k
  obtain ⟨p', h1', _, h2', _⟩ := h'.bal k
  rw [h1] at h1'; cases h1'
  omega

theorem RepD.empty {parent : K → Except E (Option T)} {f : K → Option T} (h : ∀ k, parent k = .ok (f k)) :
    RepD parent BMap.empty f :=
  ⟨fun k e he => by simp at he, fun k => by rw [getVal_none (by simp)]; exact h k⟩

theorem RepB.empty {parent : K → Except E Nat} {g : K → Nat}
    (h : ∀ k, parent k = .ok (g k) ∧ (g k : Int) < I128) : RepB parent BMap.empty g :=
  ⟨WFA.empty, fun k => ⟨g k, (h k).1, (h k).2, by simp, (h k).2⟩⟩

theorem RepB.read {wrap : Err → E} {parent : K → Except E Nat} {c : AmountColl K} {g : K → Nat}
    (h : RepB parent c g) (k : K) : getBal wrap parent c k = .ok (g k) := by
  obtain ⟨p, h1, h2, h3, h4⟩ := h.bal k
  exact getBal_ok.2 ⟨p, h1, h3, fun _ => ⟨h2, h4⟩⟩

theorem RepB.lt {parent : K → Except E Nat} {c : AmountColl K} {g : K → Nat}
    (h : RepB parent c g) (k : K) : (g k : Int) < I128 := by
  obtain ⟨p, h1, h2, h3, h4⟩ := h.bal k; exact h4

/-- a change from the shown value to `new` -/
theorem RepD.merge {parent : K → Except E (Option T)} {c : DataColl K T} {f : K → Option T}
    (h : RepD parent c f) {k : K} {old : Option T} (ho : f k = old) (new : Option T) :
    ∃ c', mergeDeltaDataElement c k ⟨old, new⟩ = .ok (c', ⟨new, old⟩) ∧ RepD parent c' (Function.update f k new) := by
  subst ho
  have hm : ∃ c', mergeDeltaDataElement c k ⟨f k, new⟩ = .ok (c', ⟨new, f k⟩) := by
    refine ⟨_, mergeElem_ok.2 ⟨?_, rfl, rfl⟩⟩
    intro e he
    have := h.val k
    rw [getVal_some he] at this
    exact Except.ok.inj this
  obtain ⟨c', hm⟩ := hm
  refine ⟨c', hm, anchored_merge h.anchored (h.val k) hm, fun k' => ?_⟩
  rw [getVal_merged hm]
  by_cases e : k' = k
  · subst e; simp
  · rw [if_neg e, Function.update_of_ne e]; exact h.val k'

/-- an undo record whose starting point is the shown value -/
theorem RepD.undo {parent : K → Except E (Option T)} {c : DataColl K T} {f : K → Option T}
    (h : RepD parent c f) {k : K} {u : DataDelta T} (ho : f k = u.old) :
    ∃ c', undoMergeDeltaDataElement c k u = .ok c' ∧ RepD parent c' (Function.update f k u.new) := by
  obtain ⟨c', h1, h2⟩ := h.merge ho u.new
  refine ⟨c', ?_, h2⟩
  unfold undoMergeDeltaDataElement
  rw [bind_eq_ok]
  exact ⟨_, h1, rfl⟩

theorem RepB.change {parent : K → Except E Nat} {c c' : AmountColl K} {g : K → Nat} (h : RepB parent c g)
    {k : K} {n : Nat} (hw : WFA c') (hn : (n : Int) < I128)
    (hd : ∀ k', dval (c'.get k') = dval (c.get k') + if k' = k then (n : Int) - g k else 0) :
    RepB parent c' (Function.update g k n) := by
  refine ⟨hw, fun k' => ?_⟩
  obtain ⟨p, h1, h2, h3, h4⟩ := h.bal k'
  refine ⟨p, h1, h2, ?_, ?_⟩
  · rw [hd]
    by_cases e : k' = k
    · subst e; simp; omega
    · rw [Function.update_of_ne e, if_neg e]; omega
  · by_cases e : k' = k
    · subst e; simpa using hn
    · rw [Function.update_of_ne e]; exact h4

theorem RepB.add {parent : K → Except E Nat} {c : AmountColl K} {g : K → Nat}
    (h : RepB parent c g) {k : K} {a : Nat} (hlt : (g k : Int) + a < I128) :
    ∃ c', addUnsigned c k a = .ok c' ∧ RepB parent c' (Function.update g k (g k + a)) := by
  obtain ⟨p, h1, h2, h3, h4⟩ := h.bal k
  have hr := h.wf.dval k
  have hm : ∃ c', addUnsigned c k a = .ok c' := by
    refine ⟨_, addUnsigned_ok.2 ⟨by omega, mergeAmountElement_ok.2 ⟨?_, rfl⟩⟩⟩
    intro _
    have := hr.1
    constructor <;> omega
  obtain ⟨c', hm⟩ := hm
  refine ⟨c', hm, h.change (h.wf.add hm) (by push_cast; omega) fun k' => ?_⟩
  rw [dval_add hm]
  push_cast
  split <;> omega

theorem RepB.sub {parent : K → Except E Nat} {c : AmountColl K} {g : K → Nat}
    (h : RepB parent c g) {k : K} {a : Nat} (hle : a ≤ g k) :
    ∃ c', subUnsigned c k a = .ok c' ∧ RepB parent c' (Function.update g k (g k - a)) := by
  obtain ⟨p, h1, h2, h3, h4⟩ := h.bal k
  have hr := h.wf.dval k
  have hm : ∃ c', subUnsigned c k a = .ok c' := by
    refine ⟨_, subUnsigned_ok.2 ⟨by omega, mergeAmountElement_ok.2 ⟨?_, rfl⟩⟩⟩
    intro _
    have := hr.2
    constructor <;> omega
  obtain ⟨c', hm⟩ := hm
  refine ⟨c', hm, h.change (h.wf.sub hm) (by omega) fun k' => ?_⟩
  rw [dval_sub hm]
  split <;> omega

/-- what an addition did, if the result can be read -/
theorem RepB.of_add {wrap : Err → E} {parent : K → Except E Nat} {c c' : AmountColl K} {g : K → Nat}
    (h : RepB parent c g) {k : K} {a v : Nat} (hm : addUnsigned c k a = .ok c')
    (hv : getBal wrap parent c' k = .ok v) :
    (g k : Int) + a < I128 ∧ RepB parent c' (Function.update g k (g k + a)) := by
  have e := Accounting.getBal_add hm (h.read k) hv
  obtain ⟨p, h1, h2, h3, h4⟩ := h.bal k
  obtain ⟨p', h1', h3', h4'⟩ := getBal_ok.1 hv
  rw [h1] at h1'; cases h1'
  have hlt : (g k : Int) + a < I128 := by
    cases hc : c'.get k with
    | none =>
      rw [hc] at h3'; simp at h3'; omega
    | some x => rw [hc] at h4'; have := (h4' rfl).2; omega
  obtain ⟨c2, hm2, hr⟩ := h.add hlt
  rw [hm] at hm2; cases hm2
  exact ⟨hlt, hr⟩

/-- what a subtraction did, if the result can be read -/
theorem RepB.of_sub {wrap : Err → E} {parent : K → Except E Nat} {c c' : AmountColl K} {g : K → Nat}
    (h : RepB parent c g) {k : K} {a v : Nat} (hm : subUnsigned c k a = .ok c')
    (hv : getBal wrap parent c' k = .ok v) :
    a ≤ g k ∧ RepB parent c' (Function.update g k (g k - a)) := by
  have e := Accounting.getBal_sub hm (h.read k) hv
  have hle : a ≤ g k := by omega
  obtain ⟨c2, hm2, hr⟩ := h.sub hle
  rw [hm] at hm2; cases hm2
  exact ⟨hle, hr⟩

/-- what a change of data did -/
theorem RepD.of_merge {parent : K → Except E (Option T)} {c c' : DataColl K T} {f : K → Option T}
    (h : RepD parent c f) {k : K} {old new : Option T} {u : DataDelta T} (ho : f k = old)
    (hm : mergeDeltaDataElement c k ⟨old, new⟩ = .ok (c', u)) :
    u = ⟨new, old⟩ ∧ RepD parent c' (Function.update f k new) := by
  obtain ⟨c2, h1, h2⟩ := h.merge ho new
  rw [hm] at h1; cases h1
  exact ⟨rfl, h2⟩

/-! ### Flushing -/

/-- flushing a data layer into the store below it -/
theorem RepD.flush {store : BMap K T} {d : DataColl K T} {f : K → Option T}
    (h : RepD (E := E) (fun k => .ok (store.get k)) d f) :
    ∃ r u, dbMergeData store d = .ok (r, u) ∧ ∀ k, r.get k = f k := by
  obtain ⟨r, u, hm⟩ := dbMergeData_isOk (store := store) (d := d)
    (fun k e he => Except.ok.inj (h.anchored k e he))
  refine ⟨r, u, hm, fun k => ?_⟩
  have := h.val k
  rw [getVal_flush hm] at this
  exact Except.ok.inj this

/-- flushing a balance layer into the store below it -/
theorem RepB.flush {store : BMap K Nat} {d : AmountColl K} {g : K → Nat}
    (h : RepB (E := E) (fun k => .ok (Accounting.bal store k)) d g) (wrap : Err → E)
    (hz : ∀ k, store.get k ≠ some 0) :
    ∃ r u, dbMergeBalances store d = .ok (r, u) ∧ (∀ k, Accounting.bal r k = g k) ∧ ∀ k, r.get k ≠ some 0 := by
  obtain ⟨r, u, hm⟩ := dbMergeBalances_isOk (wrap := wrap) (store := store) (d := d)
    (fun k => ⟨g k, h.read k⟩)
  refine ⟨r, u, hm, fun k => ?_, fun k => ?_⟩
  · have h1 := h.read (wrap := wrap) k
    rw [getBal_flush hm] at h1
    exact Except.ok.inj h1
  · have := (dbMergeBalances_get hm k).2
    cases hd : d.get k with
    | none => rw [hd] at this; rw [this]; exact hz k
    | some x => rw [hd] at this; exact this.2

/-- flushing a data layer into the layer below it -/
theorem RepD.layer {parent : K → Except E (Option T)} {c d : DataColl K T} {f g : K → Option T}
    (hc : RepD parent c f) (hd : RepD (getVal parent c) d g) :
    ∃ r u, mergeDeltaData c d = .ok (r, u) ∧ RepD parent r g := by
  have hx : ∀ k y, d.get k = some y → f k = y.old := fun k y hy =>
    Except.ok.inj ((hc.val k).symm.trans (hd.anchored k y hy))
  obtain ⟨r, u, hm⟩ := mergeDeltaData_isOk (c := c) (d := d) (fun k x y h1 h2 => by
    have := hc.val k
    rw [getVal_some h1] at this
    rw [← hx k y h2]; exact Except.ok.inj this)
  refine ⟨r, u, hm, fun k e he => ?_, fun k => by rw [← getVal_merge hm]; exact hd.val k⟩
  have := (mergeDeltaData_ok hm k).2
  cases h1 : c.get k with
  | none =>
    cases h2 : d.get k with
    | none => rw [h1, h2] at this; simp only at this; rw [he] at this; simp at this
    | some y =>
      rw [h1, h2] at this; simp only at this; rw [he] at this; cases this
      rw [← hx k _ h2, ← hc.val k, getVal_none h1]
  | some x =>
    cases h2 : d.get k with
    | none => rw [h1, h2] at this; simp only at this; rw [he] at this; cases this; exact hc.anchored k _ h1
    | some y => rw [h1, h2] at this; simp only at this; rw [he] at this; cases this.2; exact hc.anchored k x h1

/-- flushing a balance layer into the layer below it -/
theorem RepB.layer {wrap : Err → E} {parent : K → Except E Nat} {c d : AmountColl K} {f g : K → Nat}
    (hc : RepB parent c f) (hd : RepB (getBal wrap parent c) d g) :
    ∃ r, mergeAmounts c d = .ok r ∧ RepB parent r g := by
  have key : ∀ k, ∃ p : Nat, parent k = .ok p ∧ (p : Int) < I128 ∧
      (g k : Int) = p + (dval (c.get k) + dval (d.get k)) ∧ (g k : Int) < I128 := by
    intro k
    obtain ⟨p, h1, h2, h3, h4⟩ := hc.bal k
    obtain ⟨q, h1', h2', h3', h4'⟩ := hd.bal k
    rw [hc.read k] at h1'
    cases Except.ok.inj h1'
    exact ⟨p, h1, h2, by omega, h4'⟩
  have hin : ∀ k, SAmt.InRange (dval (c.get k) + dval (d.get k)) := by
    intro k
    obtain ⟨p, h1, h2, h3, h4⟩ := key k
    constructor <;> omega
  have hm : ∃ r, mergeAmounts c d = .ok r := by
    rw [mergeAmounts_eq, BMap.mergeM_isOk_iff]
    intro k b hb
    have := hin k
    rw [hb] at this
    exact ⟨_, amountStep_ok.2 ⟨fun _ => this, rfl⟩⟩
  obtain ⟨r, hm⟩ := hm
  have hr : ∀ k, dval (r.get k) = dval (c.get k) + dval (d.get k) := by
    intro k
    have := mergeAmounts_ok hm k
    cases h2 : d.get k with
    | none => rw [h2] at this; simp only at this; simp [this]
    | some x => rw [h2] at this; simp only at this; simp [this]
  refine ⟨r, hm, fun k x hx => ?_, fun k => by rw [hr]; exact key k⟩
  have := mergeAmounts_ok hm k
  cases h2 : d.get k with
  | none => rw [h2] at this; simp only at this; exact hc.wf k x (this ▸ hx)
  | some y =>
    have hk := hr k
    rw [hx, dval_some] at hk
    rw [h2] at this; simp only at this
    rw [hx] at this
    refine ⟨?_, hk ▸ hin k⟩
    intro h0
    subst h0
    unfold norm at this
    split at this
    · cases this
    · rename_i hne
      exact hne (Option.some.inj this).symm


/-- if the merged layer can be read, so can the layer merged into it -/
theorem RepB.child_readable {wrap : Err → E} {parent : K → Except E Nat} {c d r : AmountColl K} {f : K → Nat}
    (hc : RepB parent c f) (hm : mergeAmounts c d = .ok r) {k : K} {v : Nat} (hv : getBal wrap parent r k = .ok v) :
    getBal wrap (getBal wrap parent c) d k = .ok v := by
  obtain ⟨p, h1, h2, h3⟩ := getBal_ok.1 hv
  obtain ⟨p', g1, g2, g3, g4⟩ := hc.bal k
  rw [h1] at g1; cases g1
  have e := mergeAmounts_ok hm k
  refine getBal_ok.2 ⟨f k, hc.read k, ?_, ?_⟩
  · cases hd : d.get k with
    | none => rw [hd] at e; simp only at e; rw [e] at h2; simp; omega
    | some x =>
      rw [hd] at e
      simp only at e
      rw [e] at h2
      have : Accounting.dval (norm (Accounting.dval (c.get k) + x)) = Accounting.dval (c.get k) + x := by
        unfold norm; split <;> simp_all
      rw [this] at h2
      simp; omega
  · intro _
    refine ⟨g4, ?_⟩
    cases hr : r.get k with
    | none => rw [hr] at h2; simp at h2; omega
    | some y => rw [hr] at h3; exact (h3 rfl).2

/-- a store without zero entries is determined by its balances -/
theorem store_ext {s t : BMap K Nat} (hs : ∀ k, s.get k ≠ some 0) (ht : ∀ k, t.get k ≠ some 0)
    (h : ∀ k, bal s k = bal t k) : s = t := by
  apply BMap.ext_get
  intro k
  have := h k
  have h1 := hs k
  have h2 := ht k
  unfold bal at this
  cases e1 : s.get k <;> cases e2 : t.get k <;> simp_all

end Verif.Accounting
