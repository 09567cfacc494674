import Verif.Tokens.Model

namespace Verif.Tokens
open Verif Verif.Accounting Verif.History

@[simp] theorem lift_ok {A : Type} {x : Except Accounting.Err A} {a : A} : lift x = .ok a ↔ x = .ok a :=
  mapError_ok

theorem putData_ok {c c' : Cache} {id : TokenId} {d new : TokenData} {mk : DataDelta TokenData → Undo} {u : Undo} :
    putData c id d new mk = .ok (c', u) ↔
      ∃ data du, mergeDeltaDataElement c.delta.data id ⟨some d, some new⟩ = .ok (data, du) ∧
        c' = { c with delta := { c.delta with data := data } } ∧ u = mk du := by
  simp only [putData, bind_eq_ok, lift_ok, pure_eq_ok, Prod.mk.injEq]
  constructor
  · rintro ⟨⟨data, du⟩, h, rfl, rfl⟩; exact ⟨data, du, h, rfl, rfl⟩
  · rintro ⟨data, du, h, rfl, rfl⟩; exact ⟨⟨data, du⟩, h, rfl, rfl⟩

/-- which data transitions operations make -/
inductive Trans (v : View) : Op → TokenId → Option TokenData → TokenData → Prop
  | issue (id i) : v.supply id = .ok 0 → Trans v (.issue id i) id none (.ofIssuance i)
  | lock (id d) : d.locked = false → d.isFrozen = false → d.totalSupply = .lockable →
      Trans v (.lock id) id (some d) { d with locked := true }
  | freeze (id d b) : d.frozen = .no true → Trans v (.freeze id b) id (some d) { d with frozen := .yes b }
  | unfreeze (id d) : d.frozen = .yes true → Trans v (.unfreeze id) id (some d) { d with frozen := .no true }
  | changeAuthority (id d a) : d.isFrozen = false →
      Trans v (.changeAuthority id a) id (some d) { d with authority := a }
  | changeMetadataUri (id d a) : d.isFrozen = false →
      Trans v (.changeMetadataUri id a) id (some d) { d with metadataUri := a }

/-- the three kinds of effects of a successful operation -/
theorem step_cases {c c' : Cache} {op : Op} {u : Undo} (h : step c op = .ok (c', u)) :
    (∃ id cur new data du, Trans c.view op id cur new ∧ c.view.data id = .ok cur ∧
      mergeDeltaDataElement c.delta.data id ⟨cur, some new⟩ = .ok (data, du) ∧
      c' = { c with delta := { c.delta with data := data } } ∧
      (∀ i a, u ≠ .mint i a) ∧ (∀ i a, u ≠ .unmint i a) ∧
      ∀ t : Cache, t.view.data id = .ok (some new) → undo t u = undoData t id du) ∨
    (∃ id a d supply, op = .mint id a ∧ u = .mint id a ∧ c.view.data id = .ok (some d) ∧ d.isFrozen = false ∧
      mintPolicy c id d a = .ok () ∧ addUnsigned c.delta.supply id a = .ok supply ∧
      c' = { c with delta := { c.delta with supply := supply } }) ∨
    (∃ id a d s supply, op = .unmint id a ∧ u = .unmint id a ∧ c.view.data id = .ok (some d) ∧
      d.isFrozen = false ∧ d.locked = false ∧ c.view.supply id = .ok s ∧ a ≤ s ∧
      subUnsigned c.delta.supply id a = .ok supply ∧
      c' = { c with delta := { c.delta with supply := supply } }) := by
  cases op with
  | issue id i =>
    left
    simp only [step, issueToken, bind_eq_ok, ensure_eq_ok, lift_ok, pure_eq_ok, Prod.mk.injEq] at h
    obtain ⟨od, h1, _, h2, s, h3, _, h4, ⟨data, du⟩, h5, rfl, rfl⟩ := h
    have : od = none := by simpa using h2
    subst this
    have : s = 0 := by omega
    subst this
    refine ⟨id, none, _, data, du, .issue id i h3, h1, h5, rfl, by simp, by simp, fun t ht => ?_⟩
    simp only [undo, ht, okOr, bind, Except.bind]
  | mint id a =>
    right; left
    simp only [step, mintTokens, bind_eq_ok, okOr_eq_ok, ensure_eq_ok, lift_ok, pure_eq_ok, Prod.mk.injEq] at h
    obtain ⟨od, h1, d, rfl, _, h2, _, h3, supply, h4, rfl, rfl⟩ := h
    exact ⟨id, a, d, supply, rfl, rfl, h1, h2, h3, h4, rfl⟩
  | unmint id a =>
    right; right
    simp only [step, unmintTokens, bind_eq_ok, okOr_eq_ok, ensure_eq_ok, lift_ok, pure_eq_ok, Prod.mk.injEq] at h
    obtain ⟨od, h1, d, rfl, _, h2, _, h3, s, h4, _, h5, supply, h6, rfl, rfl⟩ := h
    exact ⟨id, a, d, s, supply, rfl, rfl, h1, h3, h2, h4, by omega, h6, rfl⟩
  | lock id =>
    left
    simp only [step, lockSupply, bind_eq_ok, okOr_eq_ok, ensure_eq_ok, putData_ok] at h
    obtain ⟨od, h1, d, rfl, _, h2, _, h3, new, h4, data, du, h5, rfl, rfl⟩ := h
    have : d.totalSupply = .lockable ∧ new = { d with locked := true } := by
      unfold TokenData.tryLock at h4
      split at h4
      · cases h4
      · cases h4
      · rename_i e; exact ⟨e, by simpa using h4.symm⟩
    obtain ⟨e1, rfl⟩ := this
    refine ⟨id, some d, _, data, du, .lock id d h2 h3 e1, h1, h5, rfl, by simp, by simp, fun t ht => ?_⟩
    simp [undo, ht, okOr, bind, Except.bind, ensure]
  | freeze id b =>
    left
    simp only [step, freezeToken, bind_eq_ok, okOr_eq_ok, ensure_eq_ok, putData_ok] at h
    obtain ⟨od, h1, d, rfl, _, h2, new, h4, data, du, h5, rfl, rfl⟩ := h
    have : d.frozen = .no true ∧ new = { d with frozen := .yes b } := by
      unfold TokenData.tryFreeze TokenData.canBeFrozen at h4
      cases hf : d.frozen <;> simp only [hf] at h4 <;> split at h4 <;> simp_all
    obtain ⟨e1, rfl⟩ := this
    refine ⟨id, some d, _, data, du, .freeze id d b e1, h1, h5, rfl, by simp, by simp, fun t ht => ?_⟩
    simp [undo, ht, okOr, bind, Except.bind, ensure, TokenData.isFrozen]
  | unfreeze id =>
    left
    simp only [step, unfreezeToken, bind_eq_ok, okOr_eq_ok, ensure_eq_ok, putData_ok] at h
    obtain ⟨od, h1, d, rfl, _, h2, new, h4, data, du, h5, rfl, rfl⟩ := h
    have : d.frozen = .yes true ∧ new = { d with frozen := .no true } := by
      unfold TokenData.tryUnfreeze TokenData.canBeUnfrozen at h4
      cases hf : d.frozen <;> simp only [hf] at h4 <;> split at h4 <;> simp_all
    obtain ⟨e1, rfl⟩ := this
    refine ⟨id, some d, _, data, du, .unfreeze id d e1, h1, h5, rfl, by simp, by simp, fun t ht => ?_⟩
    simp [undo, ht, okOr, bind, Except.bind, ensure, TokenData.isFrozen]
  | changeAuthority id a =>
    left
    simp only [step, changeAuthority, bind_eq_ok, okOr_eq_ok, ensure_eq_ok, putData_ok] at h
    obtain ⟨od, h1, d, rfl, _, h2, data, du, h5, rfl, rfl⟩ := h
    refine ⟨id, some d, _, data, du, .changeAuthority id d a h2, h1, h5, rfl, by simp, by simp, fun t ht => ?_⟩
    have h2' : ({ d with authority := a } : TokenData).isFrozen = false := h2
    simp [undo, ht, okOr, bind, Except.bind, ensure, h2']
  | changeMetadataUri id a =>
    left
    simp only [step, changeMetadataUri, bind_eq_ok, okOr_eq_ok, ensure_eq_ok, putData_ok] at h
    obtain ⟨od, h1, d, rfl, _, h2, data, du, h5, rfl, rfl⟩ := h
    refine ⟨id, some d, _, data, du, .changeMetadataUri id d a h2, h1, h5, rfl, by simp, by simp, fun t ht => ?_⟩
    have h2' : ({ d with metadataUri := a } : TokenData).isFrozen = false := h2
    simp [undo, ht, okOr, bind, Except.bind, ensure, h2']

/-- a locked supply is of the lockable kind -/
def LockedOk (v : View) : Prop :=
  ∀ id d, v.data id = .ok (some d) → d.locked = true → d.totalSupply = .lockable

/-- invariant needed for undo -/
def Inv (c : Cache) : Prop := WFA c.delta.supply ∧ LockedOk c.view

/-- `t` equals `c` up to "no change" data entries -/
def Ext (c t : Cache) : Prop :=
  t.parent = c.parent ∧ t.delta.supply = c.delta.supply ∧ ExtD c.parent.data c.delta.data t.delta.data

theorem Ext.refl (c : Cache) : Ext c c := ⟨rfl, rfl, ExtD.refl _ _⟩

theorem Ext.view {c t : Cache} (h : Ext c t) : t.view = c.view := by
  obtain ⟨h1, h2, h4⟩ := h
  unfold Cache.view
  rw [h1, h2]
  congr 1
  funext id
  exact h4.getVal id

theorem step_data {c c' : Cache} {op : Op} {u : Undo} (h : step c op = .ok (c', u)) (i : TokenId) :
    c'.view.data i = c.view.data i ∨
    ∃ cur new, Trans c.view op i cur new ∧ c.view.data i = .ok cur ∧ c'.view.data i = .ok (some new) := by
  rcases step_cases h with ⟨id, cur, new, data, du, ht, h1, h2, rfl, -⟩ | ⟨id, a, d, s, -, -, -, -, -, -, rfl⟩ |
    ⟨id, a, d, s, _, -, -, -, -, -, -, -, -, rfl⟩
  · by_cases e : i = id
    · subst e; right; exact ⟨cur, new, ht, h1, (getVal_merged h2 i).trans (if_pos rfl)⟩
    · left; exact (getVal_merged h2 i).trans (if_neg e)
  · left; rfl
  · left; rfl

theorem step_inv {c c' : Cache} {op : Op} {u : Undo} (hi : Inv c) (h : step c op = .ok (c', u)) : Inv c' := by
  obtain ⟨w, l⟩ := hi
  constructor
  · rcases step_cases h with ⟨id, cur, new, data, du, ht, h1, h2, rfl, -⟩ | ⟨id, a, d, s, -, -, -, -, -, h6, rfl⟩ |
      ⟨id, a, d, _, s, -, -, -, -, -, -, -, h6, rfl⟩
    · exact w
    · exact w.add h6
    · exact w.sub h6
  · intro i d hd hl
    rcases step_data h i with e | ⟨cur, new, ht, e1, e2⟩
    · exact l i d (e ▸ hd) hl
    · rw [e2] at hd; cases hd
      cases ht with
      | issue => simp [TokenData.ofIssuance] at hl
      | lock _ d _ _ e => exact e
      | freeze _ d => exact l i d e1 hl
      | unfreeze _ d => exact l i d e1 hl
      | changeAuthority _ d => exact l i d e1 hl
      | changeMetadataUri _ d => exact l i d e1 hl

theorem mint_not_locked {c : Cache} {id : TokenId} {d : TokenData} {a : Nat} (hl : LockedOk c.view)
    (hd : c.view.data id = .ok (some d)) (hp : mintPolicy c id d a = .ok ()) : d.locked = false := by
  by_contra hne
  have hlk : d.locked = true := by simpa using hne
  have := hl id d hd hlk
  unfold mintPolicy at hp
  rw [this] at hp
  simp [ensure, hlk] at hp

theorem mintPolicy_congr {c t : Cache} (h : t.view = c.view) (id : TokenId) (d : TokenData) (a : Nat) :
    mintPolicy t id d a = mintPolicy c id d a := by
  unfold mintPolicy; rw [h]

theorem undo_step {c c' t' : Cache} {op : Op} {u : Undo} (hi : Inv c)
    (h : step c op = .ok (c', u)) (hx : Ext c' t') : ∃ t, undo t' u = .ok t ∧ Ext c t := by
  have hview := hx.view
  obtain ⟨w, l⟩ := hi
  obtain ⟨x1, x2, x3⟩ := hx
  rcases step_cases h with ⟨id, cur, new, data, du, ht, h1, h2, rfl, -, -, h3⟩ |
    ⟨id, a, d, s, rfl, rfl, h1, h2, h3, h4, rfl⟩ | ⟨id, a, d, _, s, rfl, rfl, h1, h2, h3, h4, h5, h6, rfl⟩
  · simp only at x1 x2 x3
    obtain ⟨td, e1, e2⟩ := undoElem h1 h2 x3
    have hd : t'.view.data id = .ok (some new) := by
      rw [hview]; exact (getVal_merged h2 id).trans (if_pos rfl)
    refine ⟨{ t' with delta := { t'.delta with data := td } }, ?_, x1, x2, e2⟩
    rw [h3 t' hd]
    simp only [undoData, bind_eq_ok, lift_ok, pure_eq_ok]
    exact ⟨td, e1, rfl⟩
  · simp only at x1 x2 x3
    refine ⟨{ t' with delta := { t'.delta with supply := c.delta.supply } }, ?_, x1, rfl, x3⟩
    simp only [undo, bind_eq_ok, okOr_eq_ok, ensure_eq_ok, lift_ok, pure_eq_ok]
    refine ⟨some d, by rw [hview]; exact h1, d, rfl, (), mint_not_locked l h1 h3, c.delta.supply, ?_, rfl⟩
    rw [x2]; exact add_sub_cancel' w h4
  · simp only at x1 x2 x3
    refine ⟨{ t' with delta := { t'.delta with supply := c.delta.supply } }, ?_, x1, rfl, x3⟩
    simp only [undo, bind_eq_ok, okOr_eq_ok, ensure_eq_ok, lift_ok, pure_eq_ok]
    refine ⟨some d, by rw [hview]; exact h1, d, rfl, (), h3, c.delta.supply, ?_, rfl⟩
    rw [x2]; exact sub_add_cancel' w h6

/-- an operation accepted on an extension is accepted, with the same report, on the original -/
theorem ext_step {c t t' : Cache} {op : Op} {u : Undo} (hx : Ext c t) (h : step t op = .ok (t', u)) :
    ∃ c', step c op = .ok (c', u) ∧ Ext c' t' := by
  have hview := hx.view
  obtain ⟨x1, x2, x3⟩ := hx
  have md : ∀ {id : TokenId} {cur new : Option TokenData} {data : DataColl TokenId TokenData}
      {du : DataDelta TokenData}, c.view.data id = .ok cur →
      mergeDeltaDataElement t.delta.data id ⟨cur, new⟩ = .ok (data, du) →
      ∃ data', mergeDeltaDataElement c.delta.data id ⟨cur, new⟩ = .ok (data', du) ∧
        ExtD c.parent.data data' data := by
    intro id cur new data du h1 h2
    exact x3.mergeElem h2 h1
  cases op with
  | issue id i =>
    simp only [step, issueToken, bind_eq_ok, ensure_eq_ok, lift_ok, pure_eq_ok, Prod.mk.injEq, hview] at h ⊢
    obtain ⟨od, h1, _, h2, s, h3, _, h4, ⟨data, du⟩, h5, rfl, rfl⟩ := h
    have : od = none := by simpa using h2
    subst this
    obtain ⟨data', g1, g2⟩ := md h1 h5
    exact ⟨_, ⟨none, h1, (), h2, s, h3, (), h4, ⟨data', du⟩, g1, rfl, rfl⟩, x1, x2, g2⟩
  | mint id a =>
    simp only [step, mintTokens, bind_eq_ok, okOr_eq_ok, ensure_eq_ok, lift_ok, pure_eq_ok, Prod.mk.injEq, hview,
      mintPolicy_congr hview, x2] at h ⊢
    obtain ⟨od, h1, d, rfl, _, h2, _, h3, supply, h4, rfl, rfl⟩ := h
    exact ⟨_, ⟨some d, h1, d, rfl, (), h2, (), h3, supply, h4, rfl, rfl⟩, x1, rfl, x3⟩
  | unmint id a =>
    simp only [step, unmintTokens, bind_eq_ok, okOr_eq_ok, ensure_eq_ok, lift_ok, pure_eq_ok, Prod.mk.injEq, hview,
      x2] at h ⊢
    obtain ⟨od, h1, d, rfl, _, h2, _, h3, s, h4, _, h5, supply, h6, rfl, rfl⟩ := h
    exact ⟨_, ⟨some d, h1, d, rfl, (), h2, (), h3, s, h4, (), h5, supply, h6, rfl, rfl⟩, x1, rfl, x3⟩
  | lock id =>
    simp only [step, lockSupply, bind_eq_ok, okOr_eq_ok, ensure_eq_ok, putData_ok, hview] at h ⊢
    obtain ⟨od, h1, d, rfl, _, h2, _, h3, new, h4, data, du, h5, rfl, rfl⟩ := h
    obtain ⟨data', g1, g2⟩ := md h1 h5
    exact ⟨_, ⟨some d, h1, d, rfl, (), h2, (), h3, new, h4, data', du, g1, rfl, rfl⟩, x1, x2, g2⟩
  | freeze id b =>
    simp only [step, freezeToken, bind_eq_ok, okOr_eq_ok, ensure_eq_ok, putData_ok, hview] at h ⊢
    obtain ⟨od, h1, d, rfl, _, h2, new, h4, data, du, h5, rfl, rfl⟩ := h
    obtain ⟨data', g1, g2⟩ := md h1 h5
    exact ⟨_, ⟨some d, h1, d, rfl, (), h2, new, h4, data', du, g1, rfl, rfl⟩, x1, x2, g2⟩
  | unfreeze id =>
    simp only [step, unfreezeToken, bind_eq_ok, okOr_eq_ok, ensure_eq_ok, putData_ok, hview] at h ⊢
    obtain ⟨od, h1, d, rfl, _, h2, new, h4, data, du, h5, rfl, rfl⟩ := h
    obtain ⟨data', g1, g2⟩ := md h1 h5
    exact ⟨_, ⟨some d, h1, d, rfl, (), h2, new, h4, data', du, g1, rfl, rfl⟩, x1, x2, g2⟩
  | changeAuthority id a =>
    simp only [step, changeAuthority, bind_eq_ok, okOr_eq_ok, ensure_eq_ok, putData_ok, hview] at h ⊢
    obtain ⟨od, h1, d, rfl, _, h2, data, du, h5, rfl, rfl⟩ := h
    obtain ⟨data', g1, g2⟩ := md h1 h5
    exact ⟨_, ⟨some d, h1, d, rfl, (), h2, data', du, g1, rfl, rfl⟩, x1, x2, g2⟩
  | changeMetadataUri id a =>
    simp only [step, changeMetadataUri, bind_eq_ok, okOr_eq_ok, ensure_eq_ok, putData_ok, hview] at h ⊢
    obtain ⟨od, h1, d, rfl, _, h2, data, du, h5, rfl, rfl⟩ := h
    obtain ⟨data', g1, g2⟩ := md h1 h5
    exact ⟨_, ⟨some d, h1, d, rfl, (), h2, data', du, g1, rfl, rfl⟩, x1, x2, g2⟩

theorem undoable : Undoable step undo Inv Ext where
  refl := Ext.refl
  inv := step_inv
  undo_step := undo_step
  ext_step := fun _ hx h => ext_step hx h

theorem step_parent {c c' : Cache} {op : Op} {u : Undo} (h : step c op = .ok (c', u)) :
    c'.parent = c.parent := by
  rcases step_cases h with ⟨id, cur, new, data, du, ht, h1, h2, rfl, -⟩ | ⟨id, a, d, s, -, -, -, -, -, h6, rfl⟩ |
    ⟨id, a, d, _, s, -, -, -, -, -, -, -, h6, rfl⟩ <;> rfl

/-- every recorded data change starts from the parent's value -/
def Anchored (c : Cache) : Prop :=
  ∀ k e, c.delta.data.get k = some e → c.parent.data k = .ok e.old

theorem step_anchored {c c' : Cache} {op : Op} {u : Undo} (hA : Anchored c) (h : step c op = .ok (c', u)) :
    Anchored c' := by
  rcases step_cases h with ⟨id, cur, new, data, du, ht, h1, h2, rfl, -⟩ | ⟨id, a, d, s, -, -, -, -, -, h6, rfl⟩ |
    ⟨id, a, d, _, s, -, -, -, -, -, -, -, h6, rfl⟩
  · exact anchored_merge hA h1 h2
  · exact hA
  · exact hA

theorem Ext.anchored {c t : Cache} (hx : Ext c t) (h : Anchored c) : Anchored t := by
  obtain ⟨x1, _, x3⟩ := hx
  intro k e he
  rw [x1]
  rcases x3 k with g | ⟨g, v, g1, g2⟩
  · exact h k e (g ▸ he)
  · rw [g1] at he; cases he; exact g2

end Verif.Tokens
