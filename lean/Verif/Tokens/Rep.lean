import Verif.Accounting.Rep
import Verif.Tokens.Lemmas

/-!
# Token operations and their undos act on what is shown, whatever the layering
-/

namespace Verif.Tokens
open Verif Verif.Accounting

/-- the token state as plain functions (absent supply = 0) -/
structure Sv where
  data : TokenId → Option TokenData
  supply : TokenId → Nat

/-- a locked supply is of the lockable kind -/
def Sv.LockedOk (s : Sv) : Prop := ∀ id d, s.data id = some d → d.locked = true → d.totalSupply = .lockable

/-- the cache shows `s` -/
structure Rep (c : Cache) (s : Sv) : Prop where
  data : RepD c.parent.data c.delta.data s.data
  supply : RepB c.parent.supply c.delta.supply s.supply

/-- every supply can be read -/
def Readable (c : Cache) : Prop := ∀ k, ∃ v, c.view.supply k = .ok v

theorem Rep.inj {c : Cache} {s s' : Sv} (h : Rep c s) (h' : Rep c s') : s = s' := by
  obtain ⟨a1, a2⟩ := s
  obtain ⟨b1, b2⟩ := s'
  congr
  · exact h.data.inj h'.data
  · exact h.supply.inj h'.supply

theorem Rep.readable {c : Cache} {s : Sv} (h : Rep c s) : Readable c := fun k => ⟨_, h.supply.read k⟩

theorem Rep.vData {c : Cache} {s : Sv} (h : Rep c s) (k : Nat) : c.view.data k = .ok (s.data k) := h.data.val k
theorem Rep.vSupply {c : Cache} {s : Sv} (h : Rep c s) (k : Nat) : c.view.supply k = .ok (s.supply k) :=
  h.supply.read k

/-- two caches showing the same have equal views -/
theorem Rep.view_eq {c t : Cache} {s : Sv} (h : Rep c s) (h' : Rep t s) : t.view = c.view := by
  have e1 : t.view.data = c.view.data := by funext k; rw [h.vData, h'.vData]
  have e2 : t.view.supply = c.view.supply := by funext k; rw [h.vSupply, h'.vSupply]
  cases ht : t.view; cases hc : c.view
  simp_all

/-- the operation takes any cache showing `s` to one showing `s'`, with undo `u`; the undo takes any cache showing
`s'` to one showing `s` -/
structure Move (s : Sv) (op : Op) (u : Undo) (s' : Sv) : Prop where
  fwd : ∀ t, Rep t s → ∃ t', step t op = .ok (t', u) ∧ Rep t' s'
  bwd : ∀ t, Rep t s' → ∃ t', undo t u = .ok t' ∧ Rep t' s

/-- the undo record of a data-changing operation -/
def undoOf (du : DataDelta TokenData) : Op → Undo
  | .issue id _ => .issue id du
  | .mint id a => .mint id a
  | .unmint id a => .unmint id a
  | .lock id => .lock id du
  | .freeze id _ => .freeze id du
  | .unfreeze id => .unfreeze id du
  | .changeAuthority id _ => .changeAuthority id du
  | .changeMetadataUri id _ => .changeMetadataUri id du

/-- a data-changing operation goes through whenever its conditions hold -/
theorem step_of_trans {t : Cache} {op : Op} {id : TokenId} {cur : Option TokenData} {new : TokenData}
    {data : DataColl TokenId TokenData} {du : DataDelta TokenData} (ht : Trans t.view op id cur new)
    (h1 : t.view.data id = .ok cur) (h2 : mergeDeltaDataElement t.delta.data id ⟨cur, some new⟩ = .ok (data, du)) :
    step t op = .ok ({ t with delta := { t.delta with data := data } }, undoOf du op) := by
  cases ht with
  | issue id i hs =>
    simp only [step, issueToken, bind_eq_ok, ensure_eq_ok, lift_ok, pure_eq_ok, undoOf]
    exact ⟨_, h1, (), rfl, _, hs, (), by omega, _, h2, rfl⟩
  | lock id d e1 e2 e3 =>
    simp only [step, lockSupply, bind_eq_ok, okOr_eq_ok, ensure_eq_ok, putData_ok, undoOf]
    exact ⟨_, h1, d, rfl, (), e1, (), e2, _, by simp [TokenData.tryLock, e3], data, du, h2, rfl, rfl⟩
  | freeze id d b e1 =>
    simp only [step, freezeToken, bind_eq_ok, okOr_eq_ok, ensure_eq_ok, putData_ok, undoOf]
    exact ⟨_, h1, d, rfl, (), by simp [TokenData.isFrozen, e1], _,
      by simp [TokenData.tryFreeze, TokenData.canBeFrozen, e1], data, du, h2, rfl, rfl⟩
  | unfreeze id d e1 =>
    simp only [step, unfreezeToken, bind_eq_ok, okOr_eq_ok, ensure_eq_ok, putData_ok, undoOf]
    exact ⟨_, h1, d, rfl, (), by simp [TokenData.isFrozen, e1], _,
      by simp [TokenData.tryUnfreeze, TokenData.canBeUnfrozen, e1], data, du, h2, rfl, rfl⟩
  | changeAuthority id d a e1 =>
    simp only [step, changeAuthority, bind_eq_ok, okOr_eq_ok, ensure_eq_ok, putData_ok, undoOf]
    exact ⟨_, h1, d, rfl, (), e1, data, du, h2, rfl, rfl⟩
  | changeMetadataUri id d a e1 =>
    simp only [step, changeMetadataUri, bind_eq_ok, okOr_eq_ok, ensure_eq_ok, putData_ok, undoOf]
    exact ⟨_, h1, d, rfl, (), e1, data, du, h2, rfl, rfl⟩

/-- an operation that went through and left every supply readable is a move -/
theorem step_move {c c' : Cache} {op : Op} {u : Undo} {s : Sv} (h : Rep c s) (hl : s.LockedOk)
    (hs : step c op = .ok (c', u)) (hr : Readable c') : ∃ s', Rep c' s' ∧ s'.LockedOk ∧ Move s op u s' := by
  suffices H : ∃ s', Move s op u s' by
    obtain ⟨s', hm⟩ := H
    obtain ⟨t', h1, h2⟩ := hm.fwd c h
    rw [hs] at h1; cases h1
    refine ⟨s', h2, ?_, hm⟩
    have hi : Inv c := ⟨h.supply.wf, fun id d hd => hl id d (Except.ok.inj ((h.vData id).symm.trans hd))⟩
    intro id d hd
    exact (step_inv hi hs).2 id d ((h2.vData id).trans (congrArg Except.ok hd))
  rcases step_cases hs with ⟨id, cur, new, data, du, ht, h1, h2, rfl, h3, h3', h4⟩ |
    ⟨id, a, d, supply, rfl, rfl, h1, h2, h3, h4, rfl⟩ | ⟨id, a, d, x, supply, rfl, rfl, h1, h2, h3, h4, h5, h6, rfl⟩
  · have hcur : s.data id = cur := Except.ok.inj ((h.vData id).symm.trans h1)
    obtain ⟨rfl, -⟩ := h.data.of_merge hcur h2
    have hu := step_of_trans ht h1 h2
    rw [hs] at hu
    cases hu
    refine ⟨{ s with data := Function.update s.data id (some new) }, ?_, ?_⟩
    · intro t ht'
      obtain ⟨td, e1, r1⟩ := ht'.data.merge hcur (some new)
      have hv := h.view_eq ht'
      refine ⟨_, step_of_trans (hv ▸ ht) (by rw [hv]; exact h1) e1, ⟨r1, ht'.supply⟩⟩
    · intro t ht'
      obtain ⟨td, e1, r1⟩ := ht'.data.undo (k := id) (u := ⟨some new, cur⟩) (by simp)
      refine ⟨{ t with delta := { t.delta with data := td } }, ?_, ?_, ht'.supply⟩
      · rw [h4 t (by rw [ht'.vData]; simp)]
        simp only [undoData, bind_eq_ok, lift_ok, pure_eq_ok]
        exact ⟨td, e1, rfl⟩
      · simpa [← hcur] using r1
  · have hd : s.data id = some d := Except.ok.inj ((h.vData id).symm.trans h1)
    obtain ⟨v, hv⟩ := hr id
    obtain ⟨hlt, -⟩ := h.supply.of_add h4 hv
    have hnl : d.locked = false :=
      mint_not_locked (fun id d hd => hl id d (Except.ok.inj ((h.vData id).symm.trans hd))) h1 h3
    refine ⟨{ s with supply := Function.update s.supply id (s.supply id + a) }, ?_, ?_⟩
    · intro t ht
      obtain ⟨sp, e1, r1⟩ := ht.supply.add hlt
      refine ⟨{ t with delta := { t.delta with supply := sp } }, ?_, ht.data, r1⟩
      simp only [step, mintTokens, bind_eq_ok, okOr_eq_ok, ensure_eq_ok, lift_ok, pure_eq_ok]
      exact ⟨_, ht.vData id, d, hd, (), h2, (), (mintPolicy_congr (h.view_eq ht) id d a).trans h3, sp, e1, rfl⟩
    · intro t ht
      obtain ⟨sp, e1, r1⟩ := ht.supply.sub (k := id) (a := a) (by simp)
      refine ⟨{ t with delta := { t.delta with supply := sp } }, ?_, ht.data, ?_⟩
      · simp only [undo, bind_eq_ok, okOr_eq_ok, ensure_eq_ok, lift_ok, pure_eq_ok]
        exact ⟨_, ht.vData id, d, hd, (), hnl, sp, e1, rfl⟩
      · simpa using r1
  · have hd : s.data id = some d := Except.ok.inj ((h.vData id).symm.trans h1)
    have hx : s.supply id = x := Except.ok.inj ((h.vSupply id).symm.trans h4)
    subst hx
    have hlt := h.supply.lt id
    refine ⟨{ s with supply := Function.update s.supply id (s.supply id - a) }, ?_, ?_⟩
    · intro t ht
      obtain ⟨sp, e1, r1⟩ := ht.supply.sub h5
      refine ⟨{ t with delta := { t.delta with supply := sp } }, ?_, ht.data, r1⟩
      simp only [step, unmintTokens, bind_eq_ok, okOr_eq_ok, ensure_eq_ok, lift_ok, pure_eq_ok]
      exact ⟨_, ht.vData id, d, hd, (), h3, (), h2, _, ht.vSupply id, (), by omega, sp, e1, rfl⟩
    · intro t ht
      obtain ⟨sp, e1, r1⟩ := ht.supply.add (k := id) (a := a) (by simp; omega)
      refine ⟨{ t with delta := { t.delta with supply := sp } }, ?_, ht.data, ?_⟩
      · simp only [undo, bind_eq_ok, okOr_eq_ok, ensure_eq_ok, lift_ok, pure_eq_ok]
        exact ⟨_, ht.vData id, d, hd, (), h3, sp, e1, rfl⟩
      · simpa [Nat.sub_add_cancel h5] using r1

/-! ### Layer over layer -/

/-- a fresh cache over a cache shows the same -/
theorem Rep.child {c : Cache} {s : Sv} (h : Rep c s) : Rep (Cache.new c.view) s where
  data := RepD.empty h.vData
  supply := RepB.empty fun k => ⟨h.vSupply k, h.supply.lt k⟩

/-- merging a child's changes makes the parent show what the child showed -/
theorem Rep.layer {c d : Cache} {s s' : Sv} (h : Rep c s) (hp : d.parent = c.view) (h' : Rep d s') :
    ∃ r u, c.delta.mergeWithDelta d.delta = .ok (r, u) ∧ Rep { c with delta := r } s' := by
  obtain ⟨h1, h2⟩ := h'
  rw [hp] at h1 h2
  obtain ⟨a1, u1, e1, r1⟩ := h.data.layer h1
  obtain ⟨a2, e2, r2⟩ := h.supply.layer h2
  refine ⟨⟨a1, a2⟩, ⟨u1, d.delta.supply⟩, ?_, ⟨r1, r2⟩⟩
  simp only [Delta.mergeWithDelta, bind_eq_ok, lift_ok, pure_eq_ok]
  exact ⟨_, e1, _, e2, rfl⟩

/-! ### Over a database -/

/-- what a database shows; stored supplies are positive and below 2^127 -/
structure DBRep (db : DB) (s : Sv) : Prop where
  data : ∀ k, db.data.get k = s.data k
  supply : ∀ k, bal db.supply k = s.supply k
  supplyPos : ∀ k, db.supply.get k ≠ some 0
  supplyLt : ∀ k, (s.supply k : Int) < I128

theorem DBRep.ext {db db' : DB} {s : Sv} (h : DBRep db s) (h' : DBRep db' s) : db = db' := by
  obtain ⟨a1, a2⟩ := db
  obtain ⟨b1, b2⟩ := db'
  congr
  · exact BMap.ext_get fun k => (h.data k).trans (h'.data k).symm
  · exact store_ext h.supplyPos h'.supplyPos fun k => (h.supply k).trans (h'.supply k).symm

theorem DBRep.new {db : DB} {s : Sv} (h : DBRep db s) : Rep (Cache.new db.view) s where
  data := RepD.empty fun k => by rw [← h.data k]; rfl
  supply := RepB.empty fun k => ⟨by rw [← h.supply k]; rfl, h.supplyLt k⟩

theorem Rep.flush {db : DB} {c : Cache} {s0 s : Sv} (h0 : DBRep db s0) (hp : c.parent = db.view) (h : Rep c s) :
    ∃ db' u, db.mergeWithDelta c.delta = .ok (db', u) ∧ DBRep db' s := by
  have h1 := h.data; have h2 := h.supply
  rw [hp] at h1 h2
  obtain ⟨pd, pdu, e1, r1⟩ := RepD.flush h1
  obtain ⟨pb, pbu, e2, r2, z2⟩ := RepB.flush h2 .accounting h0.supplyPos
  refine ⟨⟨pd, pb⟩, ⟨pdu, pbu⟩, ?_, ⟨r1, r2, z2, h.supply.lt⟩⟩
  simp only [DB.mergeWithDelta, bind_eq_ok, lift_ok, pure_eq_ok]
  exact ⟨_, e1, _, e2, rfl⟩

end Verif.Tokens
