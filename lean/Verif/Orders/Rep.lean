import Verif.Accounting.Rep
import Verif.Orders.Invariant

/-!
# Order operations and their undos act on what is shown, whatever the layering
-/

namespace Verif.Orders
open Verif Verif.Accounting

/-- the order state as plain functions (absent balance = 0) -/
structure Sv where
  data : OrderId → Option OrderData
  ask : OrderId → Nat
  give : OrderId → Nat

/-- every order is sound, ids without an order have no balances -/
def Sv.Sound (s : Sv) : Prop := ∀ id, Orders.Sound (s.data id) (s.ask id) (s.give id)

/-- the cache shows `s` -/
structure Rep (c : Cache) (s : Sv) : Prop where
  data : RepD c.parent.data c.delta.data s.data
  ask : RepB c.parent.ask c.delta.ask s.ask
  give : RepB c.parent.give c.delta.give s.give

/-- every balance can be read -/
structure Readable (c : Cache) : Prop where
  ask : ∀ k, ∃ v, c.view.ask k = .ok v
  give : ∀ k, ∃ v, c.view.give k = .ok v

theorem Rep.inj {c : Cache} {s s' : Sv} (h : Rep c s) (h' : Rep c s') : s = s' := by
  obtain ⟨a1, a2, a3⟩ := s
  obtain ⟨b1, b2, b3⟩ := s'
  congr
  · exact h.data.inj h'.data
  · exact h.ask.inj h'.ask
  · exact h.give.inj h'.give

theorem Rep.readable {c : Cache} {s : Sv} (h : Rep c s) : Readable c :=
  ⟨fun k => ⟨_, h.ask.read k⟩, fun k => ⟨_, h.give.read k⟩⟩

theorem Rep.vData {c : Cache} {s : Sv} (h : Rep c s) (k : Nat) : c.view.data k = .ok (s.data k) := h.data.val k
theorem Rep.vAsk {c : Cache} {s : Sv} (h : Rep c s) (k : Nat) : c.view.ask k = .ok (s.ask k) := h.ask.read k
theorem Rep.vGive {c : Cache} {s : Sv} (h : Rep c s) (k : Nat) : c.view.give k = .ok (s.give k) := h.give.read k

theorem Rep.view_eq {c t : Cache} {s : Sv} (h : Rep c s) (h' : Rep t s) : t.view = c.view := by
  have e1 : t.view.data = c.view.data := by funext k; rw [h.vData, h'.vData]
  have e2 : t.view.ask = c.view.ask := by funext k; rw [h.vAsk, h'.vAsk]
  have e3 : t.view.give = c.view.give := by funext k; rw [h.vGive, h'.vGive]
  cases ht : t.view; cases hc : c.view
  simp_all

structure Move (s : Sv) (op : Op) (u : Undo) (s' : Sv) : Prop where
  fwd : ∀ t, Rep t s → ∃ t', step t op = .ok (t', u) ∧ Rep t' s'
  bwd : ∀ t, Rep t s' → ∃ t', undo t u = .ok t' ∧ Rep t' s

theorem fill_le {v : View} {id fill r : Nat} {ver : Version} (h : calculateFillOrder v id fill ver = .ok r) :
    ∃ a, v.ask id = .ok a ∧ fill ≤ a := by
  cases ver with
  | v0 => obtain ⟨a, g, h1, h2, h3, -⟩ := fillV0_ok.1 h; exact ⟨a, h1, h3⟩
  | v1 => obtain ⟨d, oa, og, a, h1, h2, h3, h4, h5, -⟩ := fillV1_ok.1 h; exact ⟨a, h4, h5⟩

/-- an operation that went through on a sound state is a move to a sound state -/
theorem step_move {c c' : Cache} {op : Op} {u : Undo} {s : Sv} (h : Rep c s) (hso : s.Sound)
    (hs : step c op = .ok (c', u)) (hr : Readable c') : ∃ s', Rep c' s' ∧ Move s op u s' := by
  suffices H : ∃ s', Move s op u s' by
    obtain ⟨s', hm⟩ := H
    obtain ⟨t', h1, h2⟩ := hm.fwd c h
    rw [hs] at h1; cases h1
    exact ⟨s', h2, hm⟩
  cases op with
  | create id d =>
    obtain ⟨oa, og, data, du, ask, give, h1, h2, h3, h4, h5, h6, h7, h8, h9, rfl, rfl⟩ := createOrder_ok hs
    have hd : s.data id = none := Except.ok.inj ((h.vData id).symm.trans h1)
    have ha : s.ask id = 0 := Except.ok.inj ((h.vAsk id).symm.trans h2)
    have hg : s.give id = 0 := by have := hso id; rw [hd] at this; exact this.2
    obtain ⟨v, hv⟩ := hr.ask id
    obtain ⟨w, hw⟩ := hr.give id
    obtain ⟨l1, -⟩ := h.ask.of_add h8 hv
    obtain ⟨l2, -⟩ := h.give.of_add h9 hw
    obtain ⟨rfl, -⟩ := h.data.of_merge hd h7
    refine ⟨⟨Function.update s.data id (some d), Function.update s.ask id (s.ask id + oa),
      Function.update s.give id (s.give id + og)⟩, ?_, ?_⟩
    · intro t ht
      obtain ⟨td, e1, r1⟩ := ht.data.merge hd (some d)
      obtain ⟨ta, e2, r2⟩ := ht.ask.add l1
      obtain ⟨tg, e3, r3⟩ := ht.give.add l2
      refine ⟨{ t with delta := ⟨td, ta, tg⟩ }, ?_, ⟨r1, r2, r3⟩⟩
      simp only [step, createOrder, bind_eq_ok, ensure_eq_ok, lift_ok, pure_eq_ok]
      exact ⟨_, ht.vData id, (), by simp [hd], _, ht.vAsk id, (), ha, oa, h3, og, h4, (), ⟨h5, h6⟩, _, e1, ta, e2,
        tg, e3, rfl⟩
    · intro t ht
      obtain ⟨td, e1, r1⟩ := ht.data.undo (k := id) (u := ⟨some d, none⟩) (by simp)
      obtain ⟨ta, e2, r2⟩ := ht.ask.sub (k := id) (a := oa) (by simp)
      obtain ⟨tg, e3, r3⟩ := ht.give.sub (k := id) (a := og) (by simp)
      refine ⟨{ t with delta := ⟨td, ta, tg⟩ }, ?_, ⟨?_, ?_, ?_⟩⟩
      · simp only [undo, bind_eq_ok, ensure_eq_ok, lift_ok, pure_eq_ok]
        exact ⟨_, ht.vAsk id, (), by simp [ha], ta, e2, _, ht.vGive id, (), by simp [hg], tg, e3, _, ht.vData id, (),
          by simp, td, e1, rfl⟩
      · simpa [← hd] using r1
      · simpa using r2
      · simpa using r3
  | conclude id =>
    obtain ⟨d, ab, gb, data, du, ask, give, h1, h2, h3, h7, h8, h9, rfl, rfl⟩ := concludeOrder_ok hs
    have hd : s.data id = some d := Except.ok.inj ((h.vData id).symm.trans h1)
    have ha : s.ask id = ab := Except.ok.inj ((h.vAsk id).symm.trans h2)
    have hg : s.give id = gb := Except.ok.inj ((h.vGive id).symm.trans h3)
    subst ha hg
    have l1 := h.ask.lt id
    have l2 := h.give.lt id
    obtain ⟨rfl, -⟩ := h.data.of_merge hd h7
    refine ⟨⟨Function.update s.data id none, Function.update s.ask id (s.ask id - s.ask id),
      Function.update s.give id (s.give id - s.give id)⟩, ?_, ?_⟩
    · intro t ht
      obtain ⟨td, e1, r1⟩ := ht.data.merge hd none
      obtain ⟨ta, e2, r2⟩ := ht.ask.sub (k := id) le_rfl
      obtain ⟨tg, e3, r3⟩ := ht.give.sub (k := id) le_rfl
      refine ⟨{ t with delta := ⟨td, ta, tg⟩ }, ?_, ⟨r1, r2, r3⟩⟩
      simp only [step, concludeOrder, bind_eq_ok, okOr_eq_ok, lift_ok, pure_eq_ok]
      exact ⟨_, ht.vData id, d, hd, _, ht.vAsk id, _, ht.vGive id, _, e1, ta, e2, tg, e3, rfl⟩
    · intro t ht
      obtain ⟨td, e1, r1⟩ := ht.data.undo (k := id) (u := ⟨none, some d⟩) (by simp)
      obtain ⟨ta, e2, r2⟩ := ht.ask.add (k := id) (a := s.ask id) (by simp; omega)
      obtain ⟨tg, e3, r3⟩ := ht.give.add (k := id) (a := s.give id) (by simp; omega)
      refine ⟨{ t with delta := ⟨td, ta, tg⟩ }, ?_, ⟨?_, ?_, ?_⟩⟩
      · simp only [undo, bind_eq_ok, ensure_eq_ok, lift_ok, pure_eq_ok]
        exact ⟨_, ht.vData id, (), by simp, td, e1, _, ht.vAsk id, (), by simp, ta, e2, _, ht.vGive id, (), by simp,
          tg, e3, rfl⟩
      · simpa [← hd] using r1
      · simpa using r2
      · simpa using r3
  | fill id a ver =>
    obtain ⟨d, filled, ask, give, h1, h2, h3, h8, h9, rfl, rfl⟩ := fillOrder_ok hs
    have hd : s.data id = some d := Except.ok.inj ((h.vData id).symm.trans h1)
    obtain ⟨v, hv⟩ := hr.ask id
    obtain ⟨w, hw⟩ := hr.give id
    obtain ⟨l1, -⟩ := h.ask.of_sub h9 hv
    obtain ⟨l2, -⟩ := h.give.of_sub h8 hw
    have m1 := h.ask.lt id
    have m2 := h.give.lt id
    refine ⟨⟨s.data, Function.update s.ask id (s.ask id - a), Function.update s.give id (s.give id - filled)⟩, ?_, ?_⟩
    · intro t ht
      obtain ⟨ta, e2, r2⟩ := ht.ask.sub l1
      obtain ⟨tg, e3, r3⟩ := ht.give.sub l2
      refine ⟨{ t with delta := { t.delta with ask := ta, give := tg } }, ?_, ⟨ht.data, r2, r3⟩⟩
      simp only [step, fillOrder, bind_eq_ok, okOr_eq_ok, ensure_eq_ok, lift_ok, pure_eq_ok]
      exact ⟨_, ht.vData id, d, hd, (), h2, filled, (calculateFillOrder_congr (h.view_eq ht) id a ver).trans h3,
        tg, e3, ta, e2, rfl⟩
    · intro t ht
      obtain ⟨ta, e2, r2⟩ := ht.ask.add (k := id) (a := a) (by simp; omega)
      obtain ⟨tg, e3, r3⟩ := ht.give.add (k := id) (a := filled) (by simp; omega)
      refine ⟨{ t with delta := { t.delta with ask := ta, give := tg } }, ?_, ⟨ht.data, ?_, ?_⟩⟩
      · simp only [undo, bind_eq_ok, lift_ok, pure_eq_ok]
        exact ⟨ta, e2, tg, e3, rfl⟩
      · simpa [Nat.sub_add_cancel l1] using r2
      · simpa [Nat.sub_add_cancel l2] using r3
  | freeze id =>
    obtain ⟨d, data, du, h1, h2, h7, rfl, rfl⟩ := freezeOrder_ok hs
    have hd : s.data id = some d := Except.ok.inj ((h.vData id).symm.trans h1)
    obtain ⟨rfl, -⟩ := h.data.of_merge hd h7
    refine ⟨{ s with data := Function.update s.data id (some { d with isFrozen := true }) }, ?_, ?_⟩
    · intro t ht
      obtain ⟨td, e1, r1⟩ := ht.data.merge hd (some { d with isFrozen := true })
      refine ⟨{ t with delta := { t.delta with data := td } }, ?_, ⟨r1, ht.ask, ht.give⟩⟩
      simp only [step, freezeOrder, bind_eq_ok, okOr_eq_ok, lift_ok, pure_eq_ok]
      exact ⟨_, ht.vData id, d, hd, _, by simp [OrderData.tryFreeze, h2], _, e1, rfl⟩
    · intro t ht
      obtain ⟨td, e1, r1⟩ := ht.data.undo (k := id) (u := ⟨some { d with isFrozen := true }, some d⟩) (by simp)
      refine ⟨{ t with delta := { t.delta with data := td } }, ?_, ⟨?_, ht.ask, ht.give⟩⟩
      · simp only [undo, bind_eq_ok, ensure_eq_ok, lift_ok, pure_eq_ok]
        exact ⟨_, ht.vData id, (), by simp, td, e1, rfl⟩
      · simpa [← hd] using r1

/-! ### Layer over layer -/

/-- a fresh cache over a cache shows the same -/
theorem Rep.child {c : Cache} {s : Sv} (h : Rep c s) : Rep (Cache.new c.view) s where
  data := RepD.empty h.vData
  ask := RepB.empty fun k => ⟨h.vAsk k, h.ask.lt k⟩
  give := RepB.empty fun k => ⟨h.vGive k, h.give.lt k⟩

/-- merging a child's changes makes the parent show what the child showed -/
theorem Rep.layer {c d : Cache} {s s' : Sv} (h : Rep c s) (hp : d.parent = c.view) (h' : Rep d s') :
    ∃ r u, c.delta.mergeWithDelta d.delta = .ok (r, u) ∧ Rep { c with delta := r } s' := by
  obtain ⟨h1, h2, h3⟩ := h'
  rw [hp] at h1 h2 h3
  obtain ⟨a1, u1, e1, r1⟩ := h.data.layer h1
  obtain ⟨a2, e2, r2⟩ := h.ask.layer h2
  obtain ⟨a3, e3, r3⟩ := h.give.layer h3
  refine ⟨⟨a1, a2, a3⟩, ⟨u1, d.delta.ask, d.delta.give⟩, ?_, ⟨r1, r2, r3⟩⟩
  simp only [Delta.mergeWithDelta, bind_eq_ok, lift_ok, pure_eq_ok]
  exact ⟨_, e1, _, e2, _, e3, rfl⟩

/-! ### Over a database -/

/-- what a database shows; stored balances are positive and below 2^127 -/
structure DBRep (db : DB) (s : Sv) : Prop where
  data : ∀ k, db.data.get k = s.data k
  ask : ∀ k, bal db.ask k = s.ask k
  give : ∀ k, bal db.give k = s.give k
  askPos : ∀ k, db.ask.get k ≠ some 0
  givePos : ∀ k, db.give.get k ≠ some 0
  askLt : ∀ k, (s.ask k : Int) < I128
  giveLt : ∀ k, (s.give k : Int) < I128

theorem DBRep.ext {db db' : DB} {s : Sv} (h : DBRep db s) (h' : DBRep db' s) : db = db' := by
  obtain ⟨a1, a2, a3⟩ := db
  obtain ⟨b1, b2, b3⟩ := db'
  congr
  · exact BMap.ext_get fun k => (h.data k).trans (h'.data k).symm
  · exact store_ext h.askPos h'.askPos fun k => (h.ask k).trans (h'.ask k).symm
  · exact store_ext h.givePos h'.givePos fun k => (h.give k).trans (h'.give k).symm

theorem DBRep.new {db : DB} {s : Sv} (h : DBRep db s) : Rep (Cache.new db.view) s where
  data := RepD.empty fun k => by rw [← h.data k]; rfl
  ask := RepB.empty fun k => ⟨by rw [← h.ask k]; rfl, h.askLt k⟩
  give := RepB.empty fun k => ⟨by rw [← h.give k]; rfl, h.giveLt k⟩

theorem Rep.flush {db : DB} {c : Cache} {s0 s : Sv} (h0 : DBRep db s0) (hp : c.parent = db.view) (h : Rep c s) :
    ∃ db' u, db.mergeWithDelta c.delta = .ok (db', u) ∧ DBRep db' s := by
  have h1 := h.data; have h2 := h.ask; have h3 := h.give
  rw [hp] at h1 h2 h3
  obtain ⟨pd, pdu, e1, r1⟩ := RepD.flush h1
  obtain ⟨pb, pbu, e2, r2, z2⟩ := RepB.flush h2 .accounting h0.askPos
  obtain ⟨pg, pgu, e3, r3, z3⟩ := RepB.flush h3 .accounting h0.givePos
  refine ⟨⟨pd, pb, pg⟩, ⟨pdu, pbu, pgu⟩, ?_, ⟨r1, r2, r3, z2, z3, h.ask.lt, h.give.lt⟩⟩
  simp only [DB.mergeWithDelta, bind_eq_ok, lift_ok, pure_eq_ok]
  exact ⟨_, e1, _, e2, _, e3, rfl⟩

end Verif.Orders
