import Verif.PeerDb.Table

/-! The operations on the tables as operations on the sets of addresses that they hold. -/

namespace Verif.PeerDb

open Verif

theorem Table.Ok.uniq {c : Hash} {t : Table} (_h : t.Ok c) {x y : Addr} (hx : t.Holds c x) (hy : t.Holds c y)
    (e : c.slot x = c.slot y) : x = y := by
  unfold Table.Holds at hx hy
  rw [e, hy] at hx
  exact (Option.some.inj hx).symm

theorem new_holds (c : Hash) (a : Addr) : ¬ (Table.new c).Holds c a := by
  unfold Table.Holds
  rw [Table.new_at]; nofun

theorem remove_holds {c : Hash} (hc : c.WF) {t : Table} (h : t.Ok c) (a : Addr) :
    ∃ t', t.remove c a = .ok t' ∧ t'.Ok c ∧ ∀ x, t'.Holds c x ↔ t.Holds c x ∧ x ≠ a := by
  obtain ⟨t', h1, h2, h3⟩ := remove_spec hc h a
  refine ⟨t', h1, h2, ?_⟩
  intro x
  unfold Table.Holds
  rw [h3]
  constructor
  · intro e
    split at e
    · cases e
    · next hn =>
      refine ⟨e, ?_⟩
      rintro rfl
      exact hn ⟨rfl, e⟩
  · rintro ⟨e, hne⟩
    rw [if_neg]
    · exact e
    · rintro ⟨_, h⟩
      rw [e] at h
      exact hne (Option.some.inj h)

/-- what becomes of the set of addresses when `a` is put into its slot, and which address is returned -/
inductive Put (c : Hash) (t t' : Table) (a : Addr) (can : Addr → Bool) : Option Addr → Prop where
  | fresh (free : ∀ x, t.Holds c x → c.slot x = c.slot a → x = a) (eff : ∀ x, t'.Holds c x ↔ x = a ∨ t.Holds c x) : Put c t t' a can none
  | swap (y : Addr) (ne : y ≠ a) (holds : t.Holds c y) (slot : c.slot y = c.slot a) (ok : can y = true)
      (eff : ∀ x, t'.Holds c x ↔ x = a ∨ (t.Holds c x ∧ x ≠ y)) : Put c t t' a can (some y)
  | keep (y : Addr) (ne : y ≠ a) (holds : t.Holds c y) (slot : c.slot y = c.slot a) (no : can y = false)
      (eff : ∀ x, t'.Holds c x ↔ t.Holds c x) : Put c t t' a can (some a)

theorem replaceIf_holds {c : Hash} (hc : c.WF) {t : Table} (h : t.Ok c) (a : Addr) (can : Addr → Bool) :
    ∃ t' r, t.replaceIf c a can = .ok (t', r) ∧ t'.Ok c ∧ Put c t t' a can r := by
  obtain ⟨t', r, h1, h2, h3, h4⟩ := replaceIf_spec hc h a can
  refine ⟨t', r, h1, h2, ?_⟩
  have other : ∀ x, c.slot x ≠ c.slot a → (t'.Holds c x ↔ t.Holds c x) := by
    intro x hx
    unfold Table.Holds
    rw [h3, if_neg fun h => hx h.1]
  cases e : t.at (c.slot a) with
  | none =>
    rw [e] at h4
    subst h4
    refine .fresh ?_ ?_
    · intro x hx hs
      unfold Table.Holds at hx
      rw [hs, e] at hx; cases hx
    · intro x
      by_cases hs : c.slot x = c.slot a
      · unfold Table.Holds
        rw [hs, h3, if_pos ⟨rfl, fun y hy => by rw [e] at hy; cases hy⟩, e]
        simp [eq_comm]
      · rw [other x hs]
        constructor
        · exact .inr
        · rintro (rfl | h)
          · exact absurd rfl hs
          · exact h
  | some y =>
    rw [e] at h4
    have hsy := h.at_slot e
    have hy : t.Holds c y := by unfold Table.Holds; rw [hsy]; exact e
    by_cases ey : y = a
    · subst ey
      have h4 : r = none := h4.trans (if_pos rfl)
      subst h4
      refine .fresh (fun x hx hs => h.uniq hx hy hs) ?_
      intro x
      by_cases hs : c.slot x = c.slot y
      · unfold Table.Holds
        rw [hs, h3, if_pos ⟨rfl, fun z hz => .inl (by rw [e] at hz; exact (Option.some.inj hz).symm)⟩, e]
        simp [eq_comm]
      · rw [other x hs]
        constructor
        · exact .inr
        · rintro (rfl | h)
          · exact hy
          · exact h
    · by_cases hcan : can y = true
      · have h4 : r = some y := h4.trans ((if_neg ey).trans (if_pos hcan))
        subst h4
        refine .swap y ey hy hsy hcan ?_
        intro x
        by_cases hs : c.slot x = c.slot a
        · have e1 : t'.Holds c x ↔ x = a := by
            unfold Table.Holds
            rw [hs, h3, if_pos ⟨rfl, fun z hz => .inr (by rw [e] at hz; cases hz; exact hcan)⟩]
            simp [eq_comm]
          rw [e1]
          constructor
          · exact .inl
          · rintro (h' | ⟨h1, h2⟩)
            · exact h'
            · exact absurd (h.uniq h1 hy (hs.trans hsy.symm)) h2
        · rw [other x hs]
          constructor
          · intro h; exact .inr ⟨h, fun e => hs (by rw [e]; exact hsy)⟩
          · rintro (rfl | h)
            · exact absurd rfl hs
            · exact h.1
      · have h4 : r = some a := h4.trans ((if_neg ey).trans (if_neg hcan))
        subst h4
        refine .keep y ey hy hsy (by simpa using hcan) ?_
        intro x
        unfold Table.Holds
        rw [h3, if_neg]
        rintro ⟨hs, h⟩
        rcases h y (by rw [hs]; exact e) with h | h
        · exact ey h
        · exact hcan h

theorem replace_holds {c : Hash} (hc : c.WF) {t : Table} (h : t.Ok c) (a : Addr) :
    ∃ t' r, t.replace c a = .ok (t', r) ∧ t'.Ok c ∧ Put c t t' a (fun _ => true) r := by
  rw [replace_eq]; exact replaceIf_holds hc h a _

/-- after a replacement the address is in the table, and besides it only what was there before -/
theorem Put.holds_true {c : Hash} {t t' : Table} {a : Addr} {r : Option Addr} (p : Put c t t' a (fun _ => true) r) :
    t'.Holds c a ∧ ∀ x, t'.Holds c x → x = a ∨ t.Holds c x := by
  cases p with
  | fresh _ eff => exact ⟨(eff a).2 (.inl rfl), fun x hx => (eff x).1 hx⟩
  | swap y _ _ _ _ eff => exact ⟨(eff a).2 (.inl rfl), fun x hx => ((eff x).1 hx).imp_right And.left⟩
  | keep y _ _ _ no _ => cases no

structure Cfg.WF (c : Cfg) : Prop where
  new : c.newH.WF
  tried : c.triedH.WF
  group : c.triedH.group = c.newH.group

/-- both tables are consistent -/
structure Tables.Ok (c : Cfg) (ts : Tables) : Prop where
  new : ts.new.Ok c.newH
  tried : ts.tried.Ok c.triedH

/-- the address is in the table of new addresses -/
abbrev Tables.New (c : Cfg) (ts : Tables) (a : Addr) : Prop := ts.new.Holds c.newH a
/-- the address is in the table of tried addresses -/
abbrev Tables.Tried (c : Cfg) (ts : Tables) (a : Addr) : Prop := ts.tried.Holds c.triedH a

/-- what becomes of the tables when an address is moved to the table of tried addresses -/
inductive Moved (c : Cfg) (ts ts' : Tables) (a : Addr) : Option (Addr × Option Addr) → Prop where
  | none (tried : ∀ x, ts'.Tried c x ↔ x = a ∨ ts.Tried c x) (new : ∀ x, ts'.New c x ↔ ts.New c x ∧ x ≠ a) : Moved c ts ts' a none
  | some (p : Addr) (g : Option Addr) (ne : p ≠ a) (was : ts.Tried c p) (slot : c.triedH.slot p = c.triedH.slot a)
      (tried : ∀ x, ts'.Tried c x ↔ x = a ∨ (ts.Tried c x ∧ x ≠ p))
      (new : ∀ x, ts'.New c x ↔ x = p ∨ (ts.New c x ∧ x ≠ a ∧ g ≠ some x))
      (gone : ∀ y, g = some y → ts.New c y ∧ y ≠ a ∧ y ≠ p ∧ c.newH.slot y = c.newH.slot p) : Moved c ts ts' a (some (p, g))

theorem moveToTried_holds {c : Cfg} (hc : c.WF) {ts : Tables} (h : ts.Ok c) (a : Addr) :
    ∃ ts' r, ts.moveToTried c a = .ok (ts', r) ∧ ts'.Ok c ∧ Moved c ts ts' a r := by
  obtain ⟨n1, e1, o1, f1⟩ := remove_holds hc.new h.new a
  obtain ⟨t', r, e2, o2, f2⟩ := replace_holds hc.tried h.tried a
  unfold Tables.moveToTried
  rw [e1, ok_bind, e2, ok_bind]
  cases f2 with
  | fresh free eff => exact ⟨⟨n1, t'⟩, none, rfl, ⟨o1, o2⟩, .none eff f1⟩
  | keep y _ _ _ no _ => cases no
  | swap p ne holds slot _ eff =>
    obtain ⟨n2, r, e3, o3, f3⟩ := replace_holds hc.new o1 p
    dsimp only
    rw [e3, ok_bind]
    refine ⟨⟨n2, t'⟩, _, rfl, ⟨o3, o2⟩, .some p r ne holds slot eff ?_ ?_⟩
    · intro x
      change n2.Holds _ x ↔ _
      cases f3 with
      | fresh _ eff3 => rw [eff3, f1]; simp
      | keep y _ _ _ no _ => cases no
      | swap y _ _ _ _ eff3 =>
        rw [eff3, f1]
        constructor
        · rintro (h | ⟨⟨h1, h2⟩, h3⟩)
          · exact .inl h
          · exact .inr ⟨h1, h2, fun e => h3 (Option.some.inj e).symm⟩
        · rintro (h | ⟨h1, h2, h3⟩)
          · exact .inl h
          · exact .inr ⟨⟨h1, h2⟩, fun e => h3 (by rw [e])⟩
    · intro y hy
      subst hy
      cases f3 with
      | keep z _ _ _ no _ => cases no
      | swap _ ne' holds' slot' _ _ => exact ⟨((f1 y).1 holds').1, ((f1 y).1 holds').2, ne', slot'⟩

theorem moveToNew_holds {c : Cfg} (hc : c.WF) {ts : Tables} (h : ts.Ok c) (a : Addr) (can : Addr → Bool) :
    ∃ ts' r, ts.moveToNew c a can = .ok (ts', if r = some a then none else some r) ∧ ts'.Ok c ∧
      (∀ x, ts'.Tried c x ↔ ts.Tried c x ∧ x ≠ a) ∧ Put c.newH ts.new ts'.new a can r := by
  obtain ⟨t1, e1, o1, f1⟩ := remove_holds hc.tried h.tried a
  obtain ⟨n', r, e2, o2, f2⟩ := replaceIf_holds hc.new h.new a can
  unfold Tables.moveToNew
  rw [e1, ok_bind, e2, ok_bind]
  exact ⟨⟨n', t1⟩, r, rfl, ⟨o2, o1⟩, f1, f2⟩

theorem tremove_holds {c : Cfg} (hc : c.WF) {ts : Tables} (h : ts.Ok c) (a : Addr) :
    ∃ ts', ts.remove c a = .ok ts' ∧ ts'.Ok c ∧
      (∀ x, ts'.Tried c x ↔ ts.Tried c x ∧ x ≠ a) ∧ ∀ x, ts'.New c x ↔ ts.New c x ∧ x ≠ a := by
  obtain ⟨n1, e1, o1, f1⟩ := remove_holds hc.new h.new a
  obtain ⟨t1, e2, o2, f2⟩ := remove_holds hc.tried h.tried a
  unfold Tables.remove
  rw [e1, ok_bind, e2]
  exact ⟨⟨n1, t1⟩, rfl, ⟨o1, o2⟩, f2, f1⟩

theorem tremoves_holds {c : Cfg} (hc : c.WF) : ∀ (l : List Addr) {ts : Tables} (_ : ts.Ok c),
    ∃ ts', l.foldlM (fun ts a => Tables.remove c ts a) ts = .ok ts' ∧ ts'.Ok c ∧
      (∀ x, ts'.Tried c x ↔ ts.Tried c x ∧ x ∉ l) ∧ ∀ x, ts'.New c x ↔ ts.New c x ∧ x ∉ l := by
  intro l
  induction l with
  | nil => intro ts h; exact ⟨ts, rfl, h, by simp, by simp⟩
  | cons a l ih =>
    intro ts h
    obtain ⟨t1, e1, o1, f1, g1⟩ := tremove_holds hc h a
    obtain ⟨t2, e2, o2, f2, g2⟩ := ih o1
    refine ⟨t2, ?_, o2, ?_, ?_⟩
    · rw [List.foldlM_cons, e1, ok_bind]; exact e2
    · intro x; rw [f2, f1, List.mem_cons, not_or, and_assoc]
    · intro x; rw [g2, g1, List.mem_cons, not_or, and_assoc]

theorem foldl_erase_get {K V : Type} [LinearOrder K] (l : List K) : ∀ (m : BMap K V) (k : K),
    (l.foldl (fun m a => m.erase a) m).get k = if k ∈ l then none else m.get k := by
  induction l with
  | nil => intro m k; simp
  | cons a l ih =>
    intro m k
    rw [List.foldl_cons, ih, BMap.get_erase]
    by_cases h1 : k ∈ l
    · simp [h1]
    · by_cases h2 : k = a
      · simp [h2]
      · simp [h1, h2]

end Verif.PeerDb
