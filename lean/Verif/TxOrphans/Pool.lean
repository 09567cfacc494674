import Verif.TxOrphans.Model
import Mathlib.Data.List.Induction
import Mathlib.Data.List.Nodup

/-! # The indices of the orphan pool always match its content -/

namespace Verif.TxOrphans
open Verif.Mempool (Dep Tx)

/-- The entry at each position. -/
abbrev Slots := Nat → Option Entry

/-- An index holds exactly the keys of the entries, with their positions. -/
def IdxOk {K : Type} [LinearOrder K] (m : Index K) (f : Slots) (keys : Entry → List K) : Prop :=
  ∀ k i, m.get (toLex (k, i)) = some () ↔ ∃ e, f i = some e ∧ k ∈ keys e

/-- All indices match. -/
structure MapsOk (m : Maps) (f : Slots) : Prop where
  id : ∀ x i, m.byId.get x = some i ↔ ∃ e, f i = some e ∧ e.tx.id = x
  time : IdxOk m.byTime f (fun e => [e.tx.time])
  deps : IdxOk m.byDeps f (fun e => e.tx.required)
  peer : IdxOk m.byPeer f (fun e => [e.peer])

/-- The indices match the vector, and there is room in it. -/
def PoolOk (p : Pool) : Prop := MapsOk p.maps (fun i => p.txs[i]?)

theorem set_perm {α : Type} {x a : α} : ∀ {l : List α} {i : Nat}, l[i]? = some x → (x :: l.set i a).Perm (a :: l)
  | [], i, h => by simp at h
  | b :: t, 0, h => by
    have : b = x := by simpa using h
    subst this
    exact List.Perm.swap _ _ _
  | b :: t, i + 1, h => by
    have h' : t[i]? = some x := by simpa using h
    have ih := set_perm (a := a) h'
    simp only [List.set_cons_succ]
    exact (List.Perm.swap _ _ _).trans ((ih.cons b).trans (List.Perm.swap _ _ _))

/-! ### Single indices -/

section
variable {K : Type} [LinearOrder K]

theorem key_eq {k k' : K} {i j : Nat} : (toLex (k, i) : K ×ₗ Nat) = toLex (k', j) ↔ k = k' ∧ i = j := by
  constructor
  · intro h
    have := congrArg ofLex h
    simpa using this
  · rintro ⟨rfl, rfl⟩; rfl

theorem get_extend (l : List K) (i : Nat) : ∀ (m : Index K) (k : K) (j : Nat),
    (extendIdx m l i).get (toLex (k, j)) = if j = i ∧ k ∈ l then some () else m.get (toLex (k, j)) := by
  induction l with
  | nil => intro m k j; simp [extendIdx]
  | cons a t ih =>
    intro m k j
    have := ih (m.insert (toLex (a, i)) ()) k j
    rw [show extendIdx m (a :: t) i = extendIdx (m.insert (toLex (a, i)) ()) t i from rfl, this, BMap.get_insert]
    by_cases h1 : j = i ∧ k ∈ t
    · rw [if_pos h1, if_pos ⟨h1.1, List.mem_cons_of_mem _ h1.2⟩]
    · rw [if_neg h1]
      by_cases h2 : k = a ∧ j = i
      · rw [if_pos (key_eq.2 h2), if_pos ⟨h2.2, by rw [h2.1]; exact List.mem_cons_self⟩]
      · rw [if_neg (fun h => h2 (key_eq.1 h)), if_neg]
        rintro ⟨h3, h4⟩
        rcases List.mem_cons.1 h4 with h5 | h5
        · exact h2 ⟨h5, h3⟩
        · exact h1 ⟨h3, h5⟩

theorem get_retract (l : List K) (i : Nat) : ∀ (m : Index K) (k : K) (j : Nat),
    (retractIdx m l i).get (toLex (k, j)) = if j = i ∧ k ∈ l then none else m.get (toLex (k, j)) := by
  induction l with
  | nil => intro m k j; simp [retractIdx]
  | cons a t ih =>
    intro m k j
    have := ih (m.erase (toLex (a, i))) k j
    rw [show retractIdx m (a :: t) i = retractIdx (m.erase (toLex (a, i))) t i from rfl, this, BMap.get_erase]
    by_cases h1 : j = i ∧ k ∈ t
    · rw [if_pos h1, if_pos ⟨h1.1, List.mem_cons_of_mem _ h1.2⟩]
    · rw [if_neg h1]
      by_cases h2 : k = a ∧ j = i
      · rw [if_pos (key_eq.2 h2), if_pos ⟨h2.2, by rw [h2.1]; exact List.mem_cons_self⟩]
      · rw [if_neg (fun h => h2 (key_eq.1 h)), if_neg]
        rintro ⟨h3, h4⟩
        rcases List.mem_cons.1 h4 with h5 | h5
        · exact h2 ⟨h5, h3⟩
        · exact h1 ⟨h3, h5⟩

theorem idx_extend {m : Index K} {f : Slots} {keys : Entry → List K} (h : IdxOk m f keys) {i : Nat} (hi : f i = none)
    (e : Entry) : IdxOk (extendIdx m (keys e) i) (Function.update f i (some e)) keys := by
  intro k j
  rw [get_extend]
  by_cases hj : j = i
  · subst hj
    simp only [Function.update_self, true_and]
    split
    · next hk => exact ⟨fun _ => ⟨e, rfl, hk⟩, fun _ => rfl⟩
    · next hk =>
      rw [h k j, hi]
      constructor
      · rintro ⟨e', he, _⟩; cases he
      · rintro ⟨e', he, hk'⟩; cases he; exact absurd hk' hk
  · rw [if_neg (fun hc => hj hc.1), Function.update_of_ne hj]
    exact h k j

theorem idx_retract {m : Index K} {f : Slots} {keys : Entry → List K} (h : IdxOk m f keys) {i : Nat} {e : Entry}
    (hi : f i = some e) : IdxOk (retractIdx m (keys e) i) (Function.update f i none) keys := by
  intro k j
  rw [get_retract]
  by_cases hj : j = i
  · subst hj
    simp only [Function.update_self, true_and]
    split
    · exact ⟨fun hc => (by cases hc), fun ⟨_, hc, _⟩ => (by cases hc)⟩
    · next hk =>
      rw [h k j, hi]
      constructor
      · rintro ⟨e', he, hk'⟩; cases he; exact absurd hk' hk
      · rintro ⟨e', he, _⟩; cases he
  · rw [if_neg (fun hc => hj hc.1), Function.update_of_ne hj]
    exact h k j

theorem insertNew_ok {m : Index K} {f : Slots} {keys : Entry → List K} (h : IdxOk m f keys) {i : Nat} (hi : f i = none)
    (k : K) : insertNew m k i = some (extendIdx m [k] i) := by
  unfold insertNew
  rw [if_neg]
  · rfl
  · intro hc
    obtain ⟨u, hu⟩ := Option.isSome_iff_exists.1 hc
    have := (h k i).1 hu
    rw [hi] at this
    obtain ⟨e, he, _⟩ := this
    cases he

theorem removeOld_ok {m : Index K} {f : Slots} {keys : Entry → List K} (h : IdxOk m f keys) {i : Nat} {e : Entry}
    (hi : f i = some e) {k : K} (hk : k ∈ keys e) : removeOld m k i = some (retractIdx m [k] i) := by
  unfold removeOld
  rw [if_pos]
  · rfl
  · exact Option.isSome_iff_exists.2 ⟨(), (h k i).2 ⟨e, hi, hk⟩⟩

end

/-! ### The maps -/

theorem maps_insert {m : Maps} {f : Slots} (h : MapsOk m f) {i : Nat} (hi : f i = none) {e : Entry}
    (hne : ∀ j e', f j = some e' → e'.tx.id ≠ e.tx.id) :
    ∃ m', m.insert e i = some m' ∧ MapsOk m' (Function.update f i (some e)) := by
  have hc : ¬ (m.byId.contains e.tx.id = true) := by
    intro hc
    obtain ⟨j, hj⟩ := Option.isSome_iff_exists.1 hc
    obtain ⟨e', he, hid⟩ := (h.id _ _).1 hj
    exact hne j e' he hid
  refine ⟨⟨m.byId.insert e.tx.id i, extendIdx m.byTime [e.tx.time] i, extendIdx m.byDeps e.tx.required i,
    extendIdx m.byPeer [e.peer] i⟩, ?_, ?_, ?_, ?_, ?_⟩
  · unfold Maps.insert
    rw [insertNew_ok h.time hi, insertNew_ok h.peer hi, if_neg hc]
    rfl
  · intro x j
    show (m.byId.insert e.tx.id i).get x = some j ↔ _
    rw [BMap.get_insert]
    by_cases hx : x = e.tx.id
    · subst hx
      rw [if_pos rfl]
      constructor
      · intro hj
        cases hj
        exact ⟨e, Function.update_self _ _ _, rfl⟩
      · rintro ⟨e', he, hid⟩
        by_cases hj : j = i
        · rw [hj]
        · rw [Function.update_of_ne hj] at he
          exact absurd hid (hne j e' he)
    · rw [if_neg hx]
      by_cases hj : j = i
      · subst hj
        rw [h.id, hi, Function.update_self]
        constructor
        · rintro ⟨_, hc, _⟩; cases hc
        · rintro ⟨e', he, hid⟩; cases he; exact absurd hid.symm hx
      · rw [Function.update_of_ne hj]; exact h.id x j
  · exact idx_extend (keys := fun e => [e.tx.time]) h.time hi e
  · exact idx_extend (keys := fun e => e.tx.required) h.deps hi e
  · exact idx_extend (keys := fun e => [e.peer]) h.peer hi e

theorem MapsOk.inj {m : Maps} {f : Slots} (h : MapsOk m f) {i j : Nat} {e e' : Entry} (hi : f i = some e) (hj : f j = some e')
    (hid : e.tx.id = e'.tx.id) : i = j := by
  have h1 := (h.id _ _).2 ⟨e, hi, rfl⟩
  have h2 := (h.id _ _).2 ⟨e', hj, rfl⟩
  rw [hid, h2] at h1
  exact (Option.some.inj h1).symm

theorem maps_remove {m : Maps} {f : Slots} (h : MapsOk m f) {i : Nat} {e : Entry} (hi : f i = some e) :
    ∃ m', m.remove e = some m' ∧ MapsOk m' (Function.update f i none) := by
  refine ⟨⟨m.byId.erase e.tx.id, retractIdx m.byTime [e.tx.time] i, retractIdx m.byDeps e.tx.required i,
    retractIdx m.byPeer [e.peer] i⟩, ?_, ?_, ?_, ?_, ?_⟩
  · unfold Maps.remove
    rw [(h.id _ _).2 ⟨e, hi, rfl⟩]
    show (removeOld m.byTime e.tx.time i).bind _ = _
    rw [removeOld_ok h.time hi List.mem_cons_self]
    show (removeOld m.byPeer e.peer i).bind _ = _
    rw [removeOld_ok h.peer hi List.mem_cons_self]
    rfl
  · intro x j
    show (m.byId.erase e.tx.id).get x = some j ↔ _
    rw [BMap.get_erase]
    by_cases hx : x = e.tx.id
    · subst hx
      rw [if_pos rfl]
      constructor
      · intro hc; cases hc
      · rintro ⟨e', he, hid⟩
        by_cases hj : j = i
        · subst hj; rw [Function.update_self] at he; cases he
        · rw [Function.update_of_ne hj] at he
          exact absurd (h.inj he hi hid) hj
    · rw [if_neg hx]
      by_cases hj : j = i
      · subst hj
        rw [h.id, hi, Function.update_self]
        constructor
        · rintro ⟨e', he, hid⟩; cases he; exact absurd hid.symm hx
        · rintro ⟨_, hc, _⟩; cases hc
      · rw [Function.update_of_ne hj]; exact h.id x j
  · exact idx_retract (keys := fun e => [e.tx.time]) h.time hi
  · exact idx_retract (keys := fun e => e.tx.required) h.deps hi
  · exact idx_retract (keys := fun e => [e.peer]) h.peer hi

/-! ### The pool -/

theorem poolOk_new : PoolOk Pool.new := by
  refine ⟨?_, ?_, ?_, ?_⟩
  · intro x i
    constructor
    · intro h; cases h
    · rintro ⟨e, he, _⟩; simp [Pool.new] at he
  all_goals
    intro k i
    constructor
    · intro h; cases h
    · rintro ⟨e, he, _⟩; simp [Pool.new] at he

theorem swapRemove_eq {l : List Entry} {i : Nat} (hi : i < l.length) :
    ∃ e last init, l[i]? = some e ∧ l = init ++ [last] ∧ swapRemove l i = some (e, (l.set i last).dropLast) := by
  obtain ⟨init, last, rfl⟩ : ∃ init last, l = init ++ [last] := by
    cases l using List.reverseRecOn with
    | nil => simp at hi
    | append_singleton xs x => exact ⟨xs, x, rfl⟩
  refine ⟨(init ++ [last])[i], last, init, List.getElem?_eq_getElem hi, rfl, ?_⟩
  unfold swapRemove
  rw [List.getElem?_eq_getElem hi, List.getLast?_concat]

/-- Removal at a position: exactly that entry goes, and the indices match again. -/
theorem removeAt_spec {p : Pool} (h : PoolOk p) {i : Nat} (hi : i < p.txs.length) :
    ∃ e p', p.txs[i]? = some e ∧ p.removeAt i = some (e, p') ∧ PoolOk p' ∧ p.txs.Perm (e :: p'.txs) := by
  obtain ⟨e, last, init, he, hl, hs⟩ := swapRemove_eq hi
  obtain ⟨m1, hm1, ok1⟩ := maps_remove h he
  have hlen : p.txs.length = init.length + 1 := by rw [hl]; simp
  by_cases hil : i = init.length
  · -- the last entry
    have hel : e = last := by
      rw [hl, hil] at he
      simpa using he.symm
    have hset : (p.txs.set i last).dropLast = init := by
      rw [hl, hil]; simp
    refine ⟨e, ⟨init, m1⟩, he, ?_, ?_, ?_⟩
    · unfold Pool.removeAt
      rw [hs, hset]
      show (p.maps.remove e).bind _ = _
      rw [hm1]
      show (reindex m1 init i).bind _ = _
      have : reindex m1 init i = some m1 := by
        unfold reindex
        rw [hil, List.getElem?_eq_none (Nat.le_refl _)]
      rw [this]; rfl
    · show MapsOk m1 (fun j => init[j]?)
      have : (fun j => init[j]?) = Function.update (fun j => p.txs[j]?) i none := by
        funext j
        by_cases hj : j = i
        · subst hj; rw [Function.update_self, hil, List.getElem?_eq_none (Nat.le_refl _)]
        · rw [Function.update_of_ne hj, hl]
          by_cases hj2 : j < init.length
          · rw [List.getElem?_append_left hj2]
          · rw [List.getElem?_eq_none (by omega), List.getElem?_eq_none (by simp; omega)]
      rw [this]; exact ok1
    · show p.txs.Perm (e :: init)
      rw [hl, hel]
      exact List.perm_append_singleton _ _
  · have hi2 : i < init.length := by omega
    have hset : (p.txs.set i last).dropLast = init.set i last := by
      rw [hl, List.set_append_left _ _ hi2, List.dropLast_concat]
    have hinit : init[i]? = some e := by
      rw [hl, List.getElem?_append_left hi2] at he; exact he
    have hlast : Function.update (fun j => p.txs[j]?) i none init.length = some last := by
      rw [Function.update_of_ne (by omega), hl]
      simp
    obtain ⟨m2, hm2, ok2⟩ := maps_remove ok1 hlast
    have hgap : Function.update (Function.update (fun j => p.txs[j]?) i none) init.length none i = none := by
      rw [Function.update_of_ne hil, Function.update_self]
    obtain ⟨m3, hm3, ok3⟩ := maps_insert (e := last) ok2 hgap (by
      intro j e' he' hid
      by_cases hj : j = init.length
      · subst hj; rw [Function.update_self] at he'; cases he'
      · rw [Function.update_of_ne hj] at he'
        exact hj (ok1.inj he' hlast hid))
    refine ⟨e, ⟨init.set i last, m3⟩, he, ?_, ?_, ?_⟩
    · unfold Pool.removeAt
      rw [hs, hset]
      show (p.maps.remove e).bind _ = _
      rw [hm1]
      show (reindex m1 (init.set i last) i).bind _ = _
      have : reindex m1 (init.set i last) i = some m3 := by
        unfold reindex
        rw [List.getElem?_set_self hi2]
        show (m1.remove last).bind _ = _
        rw [hm2]; exact hm3
      rw [this]; rfl
    · show MapsOk m3 (fun j => (init.set i last)[j]?)
      have : (fun j => (init.set i last)[j]?) = Function.update (Function.update (Function.update (fun j => p.txs[j]?) i none)
          init.length none) i (some last) := by
        funext j
        by_cases hj : j = i
        · subst hj; rw [Function.update_self, List.getElem?_set_self hi2]
        · rw [Function.update_of_ne hj, List.getElem?_set_ne (by omega)]
          by_cases hj2 : j = init.length
          · subst hj2; rw [Function.update_self, List.getElem?_eq_none (Nat.le_refl _)]
          · rw [Function.update_of_ne hj2, Function.update_of_ne hj, hl]
            by_cases hj3 : j < init.length
            · rw [List.getElem?_append_left hj3]
            · rw [List.getElem?_eq_none (by omega), List.getElem?_eq_none (by simp; omega)]
      rw [this]; exact ok3
    · show p.txs.Perm (e :: init.set i last)
      rw [hl]
      exact (List.perm_append_singleton _ _).trans (set_perm hinit).symm

theorem contains_iff {p : Pool} (h : PoolOk p) (id : Nat) : p.contains id = true ↔ ∃ e ∈ p.txs, e.tx.id = id := by
  unfold Pool.contains BMap.contains
  rw [Option.isSome_iff_exists]
  constructor
  · rintro ⟨i, hi⟩
    obtain ⟨e, he, hid⟩ := (h.id _ _).1 hi
    exact ⟨e, List.mem_of_getElem? he, hid⟩
  · rintro ⟨e, he, hid⟩
    obtain ⟨i, hi⟩ := List.getElem?_of_mem he
    exact ⟨i, (h.id _ _).2 ⟨e, hi, hid⟩⟩

theorem ids_unique {p : Pool} (h : PoolOk p) {e e' : Entry} (he : e ∈ p.txs) (he' : e' ∈ p.txs) (hid : e.tx.id = e'.tx.id) :
    e = e' := by
  obtain ⟨i, hi⟩ := List.getElem?_of_mem he
  obtain ⟨j, hj⟩ := List.getElem?_of_mem he'
  have := h.inj hi hj hid
  subst this
  rw [hi] at hj
  exact Option.some.inj hj

theorem ids_nodup {p : Pool} (h : PoolOk p) : (p.txs.map (fun e => e.tx.id)).Nodup := by
  rw [List.nodup_iff_injective_get]
  intro a b hab
  have ha : a.val < p.txs.length := by simpa using a.isLt
  have hb : b.val < p.txs.length := by simpa using b.isLt
  have := h.inj (i := a.val) (j := b.val) (List.getElem?_eq_getElem ha) (List.getElem?_eq_getElem hb) (by simpa using hab)
  exact Fin.ext this

theorem get_spec {p : Pool} (h : PoolOk p) (id : Nat) :
    ∃ o, p.get id = some o ∧ ∀ e, o = some e ↔ e ∈ p.txs ∧ e.tx.id = id := by
  unfold Pool.get
  cases hb : p.maps.byId.get id with
  | none =>
    refine ⟨none, rfl, fun e => ⟨fun hc => (by cases hc), ?_⟩⟩
    rintro ⟨he, hid⟩
    obtain ⟨i, hi⟩ := List.getElem?_of_mem he
    have := (h.id _ _).2 ⟨e, hi, hid⟩
    rw [hb] at this; cases this
  | some i =>
    obtain ⟨e, he, hid⟩ := (h.id _ _).1 hb
    refine ⟨some e, by simp only [he]; rfl, fun e' => ⟨?_, ?_⟩⟩
    · intro hc; cases hc; exact ⟨List.mem_of_getElem? he, hid⟩
    · rintro ⟨h1, h2⟩
      rw [ids_unique h h1 (List.mem_of_getElem? he) (h2.trans hid.symm)]

end Verif.TxOrphans
