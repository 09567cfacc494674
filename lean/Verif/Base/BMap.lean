import Mathlib.Order.Defs.LinearOrder
import Mathlib.Order.Basic
import Mathlib.Algebra.BigOperators.Group.List.Basic
import Mathlib.Data.Prod.Lex

/-!
# `BMap`: a model of `std::collections::BTreeMap`

A `BMap K V` is a strictly key-sorted association list.  It is the model of every `BTreeMap` in the code
base.  Iteration (`entries`) is in ascending key order, as for `BTreeMap`.  Two maps with the same lookups are
equal (`BMap.ext_get`).
-/

namespace Verif

/-- Model of `BTreeMap<K, V>`: strictly sorted association list. -/
structure BMap (K : Type) (V : Type) [LinearOrder K] where
  entries : List (K × V)
  sorted : entries.Pairwise (fun a b => a.1 < b.1)

namespace BMap

variable {K V A B E : Type} [LinearOrder K]

instance [DecidableEq V] : DecidableEq (BMap K V) := fun a b =>
  if h : a.entries = b.entries then
    isTrue (by cases a; cases b; simp_all)
  else isFalse (by intro e; exact h (by rw [e]))

/-! ### Raw list operations -/

/-- lookup in an association list -/
def lookupL : List (K × V) → K → Option V
  | [], _ => none
  | (a, b) :: t, k => if k = a then some b else lookupL t k

/-- sorted insertion (replacing) -/
def insertL (k : K) (v : V) : List (K × V) → List (K × V)
  | [] => [(k, v)]
  | (a, b) :: t =>
    if k < a then (k, v) :: (a, b) :: t
    else if k = a then (k, v) :: t
    else (a, b) :: insertL k v t

/-- removal -/
def eraseL (k : K) : List (K × V) → List (K × V)
  | [] => []
  | (a, b) :: t => if k = a then t else (a, b) :: eraseL k t

theorem mem_insertL {k : K} {v : V} {l : List (K × V)} {x : K × V} (h : x ∈ insertL k v l) :
    x = (k, v) ∨ x ∈ l := by
  induction l with
  | nil => simpa [insertL] using h
  | cons hd t ih =>
    obtain ⟨a, b⟩ := hd
    unfold insertL at h
    split at h
    · simpa using h
    · split at h
      · simp only [List.mem_cons] at h ⊢
        rcases h with h | h <;> tauto
      · simp only [List.mem_cons] at h ⊢
        rcases h with h | h
        · tauto
        · rcases ih h with h | h <;> tauto

theorem mem_eraseL {k : K} {l : List (K × V)} {x : K × V} (h : x ∈ eraseL k l) : x ∈ l := by
  induction l with
  | nil => simp [eraseL] at h
  | cons hd t ih =>
    obtain ⟨a, b⟩ := hd
    unfold eraseL at h
    split at h
    · simp [h]
    · simp only [List.mem_cons] at h ⊢
      rcases h with h | h
      · tauto
      · exact Or.inr (ih h)

theorem insertL_sorted (k : K) (v : V) (l : List (K × V))
    (h : l.Pairwise (fun a b => a.1 < b.1)) :
    (insertL k v l).Pairwise (fun a b => a.1 < b.1) := by
  induction l with
  | nil => simp [insertL]
  | cons hd t ih =>
    obtain ⟨a, b⟩ := hd
    rw [List.pairwise_cons] at h
    unfold insertL
    split
    · rename_i hlt
      rw [List.pairwise_cons]
      refine ⟨?_, List.pairwise_cons.2 h⟩
      intro x hx
      rcases List.mem_cons.1 hx with rfl | hx
      · exact hlt
      · exact lt_trans hlt (h.1 x hx)
    · split
      · rename_i heq
        subst heq
        rw [List.pairwise_cons]
        exact ⟨fun x hx => h.1 x hx, h.2⟩
      · rename_i h1 h2
        have hgt : a < k := lt_of_le_of_ne (le_of_not_gt h1) (fun e => h2 e.symm)
        rw [List.pairwise_cons]
        refine ⟨?_, ih h.2⟩
        intro x hx
        rcases mem_insertL hx with rfl | hx
        · exact hgt
        · exact h.1 x hx

theorem eraseL_sorted (k : K) (l : List (K × V))
    (h : l.Pairwise (fun a b => a.1 < b.1)) :
    (eraseL k l).Pairwise (fun a b => a.1 < b.1) := by
  induction l with
  | nil => simp [eraseL]
  | cons hd t ih =>
    obtain ⟨a, b⟩ := hd
    rw [List.pairwise_cons] at h
    unfold eraseL
    split
    · exact h.2
    · rw [List.pairwise_cons]
      exact ⟨fun x hx => h.1 x (mem_eraseL hx), ih h.2⟩

theorem lookupL_eq_none_of_lt {l : List (K × V)} {k : K} (h : ∀ x ∈ l, k < x.1) :
    lookupL l k = none := by
  induction l with
  | nil => rfl
  | cons hd t ih =>
    obtain ⟨a, b⟩ := hd
    unfold lookupL
    have : k ≠ a := ne_of_lt (h (a, b) (by simp))
    rw [if_neg this]
    exact ih (fun x hx => h x (by simp [hx]))

theorem lookupL_mem {l : List (K × V)} {k : K} {v : V} (h : lookupL l k = some v) : (k, v) ∈ l := by
  induction l with
  | nil => simp [lookupL] at h
  | cons hd t ih =>
    obtain ⟨a, b⟩ := hd
    unfold lookupL at h
    split at h
    · simp_all
    · exact List.mem_cons_of_mem _ (ih h)

theorem lookupL_of_mem {l : List (K × V)} (hs : l.Pairwise (fun a b => a.1 < b.1)) {k : K} {v : V}
    (h : (k, v) ∈ l) : lookupL l k = some v := by
  induction l with
  | nil => simp at h
  | cons hd t ih =>
    obtain ⟨a, b⟩ := hd
    rw [List.pairwise_cons] at hs
    unfold lookupL
    rcases List.mem_cons.1 h with h | h
    · simp_all
    · have := hs.1 _ h
      rw [if_neg (ne_of_gt this)]
      exact ih hs.2 h

theorem lookupL_insertL (k : K) (v : V) (l : List (K × V)) (k' : K) :
    lookupL (insertL k v l) k' = if k' = k then some v else lookupL l k' := by
  induction l with
  | nil => simp [insertL, lookupL]
  | cons hd t ih =>
    obtain ⟨a, b⟩ := hd
    unfold insertL
    split
    · simp [lookupL]
    · split
      · rename_i heq
        subst heq
        simp only [lookupL]
        split <;> simp
      · rename_i h1 h2
        simp only [lookupL, ih]
        split
        · rename_i e
          rw [if_neg]
          intro e2
          exact h2 (e2 ▸ e)
        · rfl

theorem lookupL_eraseL (k : K) (l : List (K × V)) (hs : l.Pairwise (fun a b => a.1 < b.1)) (k' : K) :
    lookupL (eraseL k l) k' = if k' = k then none else lookupL l k' := by
  induction l with
  | nil => simp [eraseL, lookupL]
  | cons hd t ih =>
    obtain ⟨a, b⟩ := hd
    rw [List.pairwise_cons] at hs
    unfold eraseL
    split
    · rename_i heq
      subst heq
      split
      · rename_i e
        subst e
        exact lookupL_eq_none_of_lt hs.1
      · rename_i hne
        simp [lookupL, hne]
    · rename_i hne
      simp only [lookupL, ih hs.2]
      split
      · rename_i e
        rw [if_neg]
        intro e2
        exact hne (e2 ▸ e)
      · rfl

theorem ext_lookupL {l l' : List (K × V)} (hs : l.Pairwise (fun a b => a.1 < b.1))
    (hs' : l'.Pairwise (fun a b => a.1 < b.1)) (h : ∀ k, lookupL l k = lookupL l' k) : l = l' := by
  induction l generalizing l' with
  | nil =>
    cases l' with
    | nil => rfl
    | cons hd t =>
      obtain ⟨a, b⟩ := hd
      have := h a
      simp [lookupL] at this
  | cons hd t ih =>
    obtain ⟨a, b⟩ := hd
    cases l' with
    | nil =>
      have := h a
      simp [lookupL] at this
    | cons hd' t' =>
      obtain ⟨a', b'⟩ := hd'
      rw [List.pairwise_cons] at hs hs'
      have haa : a = a' := by
        rcases lt_trichotomy a a' with hlt | heq | hgt
        · exfalso
          have h1 := h a
          have : lookupL ((a', b') :: t') a = none := by
            apply lookupL_eq_none_of_lt
            intro x hx
            rcases List.mem_cons.1 hx with rfl | hx
            · exact hlt
            · exact lt_trans hlt (hs'.1 x hx)
          rw [this] at h1
          simp [lookupL] at h1
        · exact heq
        · exfalso
          have h1 := h a'
          have : lookupL ((a, b) :: t) a' = none := by
            apply lookupL_eq_none_of_lt
            intro x hx
            rcases List.mem_cons.1 hx with rfl | hx
            · exact hgt
            · exact lt_trans hgt (hs.1 x hx)
          rw [this] at h1
          simp [lookupL] at h1
      subst haa
      have hb : b = b' := by
        have h1 := h a
        simpa [lookupL] using h1
      subst hb
      congr 1
      apply ih hs.2 hs'.2
      intro k
      have h1 := h k
      simp only [lookupL] at h1
      by_cases e : k = a
      · subst e
        rw [lookupL_eq_none_of_lt hs.1, lookupL_eq_none_of_lt hs'.1]
      · simpa [e] using h1

/-! ### Map operations -/

/-- empty map -/
def empty : BMap K V := ⟨[], List.Pairwise.nil⟩

instance : EmptyCollection (BMap K V) := ⟨empty⟩
instance : Inhabited (BMap K V) := ⟨empty⟩

/-- `BTreeMap::get` -/
def get (m : BMap K V) (k : K) : Option V := lookupL m.entries k

/-- `BTreeMap::insert` -/
def insert (m : BMap K V) (k : K) (v : V) : BMap K V :=
  ⟨insertL k v m.entries, insertL_sorted k v _ m.sorted⟩

/-- `BTreeMap::remove` -/
def erase (m : BMap K V) (k : K) : BMap K V :=
  ⟨eraseL k m.entries, eraseL_sorted k _ m.sorted⟩

/-- insert or remove depending on the option -/
def set (m : BMap K V) (k : K) : Option V → BMap K V
  | none => m.erase k
  | some v => m.insert k v

/-- build a map by successive insertion -/
def ofList (l : List (K × V)) : BMap K V := l.foldl (fun m kv => m.insert kv.1 kv.2) empty

/-- `contains_key` -/
def contains (m : BMap K V) (k : K) : Bool := (m.get k).isSome

/-- number of entries -/
def size (m : BMap K V) : Nat := m.entries.length

@[simp] theorem get_empty (k : K) : (empty : BMap K V).get k = none := rfl
@[simp] theorem get_empty' (k : K) : (∅ : BMap K V).get k = none := rfl

theorem get_insert (m : BMap K V) (k : K) (v : V) (k' : K) :
    (m.insert k v).get k' = if k' = k then some v else m.get k' :=
  lookupL_insertL k v m.entries k'

@[simp] theorem get_insert_self (m : BMap K V) (k : K) (v : V) : (m.insert k v).get k = some v := by
  simp [get_insert]

theorem get_insert_ne (m : BMap K V) {k k' : K} (v : V) (h : k' ≠ k) :
    (m.insert k v).get k' = m.get k' := by simp [get_insert, h]

theorem get_erase (m : BMap K V) (k : K) (k' : K) :
    (m.erase k).get k' = if k' = k then none else m.get k' :=
  lookupL_eraseL k m.entries m.sorted k'

@[simp] theorem get_erase_self (m : BMap K V) (k : K) : (m.erase k).get k = none := by
  simp [get_erase]

theorem get_erase_ne (m : BMap K V) {k k' : K} (h : k' ≠ k) :
    (m.erase k).get k' = m.get k' := by simp [get_erase, h]

theorem get_set (m : BMap K V) (k : K) (o : Option V) (k' : K) :
    (m.set k o).get k' = if k' = k then o else m.get k' := by
  cases o <;> simp [set, get_insert, get_erase]

@[simp] theorem get_set_self (m : BMap K V) (k : K) (o : Option V) : (m.set k o).get k = o := by
  simp [get_set]

theorem get_set_ne (m : BMap K V) {k k' : K} (o : Option V) (h : k' ≠ k) :
    (m.set k o).get k' = m.get k' := by simp [get_set, h]

theorem ext_get {m m' : BMap K V} (h : ∀ k, m.get k = m'.get k) : m = m' := by
  obtain ⟨l, hl⟩ := m
  obtain ⟨l', hl'⟩ := m'
  have := ext_lookupL hl hl' h
  subst this
  rfl

theorem ext_get_iff {m m' : BMap K V} : m = m' ↔ ∀ k, m.get k = m'.get k :=
  ⟨fun h _ => h ▸ rfl, ext_get⟩

theorem mem_entries {m : BMap K V} {k : K} {v : V} : (k, v) ∈ m.entries ↔ m.get k = some v :=
  ⟨lookupL_of_mem m.sorted, lookupL_mem⟩

@[simp] theorem set_get (m : BMap K V) (k : K) : m.set k (m.get k) = m := by
  apply ext_get; intro k'; rw [get_set]; split <;> simp_all

@[simp] theorem set_set (m : BMap K V) (k : K) (a b : Option V) : (m.set k a).set k b = m.set k b := by
  apply ext_get; intro k'; simp only [get_set]; split <;> simp_all

theorem set_comm (m : BMap K V) {k k' : K} (h : k ≠ k') (a b : Option V) :
    (m.set k a).set k' b = (m.set k' b).set k a := by
  apply ext_get; intro x; simp only [get_set]
  by_cases h1 : x = k <;> by_cases h2 : x = k' <;> simp_all

@[simp] theorem insert_insert (m : BMap K V) (k : K) (a b : V) :
    (m.insert k a).insert k b = m.insert k b := by
  apply ext_get; intro k'; simp only [get_insert]; split <;> simp_all

theorem insert_get {m : BMap K V} {k : K} {v : V} (h : m.get k = some v) : m.insert k v = m := by
  apply ext_get; intro k'; rw [get_insert]; split <;> simp_all

theorem erase_of_none {m : BMap K V} {k : K} (h : m.get k = none) : m.erase k = m := by
  apply ext_get; intro k'; rw [get_erase]; split <;> simp_all

@[simp] theorem erase_insert_self (m : BMap K V) (k : K) (v : V) :
    (m.insert k v).erase k = m.erase k := by
  apply ext_get; intro k'; simp only [get_insert, get_erase]; split <;> simp_all

@[simp] theorem insert_erase_self (m : BMap K V) (k : K) (v : V) :
    (m.erase k).insert k v = m.insert k v := by
  apply ext_get; intro k'; simp only [get_insert, get_erase]; split <;> simp_all

/-! ### Filtering and mapping -/

/-- keep the entries satisfying a predicate -/
def filter (m : BMap K V) (p : K → V → Bool) : BMap K V :=
  ⟨m.entries.filter (fun kv => p kv.1 kv.2), m.sorted.filter _⟩

theorem get_filter (m : BMap K V) (p : K → V → Bool) (k : K) :
    (m.filter p).get k = (m.get k).filter (p k) := by
  cases h : m.get k with
  | none =>
    cases h' : (m.filter p).get k with
    | none => rfl
    | some v =>
      have := mem_entries.2 h'
      simp only [filter, List.mem_filter] at this
      rw [mem_entries.1 this.1] at h
      simp at h
  | some v =>
    cases hp : p k v with
    | true =>
      rw [Option.filter_some_pos hp]
      apply mem_entries.1
      simp [filter, List.mem_filter, mem_entries.2 h, hp]
    | false =>
      rw [Option.filter_some_neg (by simp [hp])]
      cases h' : (m.filter p).get k with
      | none => rfl
      | some v' =>
        have := mem_entries.2 h'
        simp only [filter, List.mem_filter] at this
        have h2 := mem_entries.1 this.1
        rw [h] at h2
        simp only [Option.some.injEq] at h2
        subst h2
        simp [hp] at this

/-- map over values -/
def mapV (m : BMap K A) (f : K → A → B) : BMap K B :=
  ⟨m.entries.map (fun kv => (kv.1, f kv.1 kv.2)), by
    rw [List.pairwise_map]; exact m.sorted⟩

theorem get_mapV (m : BMap K A) (f : K → A → B) (k : K) :
    (m.mapV f).get k = (m.get k).map (f k) := by
  cases h : m.get k with
  | none =>
    cases h' : (m.mapV f).get k with
    | none => rfl
    | some v =>
      have := mem_entries.2 h'
      simp only [mapV, List.mem_map, Prod.mk.injEq, Prod.exists] at this
      obtain ⟨a, b, hab, rfl, _⟩ := this
      rw [mem_entries.1 hab] at h
      simp at h
  | some v =>
    apply mem_entries.1
    simp only [mapV, List.mem_map, Prod.mk.injEq, Prod.exists]
    exact ⟨k, v, mem_entries.2 h, rfl, rfl⟩

/-! ### Monadic merging: `for (k, b) in d { m[k] := f k m[k] b ? }` -/

/-- For every entry `(k, b)` of `d` in ascending key order, replace the entry of `m` at `k` by
`f k (m.get k) b`, stopping at the first error.  This is the shape of all the `merge_*` and `batch_write`
loops in the code base. -/
def mergeM (f : K → Option A → B → Except E (Option A)) (m : BMap K A) (d : BMap K B) :
    Except E (BMap K A) :=
  d.entries.foldlM (fun m kb => do
    let r ← f kb.1 (m.get kb.1) kb.2
    pure (m.set kb.1 r)) m

theorem mergeL_ok_iff (f : K → Option A → B → Except E (Option A)) (l : List (K × B))
    (hs : l.Pairwise (fun a b => a.1 < b.1)) (m r : BMap K A) :
    l.foldlM (fun m kb => do
      let r ← f kb.1 (m.get kb.1) kb.2
      pure (m.set kb.1 r)) m = .ok r ↔
    ∀ k, match lookupL l k with
      | none => r.get k = m.get k
      | some b => f k (m.get k) b = .ok (r.get k) := by
  induction l generalizing m with
  | nil =>
    simp only [List.foldlM_nil, lookupL]
    constructor
    · intro h k
      cases h
      rfl
    · intro h
      have : r = m := ext_get h
      subst this
      rfl
  | cons hd t ih =>
    obtain ⟨a, b⟩ := hd
    rw [List.pairwise_cons] at hs
    rw [List.foldlM_cons]
    have hta : lookupL t a = none := lookupL_eq_none_of_lt hs.1
    cases hf : f a (m.get a) b with
    | error e =>
      constructor
      · intro h
        simp [bind, Except.bind] at h
      · intro h
        have := h a
        simp [lookupL, hf] at this
    | ok x =>
      change (List.foldlM (m := Except E) _ (m.set a x) t = Except.ok r) ↔ _
      rw [ih hs.2]
      constructor
      · intro h k
        have hk := h k
        by_cases e : k = a
        · subst e
          rw [hta] at hk
          simp only [get_set_self] at hk
          simp [lookupL, hk, hf]
        · simpa only [lookupL, e, if_false, get_set_ne _ _ e] using hk
      · intro h k
        have hk := h k
        by_cases e : k = a
        · subst e
          rw [hta]
          simp only [lookupL, if_true, hf] at hk
          simp only [get_set_self]
          injection hk with hk
          exact hk.symm
        · simpa only [lookupL, e, if_false, get_set_ne _ _ e] using hk

/-- Pointwise characterisation of a successful merge. -/
theorem mergeM_ok_iff (f : K → Option A → B → Except E (Option A)) (m : BMap K A) (d : BMap K B)
    (r : BMap K A) :
    mergeM f m d = .ok r ↔
    ∀ k, match d.get k with
      | none => r.get k = m.get k
      | some b => f k (m.get k) b = .ok (r.get k) :=
  mergeL_ok_iff f d.entries d.sorted m r

theorem mergeL_isOk (f : K → Option A → B → Except E (Option A)) (l : List (K × B))
    (hs : l.Pairwise (fun a b => a.1 < b.1)) (m : BMap K A)
    (h : ∀ k b, lookupL l k = some b → ∃ x, f k (m.get k) b = .ok x) :
    ∃ r, l.foldlM (fun m kb => do
      let r ← f kb.1 (m.get kb.1) kb.2
      pure (m.set kb.1 r)) m = .ok r := by
  induction l generalizing m with
  | nil => exact ⟨m, rfl⟩
  | cons hd t ih =>
    obtain ⟨a, b⟩ := hd
    rw [List.pairwise_cons] at hs
    obtain ⟨x, hx⟩ := h a b (by simp [lookupL])
    rw [List.foldlM_cons]
    have hstep : (do let r ← f (a, b).1 (m.get (a, b).1) (a, b).2; pure (m.set (a, b).1 r) :
        Except E (BMap K A)) = .ok (m.set a x) := by
      simp [bind, Except.bind, hx, pure, Except.pure]
    rw [hstep]
    apply ih hs.2 (m.set a x)
    intro k b' hk
    have hne : k ≠ a := by
      rintro rfl
      rw [lookupL_eq_none_of_lt hs.1] at hk
      simp at hk
    rw [get_set_ne _ _ hne]
    apply h
    simp [lookupL, hne, hk]

/-- A merge succeeds iff it succeeds at every key. -/
theorem mergeM_isOk_iff (f : K → Option A → B → Except E (Option A)) (m : BMap K A) (d : BMap K B) :
    (∃ r, mergeM f m d = .ok r) ↔ ∀ k b, d.get k = some b → ∃ x, f k (m.get k) b = .ok x := by
  constructor
  · rintro ⟨r, h⟩ k b hk
    have := (mergeM_ok_iff f m d r).1 h k
    rw [hk] at this
    exact ⟨_, this⟩
  · intro h
    exact mergeL_isOk f d.entries d.sorted m h

/-! ### Merging while collecting an undo map -/

/-- Like `mergeM`, but each step also yields an undo record `g k b` which is collected in a map:
`for (k, b) in d { m[k] := f k m[k] b ?; undo.insert(k, g k b) }`. -/
def mergeUndoM {U : Type} (f : K → Option A → B → Except E (Option A)) (g : K → B → U)
    (m : BMap K A) (d : BMap K B) : Except E (BMap K A × BMap K U) :=
  d.entries.foldlM (fun (s : BMap K A × BMap K U) kb => do
    let r ← f kb.1 (s.1.get kb.1) kb.2
    pure (s.1.set kb.1 r, s.2.insert kb.1 (g kb.1 kb.2))) (m, empty)

theorem foldl_insert_get {U : Type} (g : K → B → U) (l : List (K × B))
    (hs : l.Pairwise (fun a b => a.1 < b.1)) (u : BMap K U) (k : K) :
    (l.foldl (fun (u : BMap K U) kb => u.insert kb.1 (g kb.1 kb.2)) u).get k =
      match lookupL l k with
      | none => u.get k
      | some b => some (g k b) := by
  induction l generalizing u with
  | nil => rfl
  | cons hd t ih =>
    obtain ⟨a, b⟩ := hd
    rw [List.pairwise_cons] at hs
    rw [List.foldl_cons, ih hs.2]
    by_cases e : k = a
    · subst e
      simp [lookupL, lookupL_eq_none_of_lt hs.1]
    · simp only [lookupL, e, if_false, get_insert_ne _ _ e]

theorem mergeUndoL {U : Type} (f : K → Option A → B → Except E (Option A)) (g : K → B → U)
    (l : List (K × B)) (m : BMap K A) (u : BMap K U) :
    l.foldlM (fun (s : BMap K A × BMap K U) kb => do
      let r ← f kb.1 (s.1.get kb.1) kb.2
      pure (s.1.set kb.1 r, s.2.insert kb.1 (g kb.1 kb.2))) (m, u) =
    (l.foldlM (fun m kb => do
      let r ← f kb.1 (m.get kb.1) kb.2
      pure (m.set kb.1 r)) m : Except E (BMap K A)).map
      (fun r => (r, l.foldl (fun (u : BMap K U) kb => u.insert kb.1 (g kb.1 kb.2)) u)) := by
  induction l generalizing m u with
  | nil => rfl
  | cons hd t ih =>
    obtain ⟨a, b⟩ := hd
    simp only [List.foldlM_cons, List.foldl_cons]
    cases hf : f a (m.get a) b with
    | error e => rfl
    | ok x => exact ih _ _

/-- collecting the undo map does not influence the merge; the undo map is the pointwise image -/
theorem mergeUndoM_eq {U : Type} (f : K → Option A → B → Except E (Option A)) (g : K → B → U)
    (m : BMap K A) (d : BMap K B) :
    mergeUndoM f g m d = (mergeM f m d).map (fun r => (r, d.mapV g)) := by
  unfold mergeUndoM mergeM
  rw [mergeUndoL]
  have : d.entries.foldl (fun (u : BMap K U) kb => u.insert kb.1 (g kb.1 kb.2)) empty = d.mapV g := by
    apply ext_get
    intro k
    rw [foldl_insert_get g d.entries d.sorted, get_mapV]
    unfold get
    cases lookupL d.entries k <;> rfl
  rw [this]

theorem mergeUndoM_ok_iff {U : Type} (f : K → Option A → B → Except E (Option A)) (g : K → B → U)
    (m : BMap K A) (d : BMap K B) (r : BMap K A) (u : BMap K U) :
    mergeUndoM f g m d = .ok (r, u) ↔ mergeM f m d = .ok r ∧ u = d.mapV g := by
  rw [mergeUndoM_eq]
  cases mergeM f m d with
  | error e => simp [Except.map]
  | ok x =>
    simp only [Except.map, Except.ok.injEq, Prod.mk.injEq]
    constructor <;> rintro ⟨a, b⟩ <;> exact ⟨a, b.symm⟩

/-! ### Sums over a map -/

/-- sum of `g k v` over all entries -/
def sumV {M : Type} [AddCommMonoid M] (m : BMap K V) (g : K → V → M) : M :=
  (m.entries.map (fun kv => g kv.1 kv.2)).sum

@[simp] theorem sumV_empty {M : Type} [AddCommMonoid M] (g : K → V → M) :
    (empty : BMap K V).sumV g = 0 := rfl

theorem sumL_eraseL {M : Type} [AddCommMonoid M] (g : K → V → M) (l : List (K × V)) (k : K) (v : V)
    (h : lookupL l k = some v) :
    (l.map (fun kv => g kv.1 kv.2)).sum = ((eraseL k l).map (fun kv => g kv.1 kv.2)).sum + g k v := by
  induction l with
  | nil => simp [lookupL] at h
  | cons hd t ih =>
    obtain ⟨a, b⟩ := hd
    unfold lookupL at h
    unfold eraseL
    split at h
    · rename_i e
      subst e
      injection h with h
      subst h
      simp [add_comm]
    · rename_i e
      rw [if_neg e]
      simp only [List.map_cons, List.sum_cons, ih h, add_assoc]

theorem sumV_erase_of_get {M : Type} [AddCommMonoid M] (g : K → V → M) {m : BMap K V} {k : K} {v : V}
    (h : m.get k = some v) : m.sumV g = (m.erase k).sumV g + g k v :=
  sumL_eraseL g m.entries k v h

theorem sumV_insert {M : Type} [AddCommMonoid M] (g : K → V → M) (m : BMap K V) (k : K) (v : V) :
    (m.insert k v).sumV g = (m.erase k).sumV g + g k v := by
  rw [sumV_erase_of_get g (get_insert_self m k v), erase_insert_self]

theorem sumV_insert_of_none {M : Type} [AddCommMonoid M] (g : K → V → M) {m : BMap K V} {k : K} (v : V)
    (h : m.get k = none) : (m.insert k v).sumV g = m.sumV g + g k v := by
  rw [sumV_insert, erase_of_none h]

theorem sumV_congr {M : Type} [AddCommMonoid M] {g g' : K → V → M} {m : BMap K V}
    (h : ∀ k v, m.get k = some v → g k v = g' k v) : m.sumV g = m.sumV g' := by
  unfold sumV
  congr 1
  apply List.map_congr_left
  rintro ⟨k, v⟩ hkv
  exact h k v (mem_entries.1 hkv)

end BMap
end Verif
