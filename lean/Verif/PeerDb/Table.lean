import Verif.PeerDb.Model
import Mathlib.Data.List.Nodup
import Mathlib.Data.List.Perm.Subperm

/-! The table is a map from slots to addresses: every operation on the array of ids and the map of ids is the corresponding operation on
that map, and never panics. -/

namespace Verif.PeerDb

open Verif

/-- a configuration that `new_generic` accepts (it asserts `id_max >= bucket_count * bucket_size`; `Array2d` needs to be non-empty for the
remainder to be defined; an id is a `u32`) -/
structure Hash.WF (c : Hash) : Prop where
  rows : 0 < c.rows
  cols : 0 < c.cols
  size : c.rows * c.cols ≤ c.idMax
  u32 : c.idMax < 2 ^ 32

theorem Hash.slot_lt {c : Hash} (hc : c.WF) (a : Addr) : c.slot a < c.rows * c.cols := by
  have h1 : c.row a < c.rows := Nat.mod_lt _ hc.rows
  have h2 : c.col a < c.cols := Nat.mod_lt _ hc.cols
  unfold Hash.slot
  calc c.row a * c.cols + c.col a < c.row a * c.cols + c.cols := by omega
    _ = (c.row a + 1) * c.cols := by ring
    _ ≤ c.rows * c.cols := Nat.mul_le_mul_right _ h1

/-- the address in a slot -/
def Table.at (t : Table) (s : Nat) : Option Addr := t.buckets[s]?.bind t.addrs.get

structure Table.Ok (c : Hash) (t : Table) : Prop where
  len : t.buckets.length = c.rows * c.cols
  back : ∀ s id, t.buckets[s]? = some id → id < c.idMax → ∃ a, t.addrs.get id = some a ∧ c.slot a = s
  forth : ∀ id a, t.addrs.get id = some a → id < c.idMax ∧ t.buckets[c.slot a]? = some id

/-- the address is in the table -/
def Table.Holds (c : Hash) (t : Table) (a : Addr) : Prop := t.at (c.slot a) = some a

instance (c : Hash) (t : Table) (a : Addr) : Decidable (t.Holds c a) := inferInstanceAs (Decidable (_ = _))

theorem Table.Ok.at_slot {c : Hash} {t : Table} (h : t.Ok c) {s : Nat} {a : Addr} (e : t.at s = some a) : c.slot a = s := by
  unfold Table.at at e
  cases eb : t.buckets[s]? with
  | none => rw [eb] at e; cases e
  | some id =>
    rw [eb] at e
    have e : t.addrs.get id = some a := e
    obtain ⟨a', h1, h2⟩ := h.back s id eb (h.forth id a e).1
    rw [e] at h1; cases h1; exact h2

theorem Table.Ok.holds_iff {c : Hash} {t : Table} (h : t.Ok c) {a : Addr} : t.Holds c a ↔ ∃ id, t.addrs.get id = some a := by
  constructor
  · intro e
    unfold Table.Holds Table.at at e
    cases eb : t.buckets[c.slot a]? with
    | none => rw [eb] at e; cases e
    | some id => rw [eb] at e; exact ⟨id, e⟩
  · rintro ⟨id, e⟩
    unfold Table.Holds Table.at
    rw [(h.forth id a e).2]; exact e

theorem Table.Ok.mem_iter {c : Hash} {t : Table} (h : t.Ok c) {a : Addr} : a ∈ t.addrIter ↔ t.Holds c a := by
  rw [h.holds_iff]
  unfold Table.addrIter
  rw [List.mem_map]
  constructor
  · rintro ⟨⟨id, x⟩, h1, rfl⟩; exact ⟨id, BMap.mem_entries.1 h1⟩
  · rintro ⟨id, e⟩; exact ⟨(id, a), BMap.mem_entries.2 e, rfl⟩

theorem Table.Ok.inj {c : Hash} {t : Table} (h : t.Ok c) {i j : Nat} {a b : Addr} (e1 : t.addrs.get i = some a)
    (e2 : t.addrs.get j = some b) (e : c.slot a = c.slot b) : i = j := by
  have h1 := (h.forth i a e1).2
  have h2 := (h.forth j b e2).2
  rw [e, h2] at h1
  exact (Option.some.inj h1).symm

theorem Table.new_ok (c : Hash) : (Table.new c).Ok c where
  len := List.length_replicate
  back := by
    intro s id h hi
    rw [Table.new, List.getElem?_replicate] at h
    split at h
    · cases h; omega
    · cases h
  forth := by intro id a h; cases h

theorem Table.new_at (c : Hash) (s : Nat) : (Table.new c).at s = none := by
  unfold Table.at
  cases (Table.new c).buckets[s]? <;> rfl

/-! ### Number of addresses -/

theorem Table.Ok.slots_nodup {c : Hash} {t : Table} (h : t.Ok c) : (t.addrs.entries.map fun x => c.slot x.2).Nodup := by
  unfold List.Nodup
  rw [List.pairwise_map]
  apply List.Pairwise.imp_of_mem _ t.addrs.sorted
  intro x y hx hy hlt e
  have := h.inj (BMap.mem_entries.1 hx) (BMap.mem_entries.1 hy) e
  omega

theorem Table.Ok.iter_nodup {c : Hash} {t : Table} (h : t.Ok c) : t.addrIter.Nodup := by
  have := h.slots_nodup
  have e : (t.addrs.entries.map fun x => c.slot x.2) = t.addrIter.map c.slot := by
    unfold Table.addrIter; rw [List.map_map]; rfl
  rw [e] at this
  exact List.Nodup.of_map _ this

theorem Table.Ok.size_le {c : Hash} (hc : c.WF) {t : Table} (h : t.Ok c) : t.addrs.entries.length ≤ c.rows * c.cols := by
  have h1 : (t.addrs.entries.map fun x => c.slot x.2) ⊆ List.range (c.rows * c.cols) := by
    intro s hs
    obtain ⟨x, _, rfl⟩ := List.mem_map.1 hs
    exact List.mem_range.2 (Hash.slot_lt hc _)
  have := (List.subperm_of_subset h.slots_nodup h1).length_le
  simpa using this

theorem Table.Ok.size_lt {c : Hash} (hc : c.WF) {t : Table} (h : t.Ok c) {a : Addr} (ha : t.at (c.slot a) = none) :
    t.addrs.entries.length < c.rows * c.cols := by
  have h1 : (c.slot a :: t.addrs.entries.map fun x => c.slot x.2) ⊆ List.range (c.rows * c.cols) := by
    intro s hs
    rcases List.mem_cons.1 hs with rfl | hs
    · exact List.mem_range.2 (Hash.slot_lt hc _)
    · obtain ⟨x, _, rfl⟩ := List.mem_map.1 hs
      exact List.mem_range.2 (Hash.slot_lt hc _)
  have h2 : (c.slot a :: t.addrs.entries.map fun x => c.slot x.2).Nodup := by
    refine List.nodup_cons.2 ⟨?_, h.slots_nodup⟩
    intro hm
    obtain ⟨⟨id, x⟩, hx, e⟩ := List.mem_map.1 hm
    have := (h.holds_iff (a := x)).2 ⟨id, BMap.mem_entries.1 hx⟩
    unfold Table.Holds at this
    have e : c.slot x = c.slot a := e
    rw [e, ha] at this
    cases this
  have := (List.subperm_of_subset h2 h1).length_le
  simp at this
  omega

/-! ### Ids -/

theorem lt_nextId {t : Table} {n : Nat} (h : t.nextId = .ok n) : ∀ x ∈ t.addrs.entries, x.1 < n := by
  unfold Table.nextId at h
  intro x hx
  cases e : t.addrs.entries.getLast? with
  | none => rw [List.getLast?_eq_none_iff] at e; rw [e] at hx; cases hx
  | some y =>
    rw [e] at h
    obtain ⟨ys, e'⟩ := List.getLast?_eq_some_iff.1 e
    have hs := t.addrs.sorted
    rw [e', List.pairwise_append] at hs
    rw [e'] at hx
    have h : (if y.1 + 1 < 2 ^ 32 then Except.ok (y.1 + 1) else Except.error Panic.table) = Except.ok n := h
    split at h
    · cases h
      rcases List.mem_append.1 hx with hx | hx
      · have := hs.2.2 x hx y (by simp); omega
      · rw [List.mem_singleton] at hx; subst hx; omega
    · cases h

theorem nextId_ok {c : Hash} (hc : c.WF) {t : Table} (h : t.Ok c) : ∃ n, t.nextId = .ok n := by
  unfold Table.nextId
  cases e : t.addrs.entries.getLast? with
  | none => exact ⟨0, rfl⟩
  | some y =>
    obtain ⟨ys, e'⟩ := List.getLast?_eq_some_iff.1 e
    have : y ∈ t.addrs.entries := by rw [e']; simp
    have h1 := (h.forth y.1 y.2 (BMap.mem_entries.1 this)).1
    have h2 := hc.u32
    exact ⟨y.1 + 1, if_pos (by omega)⟩

theorem mem_renumber {m : BMap Nat Addr} {i : Nat} {a : Addr} : (renumber m).get i = some a ↔ m.entries[i]?.map (·.2) = some a := by
  rw [← BMap.mem_entries]
  unfold renumber
  simp only [List.mem_map, List.mem_zipIdx_iff_getElem?, Option.map_eq_some_iff]
  constructor
  · rintro ⟨⟨x, j⟩, h1, h2⟩
    simp only [Prod.mk.injEq] at h2
    exact ⟨x, by rw [← h2.1]; exact h1, h2.2⟩
  · rintro ⟨x, h1, h2⟩
    exact ⟨(x, i), h1, by simp [h2]⟩

theorem keys_nodup (m : BMap Nat Addr) : (m.entries.map (·.1)).Nodup := by
  unfold List.Nodup
  rw [List.pairwise_map]
  exact m.sorted.imp fun h => Nat.ne_of_lt h

theorem idxOf_key {m : BMap Nat Addr} {id i : Nat} (h : (m.entries.map (·.1)).idxOf? id = some i) :
    m.entries[i]?.map (·.1) = some id := by
  rw [List.idxOf?_eq_some_iff] at h
  obtain ⟨h1, h2, _⟩ := h
  rw [← List.getElem?_map, List.getElem?_eq_getElem h1]
  simpa using h2

theorem mapM_ok_get {A B E : Type} {f : A → Except E B} : ∀ {l : List A} {r : List B}, l.mapM f = .ok r →
    l.length = r.length ∧ ∀ (i : Nat) (x : A), l[i]? = some x → ∃ y, r[i]? = some y ∧ f x = .ok y := by
  intro l
  induction l with
  | nil => intro r h; cases h; exact ⟨rfl, fun i x h => by cases h⟩
  | cons a l ih =>
    intro r h
    rw [List.mapM_cons] at h
    obtain ⟨y, h1, h⟩ := bind_eq_ok.1 h
    obtain ⟨ys, h2, h⟩ := bind_eq_ok.1 h
    cases h
    obtain ⟨g1, g2⟩ := ih h2
    refine ⟨by simp [g1], ?_⟩
    intro i x hx
    cases i with
    | zero => cases hx; exact ⟨y, rfl, h1⟩
    | succ i => exact g2 i x hx

theorem mapM_isOk {A B E : Type} {f : A → Except E B} : ∀ {l : List A}, (∀ x ∈ l, ∃ y, f x = .ok y) → ∃ r, l.mapM f = .ok r := by
  intro l
  induction l with
  | nil => intro _; exact ⟨[], rfl⟩
  | cons a l ih =>
    intro h
    obtain ⟨y, hy⟩ := h a (by simp)
    obtain ⟨r, hr⟩ := ih fun x hx => h x (List.mem_cons_of_mem _ hx)
    exact ⟨y :: r, by rw [List.mapM_cons, hy, hr]; rfl⟩

theorem rebuild_spec {c : Hash} (hc : c.WF) {t : Table} (h : t.Ok c) :
    ∃ t', t.rebuildIds c = .ok t' ∧ t'.Ok c ∧ (∀ s, t'.at s = t.at s) ∧ t'.addrs = renumber t.addrs := by
  obtain ⟨bs, hbs⟩ := mapM_isOk (l := t.buckets)
    (f := fun id => if id < c.idMax then okOr ((t.addrs.entries.map (·.1)).idxOf? id) Panic.table else .ok id) (by
      intro id hid
      by_cases hi : id < c.idMax
      · obtain ⟨s, hs⟩ := List.mem_iff_getElem?.1 hid
        obtain ⟨a, ha, _⟩ := h.back s id hs hi
        cases e : (t.addrs.entries.map (·.1)).idxOf? id with
        | none =>
          rw [List.idxOf?_eq_none_iff] at e
          exact absurd (List.mem_map.2 ⟨(id, a), BMap.mem_entries.2 ha, rfl⟩) e
        | some i => exact ⟨i, by rw [if_pos hi]; rfl⟩
      · exact ⟨id, if_neg hi⟩)
  obtain ⟨hl, hg⟩ := mapM_ok_get hbs
  have hsz := h.size_le hc
  have hm := hc.size
  -- what a bucket becomes
  have key : ∀ (s id : Nat), t.buckets[s]? = some id →
      (id < c.idMax ∧ ∃ (i : Nat) (a : Addr), bs[s]? = some i ∧ t.addrs.entries[i]? = some (id, a)) ∨ (c.idMax ≤ id ∧ bs[s]? = some id) := by
    intro s id hs
    obtain ⟨y, h1, h2⟩ := hg s id hs
    by_cases hi : id < c.idMax
    · rw [if_pos hi] at h2
      have h2 := okOr_eq_ok.1 h2
      have h3 := idxOf_key h2
      rw [Option.map_eq_some_iff] at h3
      obtain ⟨⟨j, a⟩, h4, h5⟩ := h3
      have h5 : j = id := h5
      subst h5
      exact .inl ⟨hi, y, a, h1, h4⟩
    · rw [if_neg hi] at h2; cases h2
      exact .inr ⟨by omega, h1⟩
  have hat : ∀ s, (Table.mk bs (renumber t.addrs)).at s = t.at s := by
    intro s
    unfold Table.at
    cases eb : t.buckets[s]? with
    | none =>
      have : bs[s]? = none := by
        rw [List.getElem?_eq_none_iff] at eb ⊢; omega
      change (bs[s]?).bind _ = _
      rw [this]; rfl
    | some id =>
      rcases key s id eb with ⟨hi, i, a, h1, h2⟩ | ⟨hi, h1⟩
      · change (bs[s]?).bind _ = t.addrs.get id
        rw [h1, BMap.mem_entries.1 (List.mem_of_getElem? h2)]
        exact mem_renumber.2 (by rw [h2]; rfl)
      · change (bs[s]?).bind _ = t.addrs.get id
        rw [h1]
        change (renumber t.addrs).get id = _
        have e1 : t.addrs.get id = none := by
          cases e : t.addrs.get id with
          | none => rfl
          | some a => have := (h.forth id a e).1; omega
        rw [e1]
        cases e : (renumber t.addrs).get id with
        | none => rfl
        | some a =>
          have := mem_renumber.1 e
          rw [List.getElem?_eq_none (by omega)] at this
          cases this
  refine ⟨⟨bs, renumber t.addrs⟩, by unfold Table.rebuildIds; rw [hbs]; rfl, ⟨by rw [← hl]; exact h.len, ?_, ?_⟩, hat, rfl⟩
  · intro s i hi hlt
    have hs : s < t.buckets.length := by
      rw [hl]; exact (List.getElem?_eq_some_iff.1 hi).1
    rcases key s _ (List.getElem?_eq_getElem hs) with ⟨h0, j, a, h1, h2⟩ | ⟨h0, h1⟩
    · have hi' : bs[s]? = some i := hi
      rw [hi'] at h1; cases h1
      have hg' := BMap.mem_entries.1 (List.mem_of_getElem? h2)
      obtain ⟨a', g1, g2⟩ := h.back s _ (List.getElem?_eq_getElem hs) h0
      rw [hg'] at g1; cases g1
      exact ⟨a, mem_renumber.2 (by rw [h2]; rfl), g2⟩
    · have hi' : bs[s]? = some i := hi
      rw [hi'] at h1; cases h1; omega
  · intro i a hia
    obtain ⟨⟨id, a'⟩, h1, h2⟩ := Option.map_eq_some_iff.1 (mem_renumber.1 hia)
    have h2 : a' = a := h2
    subst h2
    have hil := (List.getElem?_eq_some_iff.1 h1).1
    have hg' := BMap.mem_entries.1 (List.mem_of_getElem? h1)
    refine ⟨by omega, ?_⟩
    change bs[c.slot a']? = some i
    obtain ⟨f1, f2⟩ := h.forth id a' hg'
    rcases key _ id f2 with ⟨_, j, b, g1, g2⟩ | ⟨g0, _⟩
    · rw [g1]
      have hn := keys_nodup t.addrs
      have k1 : (t.addrs.entries.map (·.1))[i]? = some id := by rw [List.getElem?_map, h1]; rfl
      have k2 : (t.addrs.entries.map (·.1))[j]? = some id := by rw [List.getElem?_map, g2]; rfl
      have hj := (List.getElem?_eq_some_iff.1 g2).1
      rw [(List.getElem?_inj (i := j) (j := i) (by simpa using hj) hn).1 (by rw [k1, k2])]
    · omega

theorem renumber_nextId {t : Table} {m : BMap Nat Addr} (e : t.addrs = renumber m) (hl : m.entries.length < 2 ^ 32) :
    t.nextId = .ok m.entries.length := by
  unfold Table.nextId
  rw [e]
  have : (renumber m).entries = m.entries.zipIdx.map fun x => (x.2, x.1.2) := rfl
  rw [this, List.getLast?_map]
  rcases List.eq_nil_or_concat m.entries with h | ⟨ys, y, h⟩
  · rw [h]; rfl
  · rw [h] at hl ⊢
    simp only [List.concat_eq_append, List.length_append, List.length_cons, List.length_nil] at hl ⊢
    rw [List.zipIdx_append]
    simp only [Nat.zero_add, List.zipIdx_cons, List.zipIdx_nil, List.getLast?_append, List.getLast?_singleton, Option.some_or,
      Option.map_some]
    exact if_pos hl

theorem allocate_spec {c : Hash} (hc : c.WF) {t : Table} (h : t.Ok c) {a : Addr} (ha : t.at (c.slot a) = none) :
    ∃ t' n, t.allocateId c = .ok (t', n) ∧ t'.Ok c ∧ (∀ s, t'.at s = t.at s) ∧ n < c.idMax ∧ t'.addrs.get n = none := by
  obtain ⟨n, hn⟩ := nextId_ok hc h
  have fresh : ∀ {t : Table} {n : Nat}, t.nextId = .ok n → t.addrs.get n = none := by
    intro t n hn
    cases e : t.addrs.get n with
    | none => rfl
    | some x => have := lt_nextId hn _ (BMap.mem_entries.2 e); simp at this
  unfold Table.allocateId
  rw [hn]
  by_cases hle : c.idMax ≤ n
  · obtain ⟨t', h1, h2, h3, h4⟩ := rebuild_spec hc h
    have hlt := h.size_lt hc ha
    have hu := hc.u32
    have hsz := hc.size
    have hn' := renumber_nextId h4 (by omega)
    refine ⟨t', t.addrs.entries.length, ?_, h2, h3, by omega, fresh hn'⟩
    change (if c.idMax ≤ n then _ else _) = _
    rw [if_pos hle, h1]
    change ((t'.nextId >>= fun n => _) : Except Panic _) = _
    rw [hn']
    change ((ensure _ _ >>= fun _ => _) : Except Panic _) = _
    rw [show ensure (t.addrs.entries.length < c.idMax) Panic.table = .ok () from ensure_eq_ok.2 (by omega)]
    rfl
  · refine ⟨t, n, ?_, h, fun _ => rfl, by omega, fresh hn⟩
    exact if_neg hle

/-! ### The operations -/

theorem ok_bind {E A B : Type} (x : A) (f : A → Except E B) : ((Except.ok x : Except E A) >>= f) = f x := rfl

theorem Table.Ok.id_ok {c : Hash} (hc : c.WF) {t : Table} (h : t.Ok c) (a : Addr) :
    ∃ id, t.buckets[c.slot a]? = some id ∧ t.id c a = .ok id := by
  have : c.slot a < t.buckets.length := by rw [h.len]; exact Hash.slot_lt hc a
  exact ⟨_, List.getElem?_eq_getElem this, okOr_eq_ok.2 (List.getElem?_eq_getElem this)⟩

/-- a vacant slot is given an id -/
theorem insert_spec {c : Hash} (hc : c.WF) {t : Table} (h : t.Ok c) {a : Addr} (ha : t.at (c.slot a) = none) {n : Nat}
    (hn : n < c.idMax) (hf : t.addrs.get n = none) :
    (Table.mk (t.buckets.set (c.slot a) n) (t.addrs.insert n a)).Ok c ∧
    ∀ s, (Table.mk (t.buckets.set (c.slot a) n) (t.addrs.insert n a)).at s = if s = c.slot a then some a else t.at s := by
  have hl : c.slot a < t.buckets.length := by rw [h.len]; exact Hash.slot_lt hc a
  have old : ∀ (s id : Nat), t.buckets[s]? = some id → id ≠ n := by
    intro s id hs e
    subst e
    obtain ⟨x, h1, _⟩ := h.back s id hs hn
    rw [hf] at h1; cases h1
  refine ⟨⟨by simpa using h.len, ?_, ?_⟩, ?_⟩
  · intro s id hs hlt
    change (t.buckets.set (c.slot a) n)[s]? = some id at hs
    change ∃ x, (t.addrs.insert n a).get id = some x ∧ _
    rw [List.getElem?_set] at hs
    by_cases e : c.slot a = s
    · rw [if_pos e, if_pos hl] at hs
      cases hs
      exact ⟨a, by rw [BMap.get_insert, if_pos rfl], e⟩
    · rw [if_neg e] at hs
      obtain ⟨x, h1, h2⟩ := h.back s id hs hlt
      exact ⟨x, by rw [BMap.get_insert_ne _ _ (old s id hs)]; exact h1, h2⟩
  · intro id x hx
    change (t.addrs.insert n a).get id = some x at hx
    change id < c.idMax ∧ (t.buckets.set (c.slot a) n)[c.slot x]? = some id
    rw [BMap.get_insert] at hx
    by_cases e : id = n
    · rw [if_pos e] at hx
      cases hx
      refine ⟨by omega, ?_⟩
      rw [List.getElem?_set, if_pos rfl, if_pos hl, e]
    · rw [if_neg e] at hx
      obtain ⟨h1, h2⟩ := h.forth id x hx
      refine ⟨h1, ?_⟩
      rw [List.getElem?_set, if_neg]
      · exact h2
      · intro e'
        have := h.holds_iff.2 ⟨id, hx⟩
        unfold Table.Holds at this
        rw [← e', ha] at this
        cases this
  · intro s
    unfold Table.at
    change ((t.buckets.set (c.slot a) n)[s]?).bind (t.addrs.insert n a).get = _
    rw [List.getElem?_set]
    by_cases e : c.slot a = s
    · rw [if_pos e, if_pos hl, if_pos e.symm]
      change (t.addrs.insert n a).get n = _
      rw [BMap.get_insert, if_pos rfl]
    · rw [if_neg e, if_neg fun h => e h.symm]
      cases eb : t.buckets[s]? with
      | none => rfl
      | some id => exact BMap.get_insert_ne _ _ (old s id eb)

/-- an address is overwritten by another one of the same slot -/
theorem overwrite_spec {c : Hash} {t : Table} (h : t.Ok c) {a x : Addr} {id : Nat} (hb : t.buckets[c.slot a]? = some id)
    (hx : t.addrs.get id = some x) (hs : c.slot x = c.slot a) :
    (Table.mk t.buckets (t.addrs.insert id a)).Ok c ∧
    ∀ s, (Table.mk t.buckets (t.addrs.insert id a)).at s = if s = c.slot a then some a else t.at s := by
  have uniq : ∀ (s : Nat), t.buckets[s]? = some id → s = c.slot a := by
    intro s hs'
    obtain ⟨y, h1, h2⟩ := h.back s id hs' (h.forth id x hx).1
    rw [hx] at h1; cases h1
    rw [← h2, hs]
  refine ⟨⟨h.len, ?_, ?_⟩, ?_⟩
  · intro s i hi hlt
    change ∃ y, (t.addrs.insert id a).get i = some y ∧ _
    by_cases e : i = id
    · subst e
      exact ⟨a, by rw [BMap.get_insert, if_pos rfl], (uniq s hi).symm⟩
    · obtain ⟨y, h1, h2⟩ := h.back s i hi hlt
      exact ⟨y, by rw [BMap.get_insert_ne _ _ e]; exact h1, h2⟩
  · intro i y hy
    change (t.addrs.insert id a).get i = some y at hy
    rw [BMap.get_insert] at hy
    by_cases e : i = id
    · rw [if_pos e] at hy
      cases hy
      exact ⟨by rw [e]; exact (h.forth id x hx).1, by rw [e]; exact hb⟩
    · rw [if_neg e] at hy
      exact h.forth i y hy
  · intro s
    unfold Table.at
    by_cases e : s = c.slot a
    · rw [if_pos e, e]
      change (t.buckets[c.slot a]?).bind _ = _
      rw [hb]
      change (t.addrs.insert id a).get id = _
      rw [BMap.get_insert, if_pos rfl]
    · rw [if_neg e]
      change (t.buckets[s]?).bind _ = _
      cases eb : t.buckets[s]? with
      | none => rfl
      | some i => exact BMap.get_insert_ne _ _ fun e' => e (uniq s (by rw [eb, e']))

theorem getOrCreate_spec {c : Hash} (hc : c.WF) {t : Table} (h : t.Ok c) (a : Addr) :
    ∃ t' id x, t.getOrCreate c a = .ok (t', id, x) ∧ t'.Ok c ∧ t'.buckets[c.slot a]? = some id ∧ t'.addrs.get id = some x ∧
      c.slot x = c.slot a ∧ (t.at (c.slot a) = some x ∨ t.at (c.slot a) = none ∧ x = a) ∧
      ∀ s, t'.at s = if s = c.slot a then some x else t.at s := by
  obtain ⟨id, hb, hid⟩ := h.id_ok hc a
  unfold Table.getOrCreate
  rw [hid]
  change ∃ t' id' x, (if c.idMax ≤ id then _ else _) = _ ∧ _
  by_cases hi : c.idMax ≤ id
  · have hnone : t.at (c.slot a) = none := by
      unfold Table.at
      rw [hb]
      change t.addrs.get id = none
      cases e : t.addrs.get id with
      | none => rfl
      | some x => have := (h.forth id x e).1; omega
    obtain ⟨t', n, h1, h2, h3, h4, h5⟩ := allocate_spec hc h hnone
    obtain ⟨g1, g2⟩ := insert_spec hc h2 (a := a) (by rw [h3]; exact hnone) h4 h5
    have hl : c.slot a < t'.buckets.length := by rw [h2.len]; exact Hash.slot_lt hc a
    refine ⟨⟨t'.buckets.set (c.slot a) n, t'.addrs.insert n a⟩, n, a, ?_, g1, ?_, ?_, rfl, .inr ⟨hnone, rfl⟩, ?_⟩
    · rw [if_pos hi, h1]; rfl
    · change (t'.buckets.set (c.slot a) n)[c.slot a]? = _
      rw [List.getElem?_set, if_pos rfl, if_pos hl]
    · change (t'.addrs.insert n a).get n = _
      rw [BMap.get_insert, if_pos rfl]
    · intro s; rw [g2, h3]
  · obtain ⟨x, h1, h2⟩ := h.back _ id hb (by omega)
    have hat : t.at (c.slot a) = some x := by unfold Table.at; rw [hb]; exact h1
    refine ⟨t, id, x, ?_, h, hb, h1, h2, .inl hat, ?_⟩
    · rw [if_neg hi, h1]; rfl
    · intro s
      split
      · next e => rw [e]; exact hat
      · rfl

theorem remove_spec {c : Hash} (hc : c.WF) {t : Table} (h : t.Ok c) (a : Addr) :
    ∃ t', t.remove c a = .ok t' ∧ t'.Ok c ∧
      ∀ s, t'.at s = if s = c.slot a ∧ t.at s = some a then none else t.at s := by
  obtain ⟨id, hb, hid⟩ := h.id_ok hc a
  have hat : t.at (c.slot a) = t.addrs.get id := by unfold Table.at; rw [hb]; rfl
  unfold Table.remove
  rw [hid]
  rw [ok_bind]
  cases e : t.addrs.get id with
  | none =>
    refine ⟨t, ?_, h, ?_⟩
    · refine if_pos ?_
      by_contra hn
      obtain ⟨x, h1, _⟩ := h.back _ id hb (by omega)
      rw [e] at h1; cases h1
    · intro s
      rw [if_neg]
      rintro ⟨rfl, h1⟩
      rw [hat, e] at h1; cases h1
  | some x =>
    by_cases ex : x = a
    · subst ex
      have hl : c.slot x < t.buckets.length := by rw [h.len]; exact Hash.slot_lt hc x
      have uniq : ∀ (s : Nat), t.buckets[s]? = some id → s = c.slot x := by
        intro s hs'
        obtain ⟨y, h1, h2⟩ := h.back s id hs' (h.forth id x e).1
        rw [e] at h1; cases h1
        exact h2.symm
      refine ⟨⟨t.buckets.set (c.slot x) c.idMax, t.addrs.erase id⟩, if_pos rfl, ⟨by simpa using h.len, ?_, ?_⟩, ?_⟩
      · intro s i hi hlt
        change (t.buckets.set (c.slot x) c.idMax)[s]? = some i at hi
        change ∃ y, (t.addrs.erase id).get i = some y ∧ _
        rw [List.getElem?_set] at hi
        by_cases es : c.slot x = s
        · rw [if_pos es, if_pos hl] at hi
          cases hi; omega
        · rw [if_neg es] at hi
          obtain ⟨y, h1, h2⟩ := h.back s i hi hlt
          have : i ≠ id := fun e' => es (uniq s (by rw [hi, e'])).symm
          exact ⟨y, by rw [BMap.get_erase_ne _ this]; exact h1, h2⟩
      · intro i y hy
        change (t.addrs.erase id).get i = some y at hy
        change i < c.idMax ∧ (t.buckets.set (c.slot x) c.idMax)[c.slot y]? = some i
        rw [BMap.get_erase] at hy
        split at hy
        · cases hy
        · next ei =>
          obtain ⟨h1, h2⟩ := h.forth i y hy
          refine ⟨h1, ?_⟩
          rw [List.getElem?_set, if_neg]
          · exact h2
          · intro es
            exact ei (h.inj hy e es.symm)
      · intro s
        by_cases es : s = c.slot x
        · subst es
          rw [if_pos ⟨rfl, by rw [hat, e]⟩]
          unfold Table.at
          change ((t.buckets.set (c.slot x) c.idMax)[c.slot x]?).bind (t.addrs.erase id).get = none
          rw [List.getElem?_set, if_pos rfl, if_pos hl]
          change (t.addrs.erase id).get c.idMax = none
          rw [BMap.get_erase]
          split
          · rfl
          · cases e' : t.addrs.get c.idMax with
            | none => rfl
            | some y => have := (h.forth _ y e').1; omega
        · rw [if_neg fun h => es h.1]
          unfold Table.at
          change ((t.buckets.set (c.slot x) c.idMax)[s]?).bind (t.addrs.erase id).get = _
          rw [List.getElem?_set, if_neg fun h => es h.symm]
          cases eb : t.buckets[s]? with
          | none => rfl
          | some i => exact BMap.get_erase_ne _ fun e' => es (uniq s (by rw [eb, e']))
    · refine ⟨t, if_neg ex, h, ?_⟩
      intro s
      rw [if_neg]
      rintro ⟨rfl, h1⟩
      rw [hat, e] at h1
      exact ex (Option.some.inj h1)

theorem replaceIf_spec {c : Hash} (hc : c.WF) {t : Table} (h : t.Ok c) (a : Addr) (can : Addr → Bool) :
    ∃ t' r, t.replaceIf c a can = .ok (t', r) ∧ t'.Ok c ∧
      (∀ s, t'.at s = if s = c.slot a ∧ (∀ x, t.at s = some x → x = a ∨ can x = true) then some a else t.at s) ∧
      r = (match t.at (c.slot a) with
        | none => none
        | some x => if x = a then none else if can x then some x else some a) := by
  obtain ⟨t', id, x, h1, h2, h3, h4, h5, h6, h7⟩ := getOrCreate_spec hc h a
  unfold Table.replaceIf
  rw [h1]
  by_cases ex : x = a
  · subst ex
    refine ⟨t', none, if_pos rfl, h2, ?_, ?_⟩
    · intro s
      rw [h7]
      by_cases es : s = c.slot x
      · subst es
        rw [if_pos rfl]
        rcases h6 with h6 | ⟨h6, _⟩
        · rw [if_pos ⟨rfl, fun y hy => .inl (by rw [h6] at hy; exact (Option.some.inj hy).symm)⟩]
        · rw [if_pos ⟨rfl, fun y hy => by rw [h6] at hy; cases hy⟩]
      · rw [if_neg es, if_neg fun h => es h.1]
    · rcases h6 with h6 | ⟨h6, _⟩
      · rw [h6]; exact (if_pos rfl).symm
      · rw [h6]
  · have h6 : t.at (c.slot a) = some x := by
      rcases h6 with h6 | ⟨_, h6⟩
      · exact h6
      · exact absurd h6 ex
    by_cases hcan : can x = true
    · obtain ⟨g1, g2⟩ := overwrite_spec h2 h3 h4 h5
      refine ⟨⟨t'.buckets, t'.addrs.insert id a⟩, some x, ?_, g1, ?_, ?_⟩
      · change (if x = a then _ else if can x then _ else _) = _
        rw [if_neg ex, if_pos hcan]; rfl
      · intro s
        rw [g2, h7]
        by_cases es : s = c.slot a
        · subst es
          rw [if_pos rfl, if_pos ⟨rfl, fun y hy => .inr (by rw [h6] at hy; cases hy; exact hcan)⟩]
        · rw [if_neg es, if_neg es, if_neg fun h => es h.1]
      · rw [h6]
        exact ((if_neg ex).trans (if_pos hcan)).symm
    · refine ⟨t', some a, ?_, h2, ?_, ?_⟩
      · change (if x = a then _ else if can x then _ else _) = _
        rw [if_neg ex, if_neg hcan]; rfl
      · intro s
        rw [h7]
        by_cases es : s = c.slot a
        · subst es
          rw [if_pos rfl, if_neg, h6]
          rintro ⟨_, h⟩
          rcases h x h6 with h | h
          · exact ex h
          · exact hcan h
        · rw [if_neg es, if_neg fun h => es h.1]
      · rw [h6]
        exact ((if_neg ex).trans (if_neg hcan)).symm

theorem replace_eq (c : Hash) (t : Table) (a : Addr) : t.replace c a = t.replaceIf c a fun _ => true := by
  unfold Table.replace Table.replaceIf
  rfl

theorem replace_spec {c : Hash} (hc : c.WF) {t : Table} (h : t.Ok c) (a : Addr) :
    ∃ t' r, t.replace c a = .ok (t', r) ∧ t'.Ok c ∧ (∀ s, t'.at s = if s = c.slot a then some a else t.at s) ∧
      r = (if t.at (c.slot a) = some a then none else t.at (c.slot a)) := by
  rw [replace_eq]
  obtain ⟨t', r, h1, h2, h3, h4⟩ := replaceIf_spec hc h a fun _ => true
  refine ⟨t', r, h1, h2, ?_, ?_⟩
  · intro s
    rw [h3]
    by_cases es : s = c.slot a
    · rw [if_pos ⟨es, fun _ _ => .inr rfl⟩, if_pos es]
    · rw [if_neg es, if_neg fun h => es h.1]
  · rw [h4]
    cases e : t.at (c.slot a) with
    | none => rfl
    | some x =>
      by_cases ex : x = a
      · subst ex; simp
      · simp [ex]

end Verif.PeerDb
