import Verif.Scanner.Model

/-! Facts about the tables with heights. -/

namespace Verif.Scanner

variable {K V : Type} [DecidableEq K]

/-- all rows are at or below the height -/
def Table.UpTo (t : Table K V) (h : Nat) : Prop := ∀ r ∈ t, r.2.1 ≤ h

/-- at most one row per key and height -/
def Table.One (t : Table K V) : Prop := t.Pairwise fun r r' => ¬ (r.1 = r'.1 ∧ r.2.1 = r'.2.1)

theorem lastRow_mem {t : Table K V} {k : K} {x : Nat × V} (h : t.lastRow k = some x) : (k, x) ∈ t := by
  induction t with
  | nil => simp [Table.lastRow] at h
  | cons r t ih =>
    obtain ⟨k', h', v'⟩ := r
    simp only [Table.lastRow] at h
    split at h
    · rename_i hk
      subst hk
      split at h
      · rename_i a b heq
        split at h
        · cases h; exact List.mem_cons_of_mem _ (ih heq)
        · cases h; exact List.mem_cons_self
      · cases h; exact List.mem_cons_self
    · exact List.mem_cons_of_mem _ (ih h)

theorem lastRow_isSome {t : Table K V} {k : K} {x : Nat × V} (h : (k, x) ∈ t) : (t.lastRow k).isSome = true := by
  induction t with
  | nil => simp at h
  | cons r t ih =>
    obtain ⟨k', h', v'⟩ := r
    simp only [Table.lastRow]
    split
    · rename_i hk
      split
      · split <;> simp
      · simp
    · rename_i hk
      rcases List.mem_cons.1 h with h | h
      · cases h; exact absurd rfl hk
      · exact ih h

theorem lastRow_filter {t : Table K V} {k : K} {p : K × Nat × V → Bool} (hp : ∀ r ∈ t, r.1 = k → p r = true) :
    Table.lastRow (t.filter p) k = t.lastRow k := by
  induction t with
  | nil => rfl
  | cons r t ih =>
    obtain ⟨k', h', v'⟩ := r
    have ih := ih fun r hr => hp r (List.mem_cons_of_mem _ hr)
    by_cases hk : k' = k
    · have := hp (k', h', v') List.mem_cons_self hk
      rw [List.filter_cons, if_pos this]
      simp only [Table.lastRow, ih]
    · rw [List.filter_cons]
      split
      · simp only [Table.lastRow, ih]
      · rw [ih]; simp [Table.lastRow, hk]

theorem Table.UpTo.mono {t : Table K V} {h h' : Nat} (ht : t.UpTo h) (hh : h ≤ h') : t.UpTo h' := fun r hr => (ht r hr).trans hh

theorem Table.UpTo.put {t : Table K V} {h : Nat} (ht : t.UpTo h) (k : K) (v : V) : (t.put k h v).UpTo h := by
  intro r hr
  rcases List.mem_cons.1 hr with hr | hr
  · rw [hr]
  · exact ht r (List.mem_of_mem_filter hr)

theorem Table.One.put {t : Table K V} (ht : t.One) (k : K) (h : Nat) (v : V) : (t.put k h v).One := by
  refine List.Pairwise.cons ?_ (List.Pairwise.filter _ ht)
  intro r hr hc
  have := List.of_mem_filter hr
  simp only [decide_eq_true_eq] at this
  exact this ⟨hc.1.symm, hc.2.symm⟩

theorem Table.One.cut {t : Table K V} (ht : t.One) (c : Nat) : (t.cut c).One := List.Pairwise.filter _ ht

theorem lastRow_put {t : Table K V} {h : Nat} (ht : t.UpTo h) (k : K) (v : V) (k' : K) :
    (t.put k h v).lastRow k' = if k' = k then some (h, v) else t.lastRow k' := by
  by_cases hk : k' = k
  · subst hk
    rw [if_pos rfl]
    simp only [Table.put, Table.lastRow, if_true]
    split
    · rename_i h' v' heq
      have hm := lastRow_mem heq
      have h1 := ht _ (List.mem_of_mem_filter hm)
      have h2 := List.of_mem_filter hm
      simp only [true_and, decide_eq_true_eq] at h2
      simp only at h1
      rw [if_neg (by omega)]
    · rfl
  · rw [if_neg hk]
    simp only [Table.put, Table.lastRow]
    rw [if_neg (fun hc => hk hc.symm)]
    refine lastRow_filter fun r _ hr => ?_
    simp only [decide_eq_true_eq]
    exact fun hc => hk (hr.symm.trans hc.1)

theorem last_put {t : Table K V} {h : Nat} (ht : t.UpTo h) (k : K) (v : V) (k' : K) :
    (t.put k h v).last k' = if k' = k then some v else t.last k' := by
  simp only [Table.last, lastRow_put ht]
  split <;> simp

theorem cut_put {t : Table K V} {h c : Nat} (hc : c < h) (k : K) (v : V) : (t.put k h v).cut c = t.cut c := by
  simp only [Table.put, Table.cut, List.filter_cons]
  rw [if_neg (by simp; omega), List.filter_filter]
  refine List.filter_congr fun r _ => ?_
  by_cases h1 : r.2.1 ≤ c
  · have : ¬ (r.1 = k ∧ r.2.1 = h) := fun hh => by omega
    simp [h1, this]
  · simp [h1]

theorem cut_of_upTo {t : Table K V} {c : Nat} (ht : t.UpTo c) : t.cut c = t := by
  refine List.filter_eq_self.2 fun r hr => ?_
  simpa using ht r hr

theorem last_eq_some {t : Table K V} {k : K} {v : V} : t.last k = some v ↔ ∃ h, t.lastRow k = some (h, v) := by
  simp only [Table.last, Option.map_eq_some_iff]
  constructor
  · rintro ⟨⟨h, v'⟩, h1, rfl⟩; exact ⟨h, h1⟩
  · rintro ⟨h, h1⟩; exact ⟨_, h1, rfl⟩

theorem last_none_not_mem {t : Table K V} {k : K} (h : t.last k = none) (x : Nat × V) : (k, x) ∉ t := by
  intro hm
  have := lastRow_isSome hm
  simp only [Table.last, Option.map_eq_none_iff] at h
  rw [h] at this
  cases this

theorem mem_lasts [DecidableEq V] {t : Table K V} {k : K} {v : V} : (k, v) ∈ t.lasts ↔ t.last k = some v := by
  rw [last_eq_some]
  simp only [Table.lasts, List.mem_filterMap]
  constructor
  · rintro ⟨⟨k', h', v'⟩, hr, he⟩
    split at he
    · cases he
      rename_i heq
      exact ⟨h', heq⟩
    · cases he
  · rintro ⟨h, hl⟩
    refine ⟨(k, h, v), lastRow_mem hl, ?_⟩
    rw [if_pos hl]

theorem lasts_nodup [DecidableEq V] {t : Table K V} (ht : t.One) : (t.lasts.map (·.1)).Nodup := by
  rw [List.Nodup, List.pairwise_map]
  rw [Table.lasts, List.pairwise_filterMap]
  refine ht.imp ?_
  rintro ⟨k, h, v⟩ ⟨k', h', v'⟩ hn x hx y hy hxy
  dsimp only at hx hy hn
  split at hx
  · split at hy
    · rename_i h1 h2
      cases hx; cases hy
      dsimp only at hxy
      subst hxy
      rw [h1] at h2
      cases h2
      exact hn ⟨rfl, rfl⟩
    · cases hy
  · cases hx

theorem hasKey_iff {t : Table Op V} {o : Op} : t.hasKey o = true ↔ ∃ x, t.last o = some x := by
  simp only [Table.hasKey, List.any_eq_true, decide_eq_true_eq]
  constructor
  · rintro ⟨⟨k, x⟩, hr, hk⟩
    dsimp only at hk
    subst hk
    obtain ⟨y, hy⟩ := Option.isSome_iff_exists.1 (lastRow_isSome hr)
    exact ⟨y.2, by simp [Table.last, hy]⟩
  · rintro ⟨x, hx⟩
    obtain ⟨h, hl⟩ := last_eq_some.1 hx
    exact ⟨_, lastRow_mem hl, rfl⟩

/-- the rows of a cut table are rows of the table -/
theorem hasKey_of_cut {t : Table Op V} {c : Nat} {o : Op} (h : (t.cut c).hasKey o = true) : t.hasKey o = true := by
  simp only [Table.hasKey, List.any_eq_true] at h ⊢
  obtain ⟨r, hr, hk⟩ := h
  exact ⟨r, List.mem_of_mem_filter hr, hk⟩

end Verif.Scanner
