import Verif.Rolling.Lemmas

/-!
C80: what the rolling filter remembers.

A history is the list of all items inserted since the filter was made, the newest first.  `fp` stands for the
answers of the single bloom filters to items that were not inserted.
-/
set_option maxRecDepth 100000
namespace Verif.Rolling
variable {α : Type} [DecidableEq α]

/-- An item among the last `size` items inserted is always reported, whatever came before. -/
theorem C80_remembers (fp : Nat → List α → α → Bool) (size : Nat) (h : List α) (x : α) (hx : x ∈ h.take size) :
    (Filter.after size h).contains fp x = true := by
  rw [contains_iff (inv_after size h)]
  left
  have : size ≤ (Filter.after size h).count + 2 * (Filter.after size h).max := by
    have := new_size (α := α) size
    rw [after_max]; omega
  exact List.take_subset_take_left h this hx

/-- The items that are held are a number of the newest ones, at least `size` of them and at most one and a half
times as many (rounded up to whole filters), and only these: an item that is not among them is reported
only if one of the three bloom filters in use lets it through. -/
theorem C80_holds (size : Nat) (hs : 0 < size) (h : List α) :
    ∃ n, size ≤ n ∧ 2 * n ≤ 3 * size + 1 ∧ ∃ bs : List (Bloom α), bs.length = 3 ∧ (∀ b ∈ bs, ∀ y ∈ b.items, y ∈ h.take n) ∧
      ∀ fp x, (Filter.after size h).contains fp x = true ↔
        x ∈ h.take n ∨ ∃ b ∈ bs, fp b.serial b.items x = true := by
  have i := inv_after size h
  have hc := i.count
  rw [after_max] at hc
  have hm : (Filter.new α size).max = (size + 1) / 2 := by simp only [Filter.new, subfilters]; omega
  refine ⟨(Filter.after size h).count + 2 * (Filter.after size h).max, ?_, ?_, (Filter.after size h).sub.list, ?_, ?_,
    fun fp x => contains_iff i fp x⟩
  · rw [after_max, hm]; omega
  · rw [after_max, hm]; rw [hm] at hc; omega
  · obtain ⟨a, b, c, hl, _⟩ := i.ex
    rw [hl]; rfl
  · intro b hb y hy
    have := (contains_iff i (fun _ _ _ => false) y).1 (by
      simp only [Filter.contains, List.any_eq_true]
      exact ⟨b, hb, by simp [Bloom.contains, hy]⟩)
    simpa using this

/-- Bloom filters that let nothing else through make the filter exact: it forgets what is older. -/
theorem C80_forgets (size : Nat) (hs : 0 < size) (h : List α) (x : α) (hx : x ∉ h.take ((3 * size + 1) / 2)) :
    (Filter.after size h).contains (fun _ _ _ => false) x = false := by
  obtain ⟨n, _, h2, bs, _, _, hi⟩ := C80_holds size hs h
  rw [← Bool.not_eq_true, hi]
  rintro (h' | ⟨_, _, h'⟩)
  · exact hx (List.take_subset_take_left h (by omega) h')
  · cases h'

/-- No bloom filter is filled with more items than it was made for. -/
theorem C80_capacity (size : Nat) (hs : 0 < size) (h : List α) :
    ∀ b ∈ (Filter.after size h).sub.list, b.items.length ≤ (size + 1) / 2 := by
  have i := inv_after size h
  have hc := i.count
  have hm : (Filter.after size h).max = (size + 1) / 2 := by
    rw [after_max]; simp only [Filter.new, subfilters]; omega
  obtain ⟨a, b, c, hl, hi⟩ := i.ex
  rw [hm] at hc hi
  have l1 : (h.take (Filter.after size h).count).length ≤ (size + 1) / 2 := by
    rw [List.length_take]; omega
  have l2 : ∀ l : List α, (l.take ((size + 1) / 2)).length ≤ (size + 1) / 2 := fun l => by
    rw [List.length_take]; omega
  rw [hl]
  intro y hy
  simp only [List.mem_cons, List.not_mem_nil, or_false] at hy
  rcases hi with ⟨_, h1, h2, h3⟩ | ⟨_, h1, h2, h3⟩ | ⟨_, h1, h2, h3⟩ <;> rcases hy with rfl | rfl | rfl <;>
    simp only [h1, h2, h3, l1, l2]

/-- The hash functions are never used twice: every filter made has a number of its own, and the filters in use
are three different ones. -/
theorem C80_fresh (size : Nat) (h : List α) :
    ((Filter.after size h).sub.list.map Bloom.serial).Nodup ∧
    ∀ b ∈ (Filter.after size h).sub.list, b.serial < (Filter.after size h).next := by
  suffices H : ∀ f : Filter α, (∃ a b c : Bloom α, f.sub.list = [a, b, c] ∧ f.sub.current < 3 ∧
      a.serial ≠ b.serial ∧ a.serial ≠ c.serial ∧ b.serial ≠ c.serial ∧
      a.serial < f.next ∧ b.serial < f.next ∧ c.serial < f.next) →
      (f.sub.list.map Bloom.serial).Nodup ∧ ∀ b ∈ f.sub.list, b.serial < f.next by
    apply H
    induction h with
    | nil => exact ⟨⟨0, []⟩, ⟨1, []⟩, ⟨2, []⟩, rfl, by
        simp [Filter.after, Filter.new, Cyclic.new, subfilters]⟩
    | cons x t ih =>
      obtain ⟨a, b, c, hl, hc, n1, n2, n3, l1, l2, l3⟩ := ih
      rw [Filter.after]
      generalize Filter.after size t = f at *
      obtain ⟨⟨l, cur⟩, count, mx, nx⟩ := f
      simp only at hl hc l1 l2 l3
      subst hl
      unfold Filter.insert
      dsimp only
      have hcur : cur = 0 ∨ cur = 1 ∨ cur = 2 := by omega
      split
      · rcases hcur with rfl | rfl | rfl <;>
          simp [Cyclic.modifyLast, Cyclic.push, Bloom.insert, n1, n2, n3] <;> omega
      · rcases hcur with rfl | rfl | rfl <;>
          simp [Cyclic.modifyLast, Bloom.insert, n1, n2, n3] <;> omega
  rintro f ⟨a, b, c, hl, _, n1, n2, n3, l1, l2, l3⟩
  rw [hl]
  simp [n1, n2, n3, l1, l2, l3]

/-- A filter for four items after nine insertions: the last five are held, the fourth from the beginning is
forgotten, and a bloom filter may let a stranger through. -/
theorem C80_example :
    (Filter.after 4 [9, 8, 7, 6, 5, 4, 3, 2, 1]).contains (fun _ _ _ => false) 5 = true ∧
    (Filter.after 4 [9, 8, 7, 6, 5, 4, 3, 2, 1]).contains (fun _ _ _ => false) 4 = false ∧
    (Filter.after 4 [9, 8, 7, 6, 5, 4, 3, 2, 1]).contains (fun s l x => decide (s = 4 ∧ l = [8, 7] ∧ x = 77)) 77 = false ∧
    (Filter.after 4 [9, 8, 7, 6, 5, 4, 3, 2, 1]).contains (fun s l x => decide (s = 5 ∧ l = [8, 7] ∧ x = 77)) 77 = true := by
  decide +kernel

end Verif.Rolling
