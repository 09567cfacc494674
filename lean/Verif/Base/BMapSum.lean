import Verif.Base.BMap
import Mathlib.Algebra.BigOperators.Group.Finset.Basic
import Mathlib.Algebra.BigOperators.Group.Finset.Piecewise

/-!
# Sums over maps as sums over finite key sets
-/

namespace Verif.BMap

variable {K V M : Type} [LinearOrder K]

/-- set of keys -/
def keys (m : BMap K V) : Finset K := (m.entries.map (·.1)).toFinset

theorem mem_keys {m : BMap K V} {k : K} : k ∈ m.keys ↔ (m.get k).isSome := by
  unfold keys
  rw [List.mem_toFinset, List.mem_map]
  constructor
  · rintro ⟨⟨a, b⟩, h, rfl⟩
    rw [mem_entries.1 h]; rfl
  · intro h
    obtain ⟨v, hv⟩ := Option.isSome_iff_exists.1 h
    exact ⟨(k, v), mem_entries.2 hv, rfl⟩

theorem sumV_eq_keys [AddCommMonoid M] (g : V → M) (m : BMap K V) :
    m.sumV (fun _ v => g v) = ∑ k ∈ m.keys, ((m.get k).map g).getD 0 := by
  have hnd : (m.entries.map (·.1)).Nodup := by
    have := m.sorted
    rw [List.Nodup, List.pairwise_map]
    exact this.imp (fun h => ne_of_lt h)
  unfold keys
  rw [List.sum_toFinset _ hnd, List.map_map]
  unfold sumV
  congr 1
  apply List.map_congr_left
  rintro ⟨a, b⟩ h
  simp [mem_entries.1 h]

theorem sumV_eq_sum [AddCommMonoid M] (g : V → M) (m : BMap K V) (S : Finset K) (hS : m.keys ⊆ S) :
    m.sumV (fun _ v => g v) = ∑ k ∈ S, ((m.get k).map g).getD 0 := by
  rw [sumV_eq_keys]
  apply Finset.sum_subset hS
  intro k _ hk
  rw [mem_keys] at hk
  cases h : m.get k with
  | none => rfl
  | some v => simp [h] at hk

/-- maps whose values add up key by key have totals that add up -/
theorem sumV_add {A B C : Type} [AddCommMonoid M] (f : A → M) (g : B → M) (h : C → M)
    (r : BMap K A) (m : BMap K B) (d : BMap K C)
    (hk : ∀ k, ((r.get k).map f).getD 0 = ((m.get k).map g).getD 0 + ((d.get k).map h).getD 0) :
    r.sumV (fun _ v => f v) = m.sumV (fun _ v => g v) + d.sumV (fun _ v => h v) := by
  rw [sumV_eq_sum f r (r.keys ∪ m.keys ∪ d.keys) (by intro x hx; simp [hx]),
    sumV_eq_sum g m (r.keys ∪ m.keys ∪ d.keys) (by intro x hx; simp [hx]),
    sumV_eq_sum h d (r.keys ∪ m.keys ∪ d.keys) (by intro x hx; simp [hx]), ← Finset.sum_add_distrib]
  exact Finset.sum_congr rfl (fun k _ => hk k)

/-- changing the value at one key changes the total by as much -/
theorem sumV_point {A B : Type} [AddCommMonoid M] (f : A → M) (g : B → M) (r : BMap K A) (m : BMap K B) (k : K)
    (a : M)
    (hk : ∀ k', ((r.get k').map f).getD 0 = ((m.get k').map g).getD 0 + if k' = k then a else 0) :
    r.sumV (fun _ v => f v) = m.sumV (fun _ v => g v) + a := by
  rw [sumV_eq_sum f r (r.keys ∪ m.keys ∪ {k}) (by intro x hx; simp [hx]),
    sumV_eq_sum g m (r.keys ∪ m.keys ∪ {k}) (by intro x hx; simp [hx])]
  rw [Finset.sum_congr rfl (fun k' _ => hk k'), Finset.sum_add_distrib, Finset.sum_ite_eq']
  simp

theorem sumV_same {A B : Type} [AddCommMonoid M] (f : A → M) (g : B → M) (r : BMap K A) (m : BMap K B)
    (hk : ∀ k, ((r.get k).map f).getD 0 = ((m.get k).map g).getD 0) :
    r.sumV (fun _ v => f v) = m.sumV (fun _ v => g v) := by
  have := sumV_add f g (fun _ : Unit => (0 : M)) r m BMap.empty (by intro k; simpa using hk k)
  simpa using this

end Verif.BMap
