import Verif.PeerManager.Model
import Verif.PeerDb.Spec
import Mathlib.Data.List.Perm.Lattice
import Mathlib.Data.List.Count

/-! Lemmas on the choice of the peer to be evicted. -/

namespace Verif.PeerManager

open Verif Verif.PeerDb

/-- what the random choices are: the samples are samples, the choices are among what there is to choose from, the sorts sort, and the random
numbers are ones that `exponential_rand` gives -/
structure Rand.Ok (r : Rand) : Prop where
  sample : ∀ b n, Samples n (r.sample b n)
  addr : ∀ l a, r.chooseAddr l = some a → a ∈ l
  mem : ∀ l x, r.choose l = some x → x ∈ l
  none : ∀ l, r.choose l = none → l = []
  perm : ∀ key l, (r.sort key l).Perm l
  sorted : ∀ key l, (r.sort key l).Pairwise fun x y => key x ≤ key y
  rand : ∀ a, r.rand a < randLimit

theorem maxBy_some {A : Type} {key : A → Nat} : ∀ {l : List A} {a : A}, maxBy key l = some a → a ∈ l ∧ ∀ b ∈ l, key b ≤ key a
  | [], a, h => nomatch h
  | x :: l, a, h => by
    unfold maxBy at h
    cases e : maxBy key l with
    | none =>
      rw [e] at h
      cases h
      refine ⟨List.mem_cons_self, fun b hb => ?_⟩
      rcases List.mem_cons.mp hb with rfl | hb
      · exact Nat.le_refl _
      · cases l with
        | nil => nomatch hb
        | cons y l =>
          exfalso
          unfold maxBy at e
          revert e
          cases maxBy key l with
          | none => nofun
          | some z => dsimp only; split <;> nofun
    | some y =>
      rw [e] at h
      obtain ⟨h1, h2⟩ := maxBy_some e
      dsimp only at h
      split at h
      · rename_i hle
        cases h
        refine ⟨List.mem_cons_of_mem _ h1, fun b hb => ?_⟩
        rcases List.mem_cons.mp hb with rfl | hb
        · exact hle
        · exact h2 b hb
      · rename_i hle
        cases h
        refine ⟨List.mem_cons_self, fun b hb => ?_⟩
        rcases List.mem_cons.mp hb with rfl | hb
        · exact Nat.le_refl _
        · have := h2 b hb
          omega

theorem maxBy_ne_nil {A : Type} (key : A → Nat) {l : List A} (h : l ≠ []) : ∃ a, maxBy key l = some a := by
  cases l with
  | nil => exact absurd rfl h
  | cons x l =>
    unfold maxBy
    cases maxBy key l with
    | none => exact ⟨_, rfl⟩
    | some y => dsimp only; split <;> exact ⟨_, rfl⟩

theorem minBy_some {A : Type} {key : A → Int} : ∀ {l : List A} {a : A}, minBy key l = some a → a ∈ l ∧ ∀ b ∈ l, key a ≤ key b
  | [], a, h => nomatch h
  | x :: l, a, h => by
    unfold minBy at h
    cases e : minBy key l with
    | none =>
      rw [e] at h
      cases h
      refine ⟨List.mem_cons_self, fun b hb => ?_⟩
      rcases List.mem_cons.mp hb with rfl | hb
      · exact Int.le_refl _
      · cases l with
        | nil => nomatch hb
        | cons y l =>
          exfalso
          unfold minBy at e
          revert e
          cases minBy key l with
          | none => nofun
          | some z => dsimp only; split <;> nofun
    | some y =>
      rw [e] at h
      obtain ⟨h1, h2⟩ := minBy_some e
      dsimp only at h
      split at h
      · rename_i hle
        cases h
        refine ⟨List.mem_cons_self, fun b hb => ?_⟩
        rcases List.mem_cons.mp hb with rfl | hb
        · exact Int.le_refl _
        · exact hle.trans (h2 b hb)
      · rename_i hle
        cases h
        refine ⟨List.mem_cons_of_mem _ h1, fun b hb => ?_⟩
        rcases List.mem_cons.mp hb with rfl | hb
        · omega
        · exact h2 b hb

theorem minBy_ne_nil {A : Type} (key : A → Int) {l : List A} (h : l ≠ []) : ∃ a, minBy key l = some a := by
  cases l with
  | nil => exact absurd rfl h
  | cons x l =>
    unfold minBy
    cases minBy key l with
    | none => exact ⟨_, rfl⟩
    | some y => dsimp only; split <;> exact ⟨_, rfl⟩

/-! ### The group with most connections -/

/-- the number of candidates of a group -/
def ofGroup (l : List Cand) (g : Nat) : Nat := l.countP fun x => x.group = g

theorem groupCounts_get (l : List Cand) : ∀ (m : BMap Nat Nat) (g : Nat),
    ((l.foldl (fun m c => BMap.insert m c.group ((m.get c.group).getD 0 + 1)) m).get g).getD 0 = (m.get g).getD 0 + ofGroup l g := by
  induction l with
  | nil => intro m g; rfl
  | cons x l ih =>
    intro m g
    rw [List.foldl_cons, ih]
    unfold ofGroup
    rw [List.countP_cons, BMap.get_insert]
    by_cases h : x.group = g
    · subst h; simp; omega
    · rw [if_neg (fun e => h e.symm)]; simp [h]

theorem findGroup_spec {l : List Cand} {id : Nat} (h : findGroup l = some id) :
    ∃ x ∈ l, x.id = id ∧ (∀ g, ofGroup l g ≤ ofGroup l x.group) ∧ ∀ y ∈ l, y.group = x.group → y.id ≤ x.id := by
  unfold findGroup at h
  have hget : ∀ g, ((groupCounts l).get g).getD 0 = ofGroup l g := by
    intro g
    have := groupCounts_get l BMap.empty g
    rw [BMap.get_empty] at this
    exact this.trans (Nat.zero_add _)
  cases e : maxBy (fun x : Nat × Nat => x.2) (groupCounts l).entries with
  | none => rw [e] at h; nomatch h
  | some gv =>
    obtain ⟨g, v⟩ := gv
    rw [e] at h
    dsimp only at h
    obtain ⟨h1, h2⟩ := maxBy_some e
    obtain ⟨x, hx, rfl⟩ := Option.map_eq_some_iff.mp h
    obtain ⟨h3, h4⟩ := maxBy_some hx
    obtain ⟨h5, h6⟩ := List.mem_filter.mp h3
    have h6 : x.group = g := of_decide_eq_true h6
    have hv : v = ofGroup l g := by
      rw [← hget g, BMap.mem_entries.mp h1]; rfl
    refine ⟨x, h5, rfl, fun g' => ?_, fun y hy hg => ?_⟩
    · rw [h6, ← hv]
      cases e' : (groupCounts l).get g' with
      | none =>
        have := hget g'
        rw [e'] at this
        rw [← this]; exact Nat.zero_le _
      | some v' =>
        have := hget g'
        rw [e'] at this
        rw [← this]
        exact h2 _ (BMap.mem_entries.mpr e')
    · exact h4 y (List.mem_filter.mpr ⟨hy, decide_eq_true (hg.trans h6)⟩)

theorem findGroup_ne_nil {l : List Cand} (h : l ≠ []) : ∃ id, findGroup l = some id := by
  have hget : ∀ g, ((groupCounts l).get g).getD 0 = ofGroup l g := by
    intro g
    have := groupCounts_get l BMap.empty g
    rw [BMap.get_empty] at this
    exact this.trans (Nat.zero_add _)
  obtain ⟨x, l', rfl⟩ := List.exists_cons_of_ne_nil h
  have hpos : 0 < ofGroup (x :: l') x.group := List.countP_pos_iff.mpr ⟨x, List.mem_cons_self, decide_eq_true rfl⟩
  have hsome : ∃ v, (groupCounts (x :: l')).get x.group = some v := by
    cases e : (groupCounts (x :: l')).get x.group with
    | some v => exact ⟨v, rfl⟩
    | none =>
      have := hget x.group
      rw [e] at this
      exact absurd this (Nat.ne_of_lt hpos)
  obtain ⟨v, hv⟩ := hsome
  have hmem := BMap.mem_entries.mpr hv
  obtain ⟨gv, e⟩ := maxBy_ne_nil (fun x : Nat × Nat => x.2) (List.ne_nil_of_mem hmem)
  obtain ⟨h1, h2⟩ := maxBy_some e
  obtain ⟨g, w⟩ := gv
  have hw : w = ofGroup (x :: l') g := by
    rw [← hget g, BMap.mem_entries.mp h1]; rfl
  have hv' : v = ofGroup (x :: l') x.group := by
    rw [← hget x.group, hv]; rfl
  have hle : v ≤ w := h2 _ hmem
  have hwpos : 0 < ofGroup (x :: l') g := by omega
  obtain ⟨y, hy, hyg⟩ := List.countP_pos_iff.mp hwpos
  have hm : y ∈ (x :: l').filter fun c => decide (c.group = g) := List.mem_filter.mpr ⟨hy, hyg⟩
  obtain ⟨z, hz⟩ := maxBy_ne_nil (fun c : Cand => c.id) (List.ne_nil_of_mem hm)
  refine ⟨z.id, ?_⟩
  unfold findGroup
  rw [e]
  dsimp only
  rw [hz]; rfl

/-! ### Those that are kept -/

theorem keep_spec {r : Rand} (hr : r.Ok) (key : Cand → Int) (n : Nat) (l : List Cand) :
    ∃ rest, l.Perm (keep r key n l ++ rest) ∧ rest.length = min n l.length ∧
      ∀ x ∈ keep r key n l, ∀ y ∈ rest, key x ≤ key y := by
  have hp := hr.perm key l
  have hs := hr.sorted key l
  refine ⟨(r.sort key l).drop (l.length - n), ?_, ?_, ?_⟩
  · unfold keep
    rw [List.take_append_drop]
    exact hp.symm
  · rw [List.length_drop, hp.length_eq]; omega
  · rw [← List.take_append_drop (l.length - n) (r.sort key l)] at hs
    exact (List.pairwise_append.mp hs).2.2

/-- the four filters: those that are left, and those kept by each filter -/
theorem filters_spec {c : Cfg} {r : Rand} (hr : r.Ok) {l : List Cand} (hl : c.keepTotal < l.length) :
    ∃ left k1 k2 k3 k4, l.Perm (left ++ (k4 ++ (k3 ++ (k2 ++ k1)))) ∧ left ≠ [] ∧
      k1.length = c.keepGroup ∧ k2.length = c.keepPing ∧ k3.length = c.keepBlocks ∧ k4.length = c.keepTxs ∧
      (∀ x ∈ left, (∀ y ∈ k1, x.group ≤ y.group) ∧ (∀ y ∈ k2, y.ping ≤ x.ping) ∧
        (∀ y ∈ k3, timeKey x.lastBlock ≤ timeKey y.lastBlock) ∧ (∀ y ∈ k4, timeKey x.lastTx ≤ timeKey y.lastTx)) ∧
      left = keep r (fun x => timeKey x.lastTx) c.keepTxs (keep r (fun x => timeKey x.lastBlock) c.keepBlocks
        (keep r (fun x => -x.ping) c.keepPing (keep r (fun x => x.group) c.keepGroup l))) := by
  obtain ⟨k1, p1, n1, o1⟩ := keep_spec hr (fun x => x.group) c.keepGroup l
  obtain ⟨k2, p2, n2, o2⟩ := keep_spec hr (fun x => -x.ping) c.keepPing (keep r (fun x => x.group) c.keepGroup l)
  obtain ⟨k3, p3, n3, o3⟩ := keep_spec hr (fun x => timeKey x.lastBlock) c.keepBlocks
    (keep r (fun x => -x.ping) c.keepPing (keep r (fun x => x.group) c.keepGroup l))
  obtain ⟨k4, p4, n4, o4⟩ := keep_spec hr (fun x => timeKey x.lastTx) c.keepTxs
    (keep r (fun x => timeKey x.lastBlock) c.keepBlocks (keep r (fun x => -x.ping) c.keepPing (keep r (fun x => x.group) c.keepGroup l)))
  generalize keep r (fun x => x.group) c.keepGroup l = l1 at *
  generalize keep r (fun x => -x.ping) c.keepPing l1 = l2 at *
  generalize keep r (fun x => timeKey x.lastBlock) c.keepBlocks l2 = l3 at *
  generalize keep r (fun x => timeKey x.lastTx) c.keepTxs l3 = l4 at *
  have m4 : ∀ x ∈ l4, x ∈ l3 := fun x hx => p4.symm.subset (List.mem_append_left _ hx)
  have m3 : ∀ x ∈ l3, x ∈ l2 := fun x hx => p3.symm.subset (List.mem_append_left _ hx)
  have m2 : ∀ x ∈ l2, x ∈ l1 := fun x hx => p2.symm.subset (List.mem_append_left _ hx)
  have e1 := p1.length_eq
  have e2 := p2.length_eq
  have e3 := p3.length_eq
  have e4 := p4.length_eq
  rw [List.length_append] at e1 e2 e3 e4
  unfold Cfg.keepTotal at hl
  refine ⟨l4, k1, k2, k3, k4, ?_, ?_, by omega, by omega, by omega, by omega, ?_, rfl⟩
  · refine p1.trans ?_
    rw [← List.append_assoc, ← List.append_assoc, ← List.append_assoc]
    refine List.Perm.append_right _ (p2.trans (List.Perm.append_right _ (p3.trans ?_)))
    exact List.Perm.append_right _ p4
  · intro e
    subst e
    simp at e4
    omega
  · intro x hx
    refine ⟨fun y hy => ?_, fun y hy => ?_, fun y hy => ?_, fun y hy => ?_⟩
    · have := o1 x (m2 _ (m3 _ (m4 _ hx))) y hy
      simpa using this
    · have := o2 x (m3 _ (m4 _ hx)) y hy
      omega
    · exact o3 x (m4 _ hx) y hy
    · exact o4 x hx y hy

end Verif.PeerManager
