import Verif.Select.Whole

/-!
# C65: the outputs a wallet selects pay for the target
-/

set_option maxRecDepth 100000

namespace Verif.Select
open Verif

variable {O : Type} {rand : Rand O} {pool : List (Group O)} {target cost max : Nat} {pay : Bool} {algo : Algo} {r : Result O}

/-- whatever the random choices are: a result is a selection of groups of the pool, each at most once, that pays for the target, and the weight, the fees, the change and the waste
it reports are those of the selection; a random selection is not heavier than allowed -/
theorem C65_selection (hf : rand.Fair pay) (hp : Payable pay pool) (ht : target ≠ 0) (h : selectCoins rand pool target pay cost algo max = .ok r) :
    ∃ sel, Pays pay pool target cost sel r ∧
      r.waste = (total (·.fee) sel : Int) - total (·.longFee) sel + (if r.change ≠ 0 then (cost : Int) else (total (worth pay) sel : Int) - target) ∧
      (algo = .preselected → sel = pool) ∧ (algo = .randomize → r.weight ≤ max) := by
  obtain ⟨h1, h2, h3, h4⟩ := selectCoins_eq ht h
  cases algo with
  | preselected =>
    simp only [selectAll, bind_eq_ok] at h4
    obtain ⟨r', h5, h6⟩ := h4
    have h7 := addInputs_rep (rep_new pay target) h5
    rw [List.nil_append] at h7
    obtain ⟨h8, h9, -⟩ := finish_spec h7 (List.Subperm.refl pool) h6
    exact ⟨pool, h8, h9, fun _ => rfl, by nofun⟩
  | randomize =>
    obtain ⟨⟨sel, h5, h6⟩, -⟩ := selectRandom_spec hf hp h2 (by omega) h4
    exact ⟨sel, h5.1, h5.2, by nofun, fun _ => h6⟩

/-- nothing is selected for nothing -/
theorem C65_nothing (h : selectCoins rand pool 0 pay cost algo max = .ok r) : r.outputs = [] ∧ r.change = 0 ∧ r.fees = 0 ∧ r.weight = 0 := by
  simp only [selectCoins, if_true, Except.ok.injEq] at h
  subst h
  exact ⟨rfl, rfl, rfl, rfl⟩

/-- if all groups together do not pay for the target, this is what is reported -/
theorem C65_not_enough (hp : Payable pay pool) (hne : pool ≠ []) (hu : total (worth pay) pool < U128) (hlt : total (worth pay) pool < target) :
    selectCoins rand pool target pay cost algo max = .error (.notEnough (total (worth pay) pool) target) := by
  have e1 : Amt.sum (pool.map (worth pay)) = some (total (worth pay) pool) := sum_ok hu
  simp only [selectCoins, if_neg (show target ≠ 0 by omega)]
  rw [effectives_ok hp, ensure, if_pos hne]
  simp only [bind, Except.bind, e1, okOr, ensure]
  rw [if_neg (by omega)]

/-- if they do, and all of them together are not too heavy, a selection is found -/
theorem C65_found (hf : rand.Fair pay) (hp : Payable pay pool) (hS : Small pay pool target cost) (ht : target ≠ 0) (hle : target ≤ total (worth pay) pool)
    (hw : algo = .randomize → total (·.weight) pool ≤ max) : ∃ r, selectCoins rand pool target pay cost algo max = .ok r := by
  have hu : total (worth pay) pool < U128 := lt_u128 (by unfold Small at hS; omega)
  have hne : pool ≠ [] := by
    rintro rfl
    rw [total_nil] at hle
    omega
  rw [selectCoins_start hp ht hne hu hle]
  cases algo with
  | preselected =>
    unfold selectAll
    have hr := addInputs_ok hS hp (sel := []) (gs := pool) (by simpa using List.Subperm.refl pool) (rep_new pay target)
    refine ok_bind hr fun r h5 => ?_
    have h7 := addInputs_rep (rep_new pay target) h5
    rw [List.nil_append] at h7
    exact finish_ok hS (List.Subperm.refl pool) h7 hle
  | randomize =>
    have hp2 := hf.second pool
    refine selectRandom_ok hf hp hS hne (by omega) (w := none) (hw rfl) (.inl ?_)
    exact knapsack_ok (fun g hg => hp g (hp2.subset hg)) (hS.perm hp2) (by rw [total_perm _ hp2]; exact hw rfl) (by rw [total_perm _ hp2]; exact hle)

/-- the program does not fail, provided that the groups together are not too heavy, or all have the same weight -/
theorem C65_no_panic (hf : rand.Fair pay) (hp : Payable pay pool)
    (hw : algo = .randomize → total (·.weight) pool ≤ max ∨ ∃ x, ∀ g ∈ pool, g.weight = x) : selectCoins rand pool target pay cost algo max ≠ .error .panic := by
  change NP _
  unfold selectCoins
  split
  · exact NP.ok
  · next ht =>
    refine NP.bind (NP.ensure (by decide)) fun _ h1 => ?_
    rw [ensure_eq_ok] at h1
    rw [effectives_ok hp]
    refine NP.bind NP.ok fun vs hvs => ?_
    simp only [Except.ok.injEq] at hvs
    subst hvs
    refine NP.bind (NP.okOr (by decide)) fun t h2 => NP.bind (NP.ensure (by simp)) fun _ h3 => ?_
    rw [okOr_eq_ok] at h2
    rw [ensure_eq_ok] at h3
    have h4 := sum_go.1 h2
    rw [Nat.zero_add] at h4
    have hu : total (worth pay) pool < U128 := h4.2 (by simpa using h1)
    have hle : target ≤ total (worth pay) pool := by have := h4.1; unfold total; omega
    cases algo with
    | preselected =>
      dsimp only
      unfold selectAll
      refine NP.bind (addInputs_np hp) fun r h5 => ?_
      have h7 := addInputs_rep (rep_new pay target) h5
      rw [List.nil_append] at h7
      exact finish_np (by rw [h7.target, h7.eff]; exact hle)
    | randomize =>
      dsimp only
      rcases hw rfl with hw | ⟨x, hw⟩
      · exact selectRandom_np hf hp hu h1 (by omega) (w := none) hw
      · exact selectRandom_np hf hp hu h1 (by omega) (w := some x) hw

/-- with at most 15 groups, none of them cheaper to spend now than later: what is selected wastes at most as much as any selection that needs no change -/
theorem C65_least_waste (hf : rand.Fair pay) (hp : Payable pay pool) (hS : Small pay pool target cost) (hr : Regular pay pool) (hn : pool.length ≤ 15) (ht : target ≠ 0)
    (h : selectCoins rand pool target pay cost .randomize max = .ok r) {sel : List (Group O)} (hs : sel.Subperm pool) (h1 : target ≤ total (worth pay) sel)
    (h2 : total (worth pay) sel ≤ target + cost) (h3 : total (·.weight) sel ≤ max) :
    r.waste ≤ (total (·.fee) sel : Int) - total (·.longFee) sel + ((total (worth pay) sel : Int) - target) := by
  obtain ⟨-, k2, k3, k4⟩ := selectCoins_eq ht h
  have hp2 := hf.second pool
  obtain ⟨r', h5, h6⟩ := selectBnb_best (cost := cost) (max := max) (fun g hg => hp g (hp2.subset hg)) (hS.perm hp2) (by omega)
    ⟨fun g hg => hr.costly g (hp2.subset hg), fun g hg p hp' => hr.same g (hp2.subset hg) p (hp2.subset hp')⟩ (by rw [hp2.length_eq]; exact hn) (hs.trans hp2.symm.subperm) h1 h2 h3
  have h7 := (selectRandom_spec hf hp k2 (by omega) k4).2 r' h5
  exact Int.le_trans h7 h6

/-- and if there is a selection that needs no change, one is found -/
theorem C65_changeless_found (hf : rand.Fair pay) (hp : Payable pay pool) (hS : Small pay pool target cost) (hr : Regular pay pool) (hn : pool.length ≤ 15) (ht : target ≠ 0)
    (hw : total (·.weight) pool ≤ max ∨ ∃ x, ∀ g ∈ pool, g.weight = x) {sel : List (Group O)} (hs : sel.Subperm pool) (h1 : target ≤ total (worth pay) sel)
    (h2 : total (worth pay) sel ≤ target + cost) (h3 : total (·.weight) sel ≤ max) : ∃ r, selectCoins rand pool target pay cost .randomize max = .ok r := by
  have hu : total (worth pay) pool < U128 := lt_u128 (by unfold Small at hS; omega)
  have hsub := total_subperm (worth pay) hs
  have hne : pool ≠ [] := by
    rintro rfl
    rw [total_nil] at hsub
    omega
  rw [selectCoins_start hp ht hne hu (by omega)]
  have hp2 := hf.second pool
  obtain ⟨r', h5, -⟩ := selectBnb_best (cost := cost) (max := max) (fun g hg => hp g (hp2.subset hg)) (hS.perm hp2) (by omega)
    ⟨fun g hg => hr.costly g (hp2.subset hg), fun g hg p hp' => hr.same g (hp2.subset hg) p (hp2.subset hp')⟩ (by rw [hp2.length_eq]; exact hn) (hs.trans hp2.symm.subperm) h1 h2 h3
  rcases hw with hw | ⟨x, hw⟩
  · exact selectRandom_ok hf hp hS hne (by omega) (w := none) hw (.inr ⟨r', h5⟩)
  · exact selectRandom_ok hf hp hS hne (by omega) (w := some x) hw (.inr ⟨r', h5⟩)

/-! ### concrete cases -/

/-- a heap, no shuffling, all coins heads -/
def sampleRand {O : Type} (pay : Bool) : Rand O where
  first := id
  second := id
  coins := fun _ _ _ => true
  pop := fun l => match sortDesc pay l with | [] => none | g :: h => some (g, h)

theorem sampleRand_fair {O : Type} (pay : Bool) : (sampleRand (O := O) pay).Fair pay := by
  refine ⟨fun l => .refl l, fun l => .refl l, fun l => ⟨?_, ?_⟩⟩
  · rintro rfl; rfl
  · intro hne
    have hperm := sort_perm (pay := pay) l
    have hsort : (sortDesc pay l).Pairwise fun a b => b.key pay ≤ a.key pay := by
      have : Std.Total (fun a b : Group O => b.key pay ≤ a.key pay) := ⟨fun a b => by omega⟩
      have : IsTrans (Group O) (fun a b : Group O => b.key pay ≤ a.key pay) := ⟨fun a b c h1 h2 => Nat.le_trans h2 h1⟩
      exact List.pairwise_insertionSort _ l
    cases hs : sortDesc pay l with
    | nil => rw [hs] at hperm; exact absurd hperm.nil_eq.symm hne
    | cons g h =>
      rw [hs] at hperm hsort
      refine ⟨g, h, by simp only [sampleRand, hs], hperm.symm, fun x hx => ?_⟩
      rcases List.mem_cons.1 (hperm.symm.subset hx) with rfl | hx
      · exact Nat.le_refl _
      · exact (List.pairwise_cons.1 hsort).1 x hx

def samplePool : List (Group Nat) := [⟨[1], 105, 5, 2, 10⟩, ⟨[2], 65, 5, 2, 10⟩, ⟨[3], 45, 5, 2, 10⟩, ⟨[4], 45, 5, 2, 10⟩]

/-- 100 and 40 are selected for 140, nothing is left; 60, 40, 40 would do as well but spends more -/
example : (selectCoins (sampleRand true) samplePool 140 true 3 .randomize 100).toOption.map (fun r => (r.outputs, r.change, r.fees, r.waste, r.weight)) = some ([1, 3], 0, 10, 6, 20) := by
  decide +kernel

example : okAnd (selectCoins (sampleRand true) samplePool 120 true 3 .randomize 100) (fun r => decide (0 < r.change)) = true := by decide +kernel

example : selectCoins (sampleRand true) samplePool 241 true 3 .randomize 100 = .error (.notEnough 240 241) := by decide +kernel

example : (selectCoins (sampleRand true) samplePool 120 true 3 .preselected 100).toOption.map (fun r => (r.outputs, r.change)) = some ([1, 2, 3, 4], 117) := by decide +kernel

/-- the hypotheses can be met -/
example : (sampleRand (O := Nat) true).Fair true ∧ Payable true samplePool ∧ Small true samplePool 140 3 ∧ Regular true samplePool ∧ samplePool.length ≤ 15 ∧
    ([⟨[1], 105, 5, 2, 10⟩, ⟨[4], 45, 5, 2, 10⟩] : List (Group Nat)).Subperm samplePool := by
  refine ⟨sampleRand_fair true, ?_, by (unfold Small; decide +kernel), ⟨?_, ?_⟩, by decide, ?_⟩
  · intro g hg; revert g; decide
  · intro g hg; revert g; decide
  · intro g hg p hp; revert g p; decide
  · exact List.Sublist.subperm (by decide)

/-- groups of different weight -/
def heavyPool : List (Group Nat) := [⟨[1], 100, 0, 0, 4⟩, ⟨[2], 90, 0, 0, 4⟩, ⟨[3], 120, 0, 0, 4⟩, ⟨[4], 50, 0, 0, 2⟩]

/-- the random draw takes groups back out while they are too heavy together. The group at which it stops is lost, but still counted; so it ends with less than the target, and the program fails -/
theorem C65_draw_fails : (sampleRand (O := Nat) false).Fair false ∧ Payable false heavyPool ∧ Small false heavyPool 200 0 ∧
    (∃ sel : List (Group Nat), sel.Subperm heavyPool ∧ total (worth false) sel = 210 ∧ total (·.weight) sel ≤ 10) ∧
    (selectSrd false (sampleRand false).pop heavyPool 200 0 10).toOption.map (·.eff) = some 140 ∧
    selectCoins (sampleRand false) heavyPool 200 false 0 .randomize 10 = .error .panic := by
  refine ⟨sampleRand_fair false, fun g _ h => by (cases h), by (unfold Small; decide +kernel), ⟨[⟨[2], 90, 0, 0, 4⟩, ⟨[3], 120, 0, 0, 4⟩], List.Sublist.subperm (by decide), rfl, by decide⟩,
    by decide +kernel, by decide +kernel⟩

end Verif.Select
