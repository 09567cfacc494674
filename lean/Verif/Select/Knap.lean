import Verif.Select.Base

/-!
# The knapsack solver
-/

namespace Verif.Select
open Verif

variable {O : Type} {pay : Bool}

theorem pick_sublist : ∀ (gs : List (Group O)) (bs : List Bool), (pick gs bs).Sublist gs
  | [], bs => by cases bs <;> exact List.Sublist.refl _
  | g :: gs, [] => List.nil_sublist _
  | g :: gs, b :: bs => by
    unfold pick
    split
    · exact (pick_sublist gs bs).cons_cons g
    · exact (pick_sublist gs bs).cons g

theorem pick_all : ∀ (gs : List (Group O)), pick gs (List.replicate gs.length true) = gs
  | [] => rfl
  | g :: gs => by
    rw [List.length_cons, List.replicate_succ]
    simp only [pick, if_true]
    rw [pick_all gs]

theorem pick_none : ∀ (gs : List (Group O)), pick gs (List.replicate gs.length false) = []
  | [] => rfl
  | g :: gs => by
    rw [List.length_cons, List.replicate_succ]
    simp only [pick, Bool.false_eq_true, if_false]
    exact pick_none gs

theorem pick_set (f : Group O → Nat) : ∀ {gs : List (Group O)} {bs : List Bool} {i : Nat} {g : Group O}, bs.length = gs.length → gs[i]? = some g → bs.getD i false = false →
    total f (pick gs (bs.set i true)) = total f (pick gs bs) + f g
  | [], _, i, g, _, h, _ => by simp at h
  | x :: gs, [], i, g, hl, _, _ => by simp at hl
  | x :: gs, b :: bs, 0, g, hl, h, hb => by
    simp at h hb
    subst h hb
    simp [pick, Nat.add_comm]
  | x :: gs, b :: bs, i + 1, g, hl, h, hb => by
    simp only [List.length_cons, Nat.add_right_cancel_iff] at hl
    simp only [List.getElem?_cons_succ] at h
    simp only [List.getD_cons_succ] at hb
    have ih := pick_set f hl h hb
    simp only [List.set_cons_succ, pick]
    split
    · rw [total_cons, total_cons, ih]; omega
    · exact ih

theorem set_back {bs : List Bool} {i : Nat} (h : bs.getD i false = false) : (bs.set i true).set i false = bs := by
  rw [List.set_set]
  apply List.ext_getElem?
  intro j
  rw [List.getElem?_set]
  split
  · next h1 =>
    subst h1
    split
    · next h2 =>
      rw [List.getD_eq_getElem?_getD, List.getElem?_eq_getElem h2] at h
      simp at h
      rw [List.getElem?_eq_getElem h2, h]
    · next h2 => simp at h2; simp [h2]
  · rfl

/-! ### approximation -/

/-- a best solution: it pays for the target -/
structure Best (pay : Bool) (gs : List (Group O)) (target : Nat) (b : List Bool × Nat) : Prop where
  sum : b.2 = total (worth pay) (pick gs b.1)
  ge : target ≤ b.2

/-- the state of the approximation -/
structure AInv (pay : Bool) (gs : List (Group O)) (target : Nat) (st : Approx) : Prop where
  len : st.incl.length = gs.length
  sum : st.total = total (worth pay) (pick gs st.incl)
  best : Best pay gs target (st.best, st.bestTotal)

theorem approxAdd_spec {gs : List (Group O)} {target i : Nat} {st : Approx} {g : Group O} (hU : total (worth pay) gs < U128) (h : AInv pay gs target st)
    (hg : gs[i]? = some g) (hi : st.incl.getD i false = false) :
    ∃ st', approxAdd target st i (worth pay g) = .ok st' ∧ AInv pay gs target st' ∧ ∀ j, j ≠ i → st'.incl.getD j false = st.incl.getD j false := by
  have hs := pick_set (worth pay) h.len hg hi
  have hle := total_sublist (worth pay) (pick_sublist gs (st.incl.set i true))
  have ha : Amt.add st.total (worth pay g) = some (st.total + worth pay g) := by
    refine add_some.2 ⟨rfl, ?_⟩
    have := h.sum
    omega
  have hset : ∀ j, j ≠ i → (st.incl.set i true).getD j false = st.incl.getD j false := by
    intro j hj
    rw [List.getD_eq_getElem?_getD, List.getD_eq_getElem?_getD, List.getElem?_set_ne (fun e => hj e.symm)]
  unfold approxAdd
  rw [ha]
  by_cases hge : st.total + worth pay g ≥ target
  · have hb : Amt.sub (st.total + worth pay g) (worth pay g) = some st.total := sub_some.2 ⟨by omega, by omega⟩
    simp only [okOr, Bind.bind, Except.bind, hb, if_pos hge, pure, Except.pure]
    refine ⟨_, rfl, ⟨?_, ?_, ?_⟩, ?_⟩
    · split <;> simp [h.len]
    · simp only [set_back hi]
      exact h.sum
    · split
      · refine ⟨?_, hge⟩
        dsimp only
        rw [hs, h.sum]
      · exact h.best
    · intro j hj
      simp only [set_back hi]
  · simp only [okOr, Bind.bind, Except.bind, if_neg hge, pure, Except.pure]
    refine ⟨_, rfl, ⟨by simp [h.len], ?_, h.best⟩, hset⟩
    dsimp only
    rw [hs, h.sum]

theorem approxPass_spec {gs : List (Group O)} {target : Nat} {coin : Option (Nat → Bool)} (hU : total (worth pay) gs < U128) (hp : Payable pay gs) :
    ∀ {l : List (Group O)} {i : Nat} {st : Approx}, gs.drop i = l → AInv pay gs target st → (coin.isSome = true → ∀ j, i ≤ j → st.incl.getD j false = false) →
    ∃ st', approxPass pay target coin st i l = .ok st' ∧ AInv pay gs target st'
  | [], i, st, _, h, _ => ⟨st, rfl, h⟩
  | g :: l, i, st, hd, h, hc => by
    have hg : gs[i]? = some g := by
      have := congrArg List.head? hd
      simpa [List.head?_drop] using this
    have hd' : gs.drop (i + 1) = l := by
      have := congrArg List.tail hd
      simpa [List.tail_drop] using this
    have hmem : g ∈ gs := List.mem_of_getElem? hg
    unfold approxPass
    split
    · next htake =>
      have hi : st.incl.getD i false = false := by
        cases coin with
        | some c => exact hc rfl i (Nat.le_refl _)
        | none => simpa [approxTakes] using htake
      obtain ⟨st', h1, h2, h3⟩ := approxAdd_spec hU h hg hi
      obtain ⟨st2, h4, h5⟩ := approxPass_spec hU hp hd' h2 (by
        intro hs j hj
        rw [h3 j (by omega)]
        exact hc hs j (by omega))
      rw [effective_ok (hp g hmem)]
      refine ⟨st2, ?_, h5⟩
      show (do let st' ← approxAdd target st i (worth pay g); approxPass pay target coin st' (i + 1) l) = .ok st2
      rw [h1]
      exact h4
    · exact approxPass_spec hU hp hd' h (fun hs j hj => hc hs j (by omega))

theorem approxTry_spec {gs : List (Group O)} {target : Nat} {coin : Nat → Bool} {b : List Bool × Nat} (hU : total (worth pay) gs < U128) (hp : Payable pay gs)
    (h : Best pay gs target b) : ∃ b', approxTry pay target gs coin b = .ok b' ∧ Best pay gs target b' := by
  obtain ⟨st, h1, h2⟩ := approxPass_spec (coin := some coin) hU hp (i := 0) (l := gs) (st := ⟨List.replicate gs.length false, 0, false, b.1, b.2⟩) rfl
    ⟨by simp, by simp [pick_none], h⟩ (by
      intro _ j _
      rw [List.getD_eq_getElem?_getD, List.getElem?_replicate]
      split <;> rfl)
  unfold approxTry
  rw [h1]
  by_cases hr : st.reached = true
  · simp only [Bind.bind, Except.bind, hr, if_true]
    exact ⟨_, rfl, h2.best⟩
  · obtain ⟨st', h3, h4⟩ := approxPass_spec (coin := none) hU hp (i := 0) (l := gs) rfl h2 (by intro hh; cases hh)
    simp only [Bind.bind, Except.bind, hr]
    rw [h3]
    exact ⟨_, rfl, h4.best⟩

theorem approxTries_spec {gs : List (Group O)} {target : Nat} {coins : Nat → Nat → Bool} (hU : total (worth pay) gs < U128) (hp : Payable pay gs) : ∀ (n : Nat) {b : List Bool × Nat},
    Best pay gs target b → ∃ b', approxTries pay target gs coins n b = .ok b' ∧ Best pay gs target b'
  | 0, b, h => ⟨b, rfl, h⟩
  | n + 1, b, h => by
    obtain ⟨b1, h1, h2⟩ := approxTry_spec (coin := coins n) hU hp h
    obtain ⟨b2, h3, h4⟩ := approxTries_spec (coins := coins) hU hp n h2
    refine ⟨b2, ?_, h4⟩
    unfold approxTries
    rw [h1]
    exact h3

theorem approxBest_spec {gs : List (Group O)} {target : Nat} {coins : Nat → Nat → Bool} (hU : total (worth pay) gs < U128) (hp : Payable pay gs) (ht : target ≤ total (worth pay) gs) :
    ∃ b, approxBest pay gs (total (worth pay) gs) target coins = .ok b ∧ Best pay gs target b :=
  approxTries_spec hU hp _ ⟨by rw [pick_all], ht⟩

theorem sort_perm (gs : List (Group O)) : (sortDesc pay gs).Perm gs := List.perm_insertionSort _ gs

theorem twoSubsets_spec {gs : List (Group O)} {target full : Nat} {coins : Coins} (hU : total (worth pay) gs < U128) (hp : Payable pay gs) (ht : target ≤ total (worth pay) gs)
    (hf : target ≤ full) : ∃ b, twoSubsets pay gs (total (worth pay) gs) target full coins = .ok b ∧ Best pay gs target b := by
  obtain ⟨b, h1, h2⟩ := approxBest_spec (coins := coins false) hU hp ht
  unfold twoSubsets
  rw [h1]
  by_cases hc : b.2 ≠ target ∧ total (worth pay) gs ≥ full
  · obtain ⟨b', h3, h4⟩ := approxBest_spec (coins := coins true) (target := full) hU hp hc.2
    simp only [Bind.bind, Except.bind, if_pos hc]
    exact ⟨b', h3, h4.sum, Nat.le_trans hf h4.ge⟩
  · simp only [Bind.bind, Except.bind, if_neg hc]
    exact ⟨b, rfl, h2⟩

/-! ### the first loop -/

/-- the groups seen, split in those below and those above the target with the change -/
structure SplitInv (pay : Bool) (full : Nat) (seen : List (Group O)) (st : Split O) : Prop where
  lower : st.lower.Sublist seen
  sum : st.total = total (worth pay) st.lower
  small : st.total < U128
  larger : ∀ g, st.larger = some g → g ∈ seen ∧ full ≤ worth pay g
  all : st.larger = none → st.lower = seen

theorem lowest_spec {g : Group O} {o o' : Option (Group O)} (h : lowest pay g o = .ok o') : ∃ x, o' = some x ∧ (x = g ∨ o = some x) := by
  cases o with
  | none => simp only [lowest, Except.ok.injEq] at h; exact ⟨g, h.symm, .inl rfl⟩
  | some l =>
    simp only [lowest, bind_eq_ok, pure_eq_ok] at h
    obtain ⟨v, -, w, -, h⟩ := h
    split at h
    · exact ⟨g, h.symm, .inl rfl⟩
    · exact ⟨l, h.symm, .inr rfl⟩

theorem splitStep_inv {full : Nat} {seen : List (Group O)} {st st' : Split O} {g : Group O} (h : SplitInv pay full seen st) (hs : splitStep pay full st g = .ok st') :
    SplitInv pay full (seen ++ [g]) st' := by
  simp only [splitStep, bind_eq_ok] at hs
  obtain ⟨v, hv, hs⟩ := hs
  have hv := effective_eq hv
  subst hv
  split at hs
  · simp only [bind_eq_ok, okOr_eq_ok, pure_eq_ok] at hs
    obtain ⟨t, h1, rfl⟩ := hs
    obtain ⟨rfl, h2⟩ := add_some.1 h1
    refine ⟨h.lower.append (.refl _), ?_, h2, ?_, ?_⟩
    · simp [h.sum]
    · intro x hx
      have := h.larger x hx
      exact ⟨by simp [this.1], this.2⟩
    · intro hx
      dsimp only
      rw [h.all hx]
  · next hge =>
    simp only [bind_eq_ok, pure_eq_ok] at hs
    obtain ⟨o, h1, rfl⟩ := hs
    obtain ⟨x, rfl, hx⟩ := lowest_spec h1
    refine ⟨h.lower.trans (List.sublist_append_left _ _), h.sum, h.small, ?_, ?_⟩
    · intro y hy
      simp only [Option.some.injEq] at hy
      subst hy
      rcases hx with rfl | hx
      · exact ⟨by simp, by omega⟩
      · have := h.larger x hx
        exact ⟨by simp [this.1], this.2⟩
    · intro hx; cases hx

theorem split_spec {target full : Nat} : ∀ {gs seen : List (Group O)} {st : Split O} {x : Group O ⊕ Split O}, SplitInv pay full seen st → split pay target full st gs = .ok x →
    (∃ g, x = .inl g ∧ g ∈ gs ∧ worth pay g = target) ∨ ∃ st', x = .inr st' ∧ SplitInv pay full (seen ++ gs) st'
  | [], seen, st, x, h, hs => by
    simp only [split, Except.ok.injEq] at hs
    exact .inr ⟨st, hs.symm, by simpa using h⟩
  | g :: gs, seen, st, x, h, hs => by
    simp only [split, bind_eq_ok] at hs
    obtain ⟨v, hv, hs⟩ := hs
    have hv := effective_eq hv
    subst hv
    split at hs
    · next he =>
      simp only [pure_eq_ok] at hs
      exact .inl ⟨g, hs.symm, by simp, he⟩
    · simp only [bind_eq_ok] at hs
      obtain ⟨st', h1, h2⟩ := hs
      rcases split_spec (splitStep_inv h h1) h2 with ⟨y, h3, h4, h5⟩ | ⟨st2, h3, h4⟩
      · exact .inl ⟨y, h3, by simp [h4], h5⟩
      · exact .inr ⟨st2, h3, by simpa using h4⟩

theorem splitStep_np {full : Nat} {seen : List (Group O)} {st : Split O} {g : Group O} (h : SplitInv pay full seen st) (hp : Payable pay (seen ++ [g])) : NP (splitStep pay full st g) := by
  unfold splitStep
  rw [effective_ok (hp g (by simp))]
  refine NP.bind NP.ok fun v _ => ?_
  split
  · exact NP.bind (NP.okOr (by decide)) fun _ _ => NP.pure
  · refine NP.bind ?_ fun _ _ => NP.pure
    unfold lowest
    split
    · exact NP.ok
    · next l hl =>
      rw [effective_ok (hp g (by simp)), effective_ok (hp l (by simp [(h.larger l hl).1]))]
      exact NP.bind NP.ok fun _ _ => NP.bind NP.ok fun _ _ => NP.pure

theorem split_np {target full : Nat} : ∀ {gs seen : List (Group O)} {st : Split O}, SplitInv pay full seen st → Payable pay (seen ++ gs) → NP (split pay target full st gs)
  | [], _, _, _, _ => NP.ok
  | g :: gs, seen, st, h, hp => by
    have hp1 : Payable pay (seen ++ [g]) := fun x hx => hp x (by simp at hx ⊢; tauto)
    unfold split
    rw [effective_ok (hp1 g (by simp))]
    refine NP.bind NP.ok fun v _ => ?_
    split
    · exact NP.pure
    · exact NP.bind (splitStep_np h hp1) fun st' h1 => split_np (splitStep_inv h h1) (by simpa using hp)

theorem splitInv_new (full : Nat) : SplitInv pay full ([] : List (Group O)) {} := ⟨.refl _, rfl, Nat.zero_lt_succ _, fun _ hg => (by cases hg), fun _ => rfl⟩

/-! ### the solver -/

/-- a result that pays for the target with groups of the pool -/
def Solves (pay : Bool) (target : Nat) (pool : List (Group O)) (r : Result O) : Prop := ∃ sel, sel.Subperm pool ∧ Rep pay target sel r ∧ target ≤ total (worth pay) sel

theorem solves_one {target : Nat} {pool : List (Group O)} {r : Result O} {g : Group O} (hg : g ∈ pool) (hv : target ≤ worth pay g)
    (h : Result.addInput pay { target := target } g = .ok r) : Solves pay target pool r :=
  ⟨[g], (List.singleton_sublist.2 hg).subperm, addInput_rep (rep_new pay target) h, by simpa using hv⟩

theorem solves_many {target : Nat} {pool gs : List (Group O)} {r : Result O} (hg : gs.Subperm pool) (hv : target ≤ total (worth pay) gs)
    (h : Result.addInputs pay { target := target } gs = .ok r) : Solves pay target pool r :=
  ⟨gs, hg, by simpa using addInputs_rep (rep_new pay target) h, hv⟩

theorem chooseSubset_spec {pool lower : List (Group O)} {larger : Option (Group O)} {best : List Bool × Nat} {target full max : Nat} {r : Result O} (hl : lower.Subperm pool)
    (hg : ∀ g, larger = some g → g ∈ pool ∧ target ≤ worth pay g) (hb : Best pay lower target best)
    (h : chooseSubset pay { target := target } lower larger best target full max = .ok r) : Solves pay target pool r := by
  have hs : ∀ r, Result.addInputs pay { target := target } (pick lower best.1) = .ok r → Solves pay target pool r :=
    fun r hr => solves_many ((pick_sublist _ _).subperm.trans hl) (by rw [← hb.sum]; exact hb.ge) hr
  unfold chooseSubset at h
  cases larger with
  | none =>
    simp only [bind_eq_ok] at h
    obtain ⟨r', h1, h2⟩ := h
    split at h2
    · cases h2
    · simp only [pure_eq_ok] at h2
      subst h2; exact hs _ h1
  | some g =>
    obtain ⟨g1, g2⟩ := hg g rfl
    simp only [bind_eq_ok] at h
    obtain ⟨v, -, h⟩ := h
    split at h
    · exact solves_one g1 g2 h
    · simp only [bind_eq_ok] at h
      obtain ⟨r', h1, h2⟩ := h
      split at h2
      · exact solves_one g1 g2 h2
      · simp only [pure_eq_ok] at h2
        subst h2; exact hs _ h1

theorem chooseSubset_np {pool lower : List (Group O)} {larger : Option (Group O)} {best : List Bool × Nat} {target full max : Nat} {r : Result O} (hp : Payable pay pool)
    (hl : lower.Subperm pool) (hg : ∀ g, larger = some g → g ∈ pool) : NP (chooseSubset pay r lower larger best target full max) := by
  have hs : NP (r.addInputs pay (pick lower best.1)) := addInputs_np (hp.subperm ((pick_sublist _ _).subperm.trans hl))
  unfold chooseSubset
  cases larger with
  | none =>
    dsimp only
    refine NP.bind hs fun _ _ => ?_
    split
    · exact NP.error (by decide)
    · exact NP.pure
  | some g =>
    have hg' := hp g (hg g rfl)
    dsimp only
    rw [effective_ok hg']
    refine NP.bind NP.ok fun _ _ => ?_
    split
    · exact addInput_np hg'
    · refine NP.bind hs fun _ _ => ?_
      split
      · exact addInput_np hg'
      · exact NP.pure

theorem knapsackRest_spec {pool : List (Group O)} {st : Split O} {target full max : Nat} {coins : Coins} {r : Result O} (hp : Payable pay pool) (hi : SplitInv pay full pool st)
    (hf : target ≤ full) (h : knapsackRest pay st target full max coins = .ok r) : Solves pay target pool r := by
  unfold knapsackRest at h
  have hg : ∀ g, st.larger = some g → g ∈ pool ∧ target ≤ worth pay g := fun g hg => ⟨(hi.larger g hg).1, Nat.le_trans hf (hi.larger g hg).2⟩
  split at h
  · next he => exact solves_many hi.lower.subperm (by rw [← hi.sum, he]) h
  · split at h
    · split at h
      · next g hgg => exact solves_one (hg g hgg).1 (hg g hgg).2 h
      · cases h
    · next h1 h2 =>
      have hperm := sort_perm (pay := pay) st.lower
      have htot : total (worth pay) (sortDesc pay st.lower) = st.total := by rw [total_perm _ hperm, hi.sum]
      have hlow : (sortDesc pay st.lower).Subperm pool := hperm.subperm.trans hi.lower.subperm
      obtain ⟨b, hb1, hb2⟩ := twoSubsets_spec (pay := pay) (gs := sortDesc pay st.lower) (target := target) (full := full) (coins := coins) (by rw [htot]; exact hi.small)
        (hp.subperm hlow) (by rw [htot]; omega) hf
      rw [htot] at hb1
      dsimp only at h
      rw [hb1] at h
      exact chooseSubset_spec hlow hg hb2 h

theorem knapsackRest_np {pool : List (Group O)} {st : Split O} {target full max : Nat} {coins : Coins} (hp : Payable pay pool) (hi : SplitInv pay full pool st)
    (hf : target ≤ full) : NP (knapsackRest pay st target full max coins) := by
  unfold knapsackRest
  dsimp only
  split
  · exact addInputs_np (hp.subperm hi.lower.subperm)
  · split
    · split
      · next g hgg => exact addInput_np (hp g (hi.larger g hgg).1)
      · exact NP.error (by decide)
    · next h1 h2 =>
      have hperm := sort_perm (pay := pay) st.lower
      have htot : total (worth pay) (sortDesc pay st.lower) = st.total := by rw [total_perm _ hperm, hi.sum]
      have hlow : (sortDesc pay st.lower).Subperm pool := hperm.subperm.trans hi.lower.subperm
      obtain ⟨b, hb1, hb2⟩ := twoSubsets_spec (pay := pay) (gs := sortDesc pay st.lower) (target := target) (full := full) (coins := coins) (by rw [htot]; exact hi.small)
        (hp.subperm hlow) (by rw [htot]; omega) hf
      rw [htot] at hb1
      rw [hb1]
      exact NP.bind NP.ok fun _ _ => chooseSubset_np hp hlow (fun g hg => (hi.larger g hg).1)

theorem knapsack_spec {pool : List (Group O)} {target cost max : Nat} {coins : Coins} {r : Result O} (hp : Payable pay pool) (h : knapsack pay pool target cost max coins = .ok r) :
    Solves pay target pool r ∧ r.weight ≤ max := by
  simp only [knapsack, knapsackImpl, bind_eq_ok, okOr_eq_ok, ensure_eq_ok, pure_eq_ok] at h
  obtain ⟨r', ⟨full, h1, x, h2, h3⟩, -, h4, rfl⟩ := h
  refine ⟨?_, h4⟩
  obtain ⟨h1, -⟩ := add_some.1 h1
  rcases split_spec (splitInv_new full) h2 with ⟨g, rfl, h5, h6⟩ | ⟨st, rfl, h5⟩
  · exact solves_one h5 (by omega) h3
  · exact knapsackRest_spec hp (by simpa using h5) (by omega) h3

theorem knapsack_np {pool : List (Group O)} {target cost max : Nat} {coins : Coins} (hp : Payable pay pool) : NP (knapsack pay pool target cost max coins) := by
  unfold knapsack knapsackImpl
  refine NP.bind (NP.bind (NP.okOr (by decide)) fun full h1 => NP.bind (split_np (splitInv_new full) (by simpa using hp)) fun x h2 => ?_) fun r _ =>
    NP.bind (NP.ensure (by decide)) fun _ _ => NP.pure
  rw [okOr_eq_ok] at h1
  obtain ⟨h1, -⟩ := add_some.1 h1
  rcases split_spec (splitInv_new full) h2 with ⟨g, rfl, h5, h6⟩ | ⟨st, rfl, h5⟩
  · exact addInput_np (hp g h5)
  · exact knapsackRest_np hp (by simpa using h5) (by omega)

end Verif.Select
