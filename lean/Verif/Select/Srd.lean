import Verif.Select.Base

/-!
# Single random draw
-/

namespace Verif.Select
open Verif

variable {O : Type} {pay : Bool} {pop : Pop O}

theorem IsHeap.cases (hp : IsHeap pay pop) (l : List (Group O)) :
    (l = [] ∧ pop l = none) ∨ ∃ g h, pop l = some (g, h) ∧ l.Perm (g :: h) ∧ ∀ x ∈ l, worth pay x ≤ worth pay g := by
  by_cases h : l = []
  · exact .inl ⟨h, (hp l).1 h⟩
  · exact .inr ((hp l).2 h)

theorem drain_rep (hp : IsHeap pay pop) {target : Nat} : ∀ (f : Nat) {h sel : List (Group O)} {r r' : Result O}, h.length < f → Rep pay target sel r →
    srdDrain pay pop f h r = .ok r' → ∃ l, l.Perm h ∧ Rep pay target (sel ++ l) r'
  | 0, h, _, _, _, hf, _, _ => absurd hf (by omega)
  | f + 1, h, sel, r, r', hf, hr, hd => by
    rcases hp.cases h with ⟨rfl, h1⟩ | ⟨g, h', h1, h2, -⟩
    · simp only [srdDrain, h1, Except.ok.injEq] at hd
      subst hd
      exact ⟨[], .refl _, by simpa using hr⟩
    · simp only [srdDrain, h1, bind_eq_ok] at hd
      obtain ⟨r1, h3, h4⟩ := hd
      have hl := h2.length_eq
      rw [List.length_cons] at hl
      obtain ⟨l, h5, h6⟩ := drain_rep hp f (by omega) (addInput_rep hr h3) h4
      exact ⟨g :: l, (h5.cons g).trans h2.symm, by simpa using h6⟩

theorem drain_np (hp : IsHeap pay pop) : ∀ (f : Nat) {h : List (Group O)} {r : Result O}, Payable pay h → NP (srdDrain pay pop f h r)
  | 0, _, _, _ => NP.ok
  | f + 1, h, r, hh => by
    rcases hp.cases h with ⟨rfl, h1⟩ | ⟨g, h', h1, h2, -⟩
    · simp only [srdDrain, h1]; exact NP.ok
    · simp only [srdDrain, h1]
      exact NP.bind (addInput_np (hh g (h2.symm.subset (by simp)))) fun _ _ => drain_np hp f fun x hx => hh x (h2.symm.subset (by simp [hx]))

/-- what holds for the state of the loop: the heap holds groups that were drawn; value and weight are at least those of the heap -/
structure SrdInv (pay : Bool) (max : Nat) (seen : List (Group O)) (st : Srd O) : Prop where
  sub : st.heap.Subperm seen
  eff : total (worth pay) st.heap ≤ st.eff
  weight : total (·.weight) st.heap ≤ st.weight
  lost : st.weight ≤ total (·.weight) st.heap + max

theorem shrink_inv (hp : IsHeap pay pop) {max : Nat} {seen : List (Group O)} : ∀ (f : Nat) {st st' : Srd O}, st.heap.length < f → SrdInv pay max seen st →
    srdShrink pay pop max f st = .ok st' → SrdInv pay max seen st' ∧ st'.weight ≤ max ∧ st'.exceeded = st.exceeded
  | 0, _, _, hf, _, _ => absurd hf (by omega)
  | f + 1, st, st', hf, hi, hs => by
    rcases hp.cases st.heap with ⟨h0, h1⟩ | ⟨g, h, h1, h2, -⟩
    · simp only [srdShrink, h1, Except.ok.injEq] at hs
      subst hs
      refine ⟨hi, ?_, rfl⟩
      have := hi.lost
      rw [h0] at this
      simpa using this
    · have hw := total_perm (·.weight) h2
      have hv := total_perm (worth pay) h2
      rw [total_cons] at hw hv
      have h1' := hi.eff
      have h2' := hi.weight
      have h3' := hi.lost
      have hsub : h.Subperm seen := ((List.sublist_cons_self g h).subperm.trans h2.symm.subperm).trans hi.sub
      simp only [srdShrink, h1] at hs
      split at hs
      · next hle =>
        simp only [Except.ok.injEq] at hs
        subst hs
        exact ⟨⟨hsub, by dsimp only; omega, by dsimp only; omega, by dsimp only; omega⟩, hle, rfl⟩
      · simp only [bind_eq_ok, okOr_eq_ok] at hs
        obtain ⟨v, hv1, e, he, w, hw1, hr⟩ := hs
        have hv1 := effective_eq hv1
        obtain ⟨he, -⟩ := sub_some.1 he
        obtain ⟨hw1, -⟩ := sub_some.1 hw1
        have hl := h2.length_eq
        rw [List.length_cons] at hl
        subst hv1 he hw1
        exact shrink_inv hp f (st := { st with heap := h, eff := st.eff - worth pay g, weight := st.weight - g.weight }) (by dsimp only; omega) ⟨hsub, by dsimp only; omega, by dsimp only; omega, by dsimp only; omega⟩ hr

theorem shrink_np (hp : IsHeap pay pop) {max : Nat} {seen : List (Group O)} (hpay : Payable pay seen) : ∀ (f : Nat) {st : Srd O}, SrdInv pay max seen st →
    NP (srdShrink pay pop max f st)
  | 0, _, _ => NP.ok
  | f + 1, st, hi => by
    rcases hp.cases st.heap with ⟨h0, h1⟩ | ⟨g, h, h1, h2, -⟩
    · simp only [srdShrink, h1]; exact NP.ok
    · have hw := total_perm (·.weight) h2
      have hv := total_perm (worth pay) h2
      rw [total_cons] at hw hv
      have h1' := hi.eff
      have h2' := hi.weight
      have h3' := hi.lost
      have hsub : h.Subperm seen := ((List.sublist_cons_self g h).subperm.trans h2.symm.subperm).trans hi.sub
      simp only [srdShrink, h1]
      split
      · exact NP.ok
      · rw [effective_ok (hpay g (hi.sub.subset (h2.symm.subset (by simp))))]
        refine NP.bind NP.ok fun v hv1 => NP.bind (NP.okOr (by decide)) fun e he => NP.bind (NP.okOr_some (sub_some.2 ⟨rfl, by omega⟩)) fun w hw1 => ?_
        simp only [Except.ok.injEq] at hv1
        rw [okOr_eq_ok] at he hw1
        obtain ⟨he, -⟩ := sub_some.1 he
        obtain ⟨hw1, -⟩ := sub_some.1 hw1
        subst hv1 he hw1
        exact shrink_np hp hpay f ⟨hsub, by dsimp only; omega, by dsimp only; omega, by dsimp only; omega⟩

/-- a group is pushed -/
theorem push_inv {max : Nat} {seen : List (Group O)} {st : Srd O} {g : Group O} {e : Nat} (b : Bool) (hi : SrdInv pay max seen st) (he : e = st.eff + worth pay g) :
    SrdInv pay max (seen ++ [g]) { st with heap := g :: st.heap, eff := e, weight := st.weight + g.weight, exceeded := b } := by
  have h1 := hi.eff
  have h2 := hi.weight
  have h3 := hi.lost
  refine ⟨?_, ?_, ?_, ?_⟩
  · exact ((List.subperm_cons g).2 hi.sub).trans (List.perm_append_singleton g seen).symm.subperm
  · dsimp only; rw [total_cons]; omega
  · dsimp only; rw [total_cons]; omega
  · dsimp only; rw [total_cons]; omega

theorem add_inv (hp : IsHeap pay pop) {max : Nat} {seen : List (Group O)} {st st' : Srd O} {g : Group O} (hi : SrdInv pay max seen st) (hm : st.weight ≤ max)
    (ha : srdAdd pay pop max st g = .ok st') : SrdInv pay max (seen ++ [g]) st' ∧ st'.weight ≤ max := by
  simp only [srdAdd, bind_eq_ok, okOr_eq_ok] at ha
  obtain ⟨v, hv, e, he, h⟩ := ha
  have hv := effective_eq hv
  obtain ⟨he, -⟩ := add_some.1 he
  subst hv
  split at h
  · have := shrink_inv hp _ (Nat.lt_succ_self _) (push_inv true hi he) h
    exact ⟨this.1, this.2.1⟩
  · next hle =>
    simp only [pure_eq_ok] at h
    subst h
    exact ⟨push_inv _ hi he, by dsimp only at hle ⊢; omega⟩

theorem add_np (hp : IsHeap pay pop) {max : Nat} {seen : List (Group O)} {st : Srd O} {g : Group O} (hi : SrdInv pay max seen st) (hpay : Payable pay (seen ++ [g])) :
    NP (srdAdd pay pop max st g) := by
  unfold srdAdd
  rw [effective_ok (hpay g (by simp))]
  refine NP.bind NP.ok fun v hv => NP.bind (NP.okOr (by decide)) fun e he => ?_
  simp only [Except.ok.injEq] at hv
  rw [okOr_eq_ok] at he
  obtain ⟨he, -⟩ := add_some.1 he
  subst hv
  dsimp only
  split
  · exact shrink_np hp hpay _ (push_inv true hi he)
  · exact NP.pure

theorem srdLoop_spec (hp : IsHeap pay pop) {target full max : Nat} : ∀ {gs seen : List (Group O)} {st : Srd O} {r : Result O}, SrdInv pay max seen st → st.weight ≤ max →
    srdLoop pay pop target full max st gs = .ok r → ∃ sel, sel.Subperm (seen ++ gs) ∧ Rep pay target sel r ∧ total (·.weight) sel ≤ max
  | [], _, _, _, _, _, h => by simp [srdLoop] at h
  | g :: gs, seen, st, r, hi, hm, h => by
    simp only [srdLoop, bind_eq_ok] at h
    obtain ⟨st', h1, h2⟩ := h
    obtain ⟨h3, h4⟩ := add_inv hp hi hm h1
    split at h2
    · obtain ⟨l, h5, h6⟩ := drain_rep hp _ (Nat.lt_succ_self _) (rep_new pay target) h2
      rw [List.nil_append] at h6
      refine ⟨l, ?_, h6, ?_⟩
      · have := (h5.subperm.trans h3.sub).trans (List.sublist_append_left (seen ++ [g]) gs).subperm
        simpa using this
      · rw [total_perm _ h5]
        exact Nat.le_trans h3.weight h4
    · obtain ⟨sel, h5, h6⟩ := srdLoop_spec hp h3 h4 h2
      exact ⟨sel, by simpa using h5, h6⟩

theorem srdLoop_np (hp : IsHeap pay pop) {target full max : Nat} : ∀ {gs seen : List (Group O)} {st : Srd O}, SrdInv pay max seen st → st.weight ≤ max → Payable pay (seen ++ gs) →
    NP (srdLoop pay pop target full max st gs)
  | [], _, _, _, _, _ => by
    unfold srdLoop
    split <;> exact NP.error (by decide)
  | g :: gs, seen, st, hi, hm, hpay => by
    unfold srdLoop
    have hp1 : Payable pay (seen ++ [g]) := fun x hx => hpay x (by simp at hx ⊢; tauto)
    refine NP.bind (add_np hp hi hp1) fun st' h1 => ?_
    obtain ⟨h3, h4⟩ := add_inv hp hi hm h1
    split
    · exact drain_np hp _ (hp1.subperm h3.sub)
    · exact srdLoop_np hp h3 h4 (by simpa using hpay)

theorem srdInv_new (max : Nat) : SrdInv pay max ([] : List (Group O)) {} := ⟨List.nil_subperm, Nat.le_refl _, Nat.le_refl _, Nat.zero_le _⟩

theorem selectSrd_spec (hp : IsHeap pay pop) {pool : List (Group O)} {target cost max : Nat} {r : Result O} (h : selectSrd pay pop pool target cost max = .ok r) :
    ∃ sel, sel.Subperm pool ∧ Rep pay target sel r ∧ total (·.weight) sel ≤ max := by
  simp only [selectSrd, bind_eq_ok] at h
  obtain ⟨full, -, h⟩ := h
  have := srdLoop_spec hp (srdInv_new max) (Nat.zero_le _) h
  simpa using this

theorem selectSrd_np (hp : IsHeap pay pop) {pool : List (Group O)} {target cost max : Nat} (hpay : Payable pay pool) : NP (selectSrd pay pop pool target cost max) := by
  unfold selectSrd
  exact NP.bind (NP.okOr (by decide)) fun _ _ => srdLoop_np hp (srdInv_new max) (Nat.zero_le _) (by simpa using hpay)

/-! ### when the draw pays for the target -/

/-- nothing has been removed so far, or nothing will be found -/
structure Sound (pay : Bool) (w : Option Nat) (full max : Nat) (seen : List (Group O)) (st : Srd O) : Prop where
  inv : SrdInv pay max seen st
  le : st.weight ≤ max
  low : st.eff < full
  exact : st.exceeded = false → st.eff = total (worth pay) st.heap ∧ st.weight = total (·.weight) st.heap
  stuck : st.exceeded = true → ∃ x, w = some x ∧ max < st.weight + x

/-- the pool is light enough, or all groups have the same weight -/
def Even (max : Nat) (w : Option Nat) (pool : List (Group O)) : Prop :=
  match w with
  | none => total (·.weight) pool ≤ max
  | some x => ∀ g ∈ pool, g.weight = x

theorem add_sound (hp : IsHeap pay pop) {w : Option Nat} {full max : Nat} {seen gs : List (Group O)} {st st' : Srd O} {g : Group O} (hs : Sound pay w full max seen st)
    (hev : Even max w (seen ++ g :: gs)) (ha : srdAdd pay pop max st g = .ok st') :
    (st'.eff = total (worth pay) st'.heap ∧ st'.weight = total (·.weight) st'.heap ∧ st'.exceeded = false) ∨
      (st'.eff < full ∧ st'.exceeded = true ∧ ∃ x, w = some x ∧ max < st'.weight + x) := by
  have hinv := hs.inv
  simp only [srdAdd, bind_eq_ok, okOr_eq_ok] at ha
  obtain ⟨v, hv, e, he, h⟩ := ha
  have hv := effective_eq hv
  obtain ⟨he, -⟩ := add_some.1 he
  subst hv
  have hpush := push_inv true hinv he
  split at h
  · next hgt =>
    right
    cases w with
    | none =>
      exfalso
      have h1 : total (·.weight) seen + (g.weight + total (·.weight) gs) ≤ max := by simpa [Even] using hev
      cases hex : st.exceeded with
      | false =>
        have h2 := (hs.exact hex).2
        have h3 := total_subperm (·.weight) hinv.sub
        omega
      | true =>
        obtain ⟨x, h2, -⟩ := hs.stuck hex
        cases h2
    | some x =>
      have hx : ∀ k ∈ g :: st.heap, k.weight = x := by
        intro k hk
        have := hpush.sub.subset hk
        exact hev k (by simp at this ⊢; tauto)
      have hgw := hx g (by simp)
      rcases hp.cases (g :: st.heap) with ⟨h0, -⟩ | ⟨m, h', h1, h2, h3⟩
      · cases h0
      have hmw := hx m (h2.symm.subset (by simp))
      have hme := h3 g (by simp)
      have hle := hs.le
      have hlow := hs.low
      have htot := total_perm (worth pay) h2
      rw [total_cons, total_cons] at htot
      have hb := hinv.eff
      rw [srdShrink] at h
      simp only [h1] at h
      rw [if_neg (by omega)] at h
      simp only [bind_eq_ok, okOr_eq_ok] at h
      obtain ⟨v, hv1, e2, he2, w2, hw2, hr⟩ := h
      have hv1 := effective_eq hv1
      obtain ⟨he2, -⟩ := sub_some.1 he2
      obtain ⟨hw2, -⟩ := sub_some.1 hw2
      have hw3 : w2 = st.weight := by omega
      have he3 : e2 < full := by omega
      have hfin : st'.eff = e2 ∧ st'.weight = w2 ∧ st'.exceeded = true := by
        rw [List.length_cons, srdShrink] at hr
        dsimp only at hr
        cases hpp : pop h' with
        | none =>
          simp only [hpp, Except.ok.injEq] at hr
          subst hr; exact ⟨rfl, rfl, rfl⟩
        | some q =>
          obtain ⟨q1, q2⟩ := q
          simp only [hpp] at hr
          rw [if_pos (by omega)] at hr
          simp only [Except.ok.injEq] at hr
          subst hr; exact ⟨rfl, rfl, rfl⟩
      refine ⟨by rw [hfin.1]; exact he3, hfin.2.2, x, rfl, ?_⟩
      rw [hfin.2.1, hw3]; omega
  · next hgt =>
    simp only [pure_eq_ok] at h
    subst h
    cases hex : st.exceeded with
    | false =>
      left
      obtain ⟨h1, h2⟩ := hs.exact hex
      refine ⟨?_, ?_, rfl⟩
      · dsimp only; rw [total_cons]; omega
      · dsimp only; rw [total_cons]; omega
    | true =>
      exfalso
      obtain ⟨x, rfl, h2⟩ := hs.stuck hex
      have := hev g (by simp)
      omega

theorem srdLoop_covers (hp : IsHeap pay pop) {w : Option Nat} {target full max : Nat} : ∀ {gs seen : List (Group O)} {st : Srd O} {r : Result O}, Sound pay w full max seen st →
    Even max w (seen ++ gs) → srdLoop pay pop target full max st gs = .ok r → full ≤ r.eff
  | [], _, _, _, _, _, h => by simp [srdLoop] at h
  | g :: gs, seen, st, r, hs, hev, h => by
    simp only [srdLoop, bind_eq_ok] at h
    obtain ⟨st', h1, h2⟩ := h
    obtain ⟨h3, h4⟩ := add_inv hp hs.inv hs.le h1
    have h5 := add_sound hp hs hev h1
    split at h2
    · next hge =>
      obtain ⟨l, h6, h7⟩ := drain_rep hp _ (Nat.lt_succ_self _) (rep_new pay target) h2
      rw [List.nil_append] at h7
      rcases h5 with ⟨h8, -, -⟩ | ⟨h8, -, -⟩
      · rw [h7.eff, total_perm _ h6, ← h8]; exact hge
      · omega
    · next hlt =>
      refine srdLoop_covers hp (seen := seen ++ [g]) ⟨h3, h4, by omega, ?_, ?_⟩ (by simpa using hev) h2
      · intro hex
        rcases h5 with ⟨h8, h9, -⟩ | ⟨-, h9, -⟩
        · exact ⟨h8, h9⟩
        · rw [hex] at h9; cases h9
      · intro hex
        rcases h5 with ⟨-, -, h9⟩ | ⟨-, -, h9⟩
        · rw [hex] at h9; cases h9
        · exact h9

theorem selectSrd_covers (hp : IsHeap pay pop) {w : Option Nat} {pool : List (Group O)} {target cost max : Nat} {r : Result O} (ht : 0 < target) (hev : Even max w pool)
    (h : selectSrd pay pop pool target cost max = .ok r) : target ≤ r.eff := by
  simp only [selectSrd, bind_eq_ok, okOr_eq_ok] at h
  obtain ⟨full, h1, h⟩ := h
  obtain ⟨h1, -⟩ := add_some.1 h1
  have := srdLoop_covers hp (w := w) (seen := []) ⟨srdInv_new max, Nat.zero_le _, by show 0 < full; omega, fun _ => ⟨rfl, rfl⟩, by intro hh; cases hh⟩ (by simpa using hev) h
  omega

theorem even_perm {max : Nat} {w : Option Nat} {l m : List (Group O)} (h : Even max w l) (hp : m.Perm l) : Even max w m := by
  cases w with
  | none => simp only [Even] at h ⊢; rw [total_perm _ hp]; exact h
  | some x => exact fun g hg => h g (hp.subset hg)

end Verif.Select
