import Verif.Mempool.Model
import Mathlib.Logic.Relation
import Mathlib.Data.Finset.Card
import Mathlib.Data.List.Nodup

/-!
Correctness of the two graph walks: `collect` returns the nodes reachable from the start, `postorder` returns
every node reachable from the start once, children first.
-/

namespace Verif.Mempool

open Verif (BMap okOr ensure bind_eq_ok)

/-! ## Sets -/

theorem mem_setInsert {x y : Nat} {l : List Nat} : y ∈ setInsert x l ↔ y = x ∨ y ∈ l := by
  unfold setInsert
  split
  · constructor
    · exact Or.inr
    · rintro (rfl | h)
      · assumption
      · exact h
  · simp

theorem nodup_setInsert {x : Nat} {l : List Nat} (h : l.Nodup) : (setInsert x l).Nodup := by
  unfold setInsert
  split
  · exact h
  · rename_i hx; exact List.nodup_cons.2 ⟨hx, h⟩

theorem mem_toSet {y : Nat} {l : List Nat} : y ∈ toSet l ↔ y ∈ l := by
  unfold toSet
  induction l with
  | nil => simp
  | cons a as ih => rw [List.foldr_cons, mem_setInsert, ih, List.mem_cons]

theorem nodup_toSet (l : List Nat) : (toSet l).Nodup := by
  unfold toSet
  induction l with
  | nil => simp
  | cons a as ih => rw [List.foldr_cons]; exact nodup_setInsert ih

theorem mem_setErase {x y : Nat} {l : List Nat} : y ∈ setErase x l ↔ y ∈ l ∧ y ≠ x := by
  simp [setErase]

theorem nodup_setErase {x : Nat} {l : List Nat} (h : l.Nodup) : (setErase x l).Nodup := h.filter _

/-! ## Collecting -/

/-- one round of visits -/
theorem visits_spec (check : Nat → Except Err Unit) (ns : List Nat) : ∀ (st r : List Nat), r.Nodup →
    (∃ new : List Nat, ns.foldlM (visit check) (st, r) = .ok (new ++ st, new ++ r) ∧
      (new ++ r).Nodup ∧ (∀ x ∈ new, x ∈ ns) ∧ (∀ x ∈ ns, x ∈ new ++ r) ∧
      (new = [] ∨ check ((new ++ r).length) = .ok ())) ∨
    (∃ k e, check k = .error e ∧ ns.foldlM (visit check) (st, r) = .error e) := by
  induction ns with
  | nil => intro st r hr; exact Or.inl ⟨[], by simp [hr, pure, Except.pure]⟩
  | cons a as ih =>
    intro st r hr
    rw [List.foldlM_cons]
    by_cases ha : a ∈ r
    · have : visit check (st, r) a = .ok (st, r) := by unfold visit; rw [if_pos ha]
      rw [this]
      rcases ih st r hr with ⟨new, h1, h2, h3, h4, h5⟩ | ⟨k, e, h1, h2⟩
      · refine Or.inl ⟨new, h1, h2, fun x hx => by simp [h3 x hx], fun x hx => ?_, h5⟩
        rcases List.mem_cons.1 hx with rfl | hx
        · exact List.mem_append_right _ ha
        · exact h4 x hx
      · exact Or.inr ⟨k, e, h1, h2⟩
    · cases hc : check (r.length + 1) with
      | error e =>
        have : visit check (st, r) a = .error e := by
          unfold visit; rw [if_neg ha]; simp only [hc]; rfl
        rw [this]
        exact Or.inr ⟨_, e, hc, rfl⟩
      | ok u =>
        have : visit check (st, r) a = .ok (a :: st, a :: r) := by
          unfold visit; rw [if_neg ha]; simp only [hc]; rfl
        rw [this]
        rcases ih (a :: st) (a :: r) (List.nodup_cons.2 ⟨ha, hr⟩) with ⟨new, h1, h2, h3, h4, h5⟩ | ⟨k, e, h1, h2⟩
        · refine Or.inl ⟨new ++ [a], by simpa [bind, Except.bind] using h1, by simpa using h2, ?_, ?_, ?_⟩
          · intro x hx
            rcases List.mem_append.1 hx with hx | hx
            · simp [h3 x hx]
            · simp at hx; simp [hx]
          · intro x hx
            rcases List.mem_cons.1 hx with rfl | hx
            · simp
            · have := h4 x hx; simpa using this
          · right
            rcases h5 with rfl | h5
            · simpa using hc
            · simpa using h5
        · exact Or.inr ⟨k, e, h1, h2⟩

/-- the arrows followed by a walk -/
def NextRel (next : Nat → Except Err (List Nat)) (x y : Nat) : Prop := ∃ ns, next x = .ok ns ∧ y ∈ ns

theorem collectLoop_spec {next : Nat → Except Err (List Nat)} {check : Nat → Except Err Unit} {S : Finset Nat}
    (hS : ∀ x ∈ S, ∃ ns, next x = .ok ns ∧ ∀ y ∈ ns, y ∈ S) :
    ∀ (n : Nat) (st r : List Nat), r.Nodup → st.Nodup → (∀ x ∈ st, x ∈ r) → (∀ x ∈ r, x ∈ S) →
      S.card + st.length ≤ n + r.length →
      (∀ y ∈ r, y ∉ st → ∀ z, NextRel next y z → z ∈ r) →
      (∃ r', collectLoop next check n (st, r) = .ok r' ∧ r'.Nodup ∧ (∀ x ∈ r, x ∈ r') ∧ (∀ x ∈ r', x ∈ S) ∧
        (∀ y ∈ r', ∀ z, NextRel next y z → z ∈ r') ∧
        (∀ x ∈ r', ∃ y ∈ r, Relation.ReflTransGen (NextRel next) y x) ∧
        (r' = r ∨ check r'.length = .ok ())) ∨
      (∃ k e, check k = .error e ∧ collectLoop next check n (st, r) = .error e) := by
  intro n
  induction n with
  | zero =>
    intro st r hr hst hsub hrS hfuel hcl
    cases st with
    | nil =>
      exact Or.inl ⟨r, rfl, hr, fun x hx => hx, hrS, fun y hy => hcl y hy (by simp),
        fun x hx => ⟨x, hx, .refl⟩, Or.inl rfl⟩
    | cons a as =>
      exfalso
      have : r.length ≤ S.card := by
        rw [← List.toFinset_card_of_nodup hr]
        apply Finset.card_le_card
        intro x hx
        exact hrS x (by simpa using hx)
      simp only [List.length_cons] at hfuel
      omega
  | succ n ih =>
    intro st r hr hst hsub hrS hfuel hcl
    cases st with
    | nil =>
      exact Or.inl ⟨r, rfl, hr, fun x hx => hx, hrS, fun y hy => hcl y hy (by simp),
        fun x hx => ⟨x, hx, .refl⟩, Or.inl rfl⟩
    | cons a as =>
      obtain ⟨hna, hnas⟩ := List.nodup_cons.1 hst
      have har : a ∈ r := hsub a (by simp)
      obtain ⟨ns, hns, hnsS⟩ := hS a (hrS a har)
      simp only [collectLoop, hns]
      rcases visits_spec check ns as r hr with ⟨new, h1, h2, h3, h4, h5⟩ | ⟨k, e, h1, h2⟩
      · simp only [bind, Except.bind, h1]
        have hdisj := (List.nodup_append.1 h2).2.2
        have hnn := (List.nodup_append.1 h2).1
        rcases ih (new ++ as) (new ++ r) h2
          (List.nodup_append.2 ⟨hnn, hnas, fun x hx y hy e => hdisj x hx y (hsub y (by simp [hy])) e⟩)
          (by
            intro x hx
            rcases List.mem_append.1 hx with h | h
            · exact List.mem_append_left _ h
            · exact List.mem_append_right _ (hsub x (by simp [h])))
          (by
            intro x hx
            rcases List.mem_append.1 hx with h | h
            · exact hnsS x (h3 x h)
            · exact hrS x h)
          (by simp only [List.length_append, List.length_cons] at hfuel ⊢; omega)
          (by
            intro y hy hyst z hz
            rcases List.mem_append.1 hy with h | h
            · exact absurd (List.mem_append_left _ h) hyst
            · by_cases hya : y = a
              · subst hya
                obtain ⟨ns', hns', hz'⟩ := hz
                rw [hns] at hns'
                simp only [Except.ok.injEq] at hns'
                subst hns'
                exact h4 z hz'
              · have : y ∉ a :: as := by
                  intro hm
                  rcases List.mem_cons.1 hm with h' | h'
                  · exact hya h'
                  · exact hyst (List.mem_append_right _ h')
                exact List.mem_append_right _ (hcl y h this z hz))
          with ⟨r', g1, g2, g3, g4, g5, g6, g7⟩ | ⟨k, e, g1, g2⟩
        · refine Or.inl ⟨r', g1, g2, fun x hx => g3 x (List.mem_append_right _ hx), g4, g5, ?_, ?_⟩
          · intro x hx
            obtain ⟨y, hy, hyx⟩ := g6 x hx
            rcases List.mem_append.1 hy with h | h
            · exact ⟨a, har, Relation.ReflTransGen.head ⟨ns, hns, h3 y h⟩ hyx⟩
            · exact ⟨y, h, hyx⟩
          · rcases g7 with g7 | g7
            · subst g7
              rcases h5 with rfl | h5
              · left; rfl
              · right; exact h5
            · exact Or.inr g7
        · exact Or.inr ⟨k, e, g1, g2⟩
      · refine Or.inr ⟨k, e, h1, ?_⟩
        simp only [bind, Except.bind, h2]

/-- the lookup used by `collect` -/
def nextOf (m : BMap Nat Entry) (kind : Entry → List Nat) (x : Nat) : Except Err (List Nat) :=
  match m.get x with | none => .error (.missing x) | some e => .ok (kind e)

theorem nextRel_nextOf {m : BMap Nat Entry} {kind : Entry → List Nat} {x y : Nat} :
    NextRel (nextOf m kind) x y ↔ ∃ e, m.get x = some e ∧ y ∈ kind e := by
  unfold NextRel nextOf
  cases m.get x with
  | none => simp
  | some e => simp

/-- ids present in the store -/
def keys (m : BMap Nat Entry) : Finset Nat := (m.entries.map Prod.fst).toFinset

theorem mem_keys {m : BMap Nat Entry} {k : Nat} : k ∈ keys m ↔ ∃ e, m.get k = some e := by
  unfold keys
  rw [List.mem_toFinset, List.mem_map]
  constructor
  · rintro ⟨⟨a, e⟩, h, rfl⟩; exact ⟨e, BMap.mem_entries.1 h⟩
  · rintro ⟨e, h⟩; exact ⟨(k, e), BMap.mem_entries.2 h, rfl⟩

theorem card_keys (m : BMap Nat Entry) : (keys m).card = m.size := by
  unfold keys
  rw [List.toFinset_card_of_nodup]
  · simp [BMap.size]
  · rw [List.nodup_iff_pairwise_ne, List.pairwise_map]
    exact m.sorted.imp (fun h => Nat.ne_of_lt h)

theorem collect_spec {m : BMap Nat Entry} {kind : Entry → List Nat} {check : Nat → Except Err Unit}
    {init : List Nat} (hcl : ∀ x e, m.get x = some e → ∀ y ∈ kind e, y ∈ keys m)
    (hinit : ∀ x ∈ init, x ∈ keys m) :
    (∃ r, collect m kind check init = .ok r ∧ r.Nodup ∧
      (∀ x, x ∈ r ↔ ∃ y ∈ init, Relation.ReflTransGen (NextRel (nextOf m kind)) y x) ∧
      (r = [] ∨ check r.length = .ok ())) ∨
    (∃ k e, check k = .error e ∧ collect m kind check init = .error e) := by
  have hdef : collect m kind check init = (do
      let s ← init.foldlM (visit check) ([], [])
      collectLoop (nextOf m kind) check (m.size + 1) s) := rfl
  rw [hdef]
  rcases visits_spec check init [] [] (by simp) with ⟨new, h1, h2, h3, h4, h5⟩ | ⟨k, e, h1, h2⟩
  · simp only [List.append_nil] at h1 h2 h4 h5
    simp only [bind, Except.bind, h1]
    have hS : ∀ x ∈ keys m, ∃ ns, nextOf m kind x = .ok ns ∧ ∀ y ∈ ns, y ∈ keys m := by
      intro x hx
      obtain ⟨e, he⟩ := mem_keys.1 hx
      exact ⟨kind e, by simp [nextOf, he], hcl x e he⟩
    rcases collectLoop_spec (check := check) hS (m.size + 1) new new h2 h2 (fun x hx => hx)
      (fun x hx => hinit x (h3 x hx)) (by rw [card_keys]; omega) (fun y hy hny => absurd hy hny) with
      ⟨r', g1, g2, g3, g4, g5, g6, g7⟩ | ⟨k, e, g1, g2⟩
    · refine Or.inl ⟨r', g1, g2, fun x => ⟨fun hx => ?_, ?_⟩, ?_⟩
      · obtain ⟨y, hy, hyx⟩ := g6 x hx
        exact ⟨y, h3 y hy, hyx⟩
      · rintro ⟨y, hy, hyx⟩
        induction hyx with
        | refl => exact g3 y (h4 y hy)
        | tail _ hstep ih => exact g5 _ ih _ hstep
      · rcases g7 with rfl | g7
        · exact h5
        · exact Or.inr g7
    · exact Or.inr ⟨k, e, g1, g2⟩
  · refine Or.inr ⟨k, e, h1, ?_⟩
    simp only [bind, Except.bind, h2]

/-! ## Post order -/

/-- children-first: every child of an emitted node was emitted before it -/
def ChildrenFirst (next : Nat → Option (List Nat)) (done out : List Nat) : Prop :=
  ∀ pre x post, out = pre ++ x :: post → ∀ cs, next x = some cs → ∀ c ∈ cs, c ∈ pre ∨ c ∈ done

/-- arrows of the walk -/
def StepRel (next : Nat → Option (List Nat)) (x y : Nat) : Prop := ∃ cs, next x = some cs ∧ y ∈ cs

/-- ranks increase strictly towards the top of the stack -/
def Ranked (rank : Nat → Nat) (st : List (List Nat × Nat)) : Prop :=
  st.Pairwise (fun a b => rank b.2 < rank a.2)

theorem postorder_spec {next : Nat → Option (List Nat)} {S : Finset Nat} {rank : Nat → Nat}
    (hS : ∀ x ∈ S, ∃ cs, next x = some cs ∧ (∀ y ∈ cs, y ∈ S) ∧ cs.length ≤ S.card)
    (hrank : ∀ x y, StepRel next x y → rank x < rank y) :
    ∀ (n : Nat) (st : List (List Nat × Nat)) (vis done : List Nat),
      vis.Nodup → (∀ x ∈ vis, x ∈ S) →
      (∀ x, x ∈ vis ↔ x ∈ done ∨ x ∈ st.map Prod.snd) →
      (∀ x ∈ done, x ∉ st.map Prod.snd) →
      Ranked rank st →
      (∀ f ∈ st, ∃ cs, next f.2 = some cs ∧ ∃ p, cs = p ++ f.1 ∧ ∀ c ∈ p, c ∈ vis) →
      (st.map (fun f => f.1.length + 1)).sum + (S.card - vis.length) * (S.card + 1) ≤ n →
      ∃ out, postorder next n st vis = .ok out ∧ out.Nodup ∧ (∀ x ∈ out, x ∉ done) ∧
        (∀ x ∈ st.map Prod.snd, x ∈ out) ∧ (∀ x ∈ out, x ∈ S) ∧
        (∀ x ∈ out, ∃ y ∈ st.map Prod.snd, Relation.ReflTransGen (StepRel next) y x) ∧
        ChildrenFirst next done out := by
  intro n
  induction n with
  | zero =>
    intro st vis done hv hvS hvis hdone hrk hfr hfuel
    cases st with
    | nil => exact ⟨[], rfl, by simp, by simp, by simp, by simp, by simp, by
        intro pre x post h; simp at h⟩
    | cons f fs =>
      exfalso
      simp only [List.map_cons, List.sum_cons] at hfuel
      omega
  | succ n ih =>
    intro st vis done hv hvS hvis hdone hrk hfr hfuel
    match st, hvis, hdone, hrk, hfr, hfuel with
    | [], _, _, _, _, _ => exact ⟨[], rfl, by simp, by simp, by simp, by simp, by simp, by
        intro pre x post h; simp at h⟩
    | ([], x) :: fs, hvis, hdone, hrk, hfr, hfuel =>
      obtain ⟨hrk1, hrk2⟩ := List.pairwise_cons.1 hrk
      have hxfs : x ∉ fs.map Prod.snd := by
        intro hx
        obtain ⟨f, hf, rfl⟩ := List.mem_map.1 hx
        exact Nat.lt_irrefl _ (hrk1 f hf)
      simp only [postorder]
      obtain ⟨out, h1, h2, h3, h4, h5, h6, h7⟩ := ih fs vis (x :: done) hv hvS
        (by intro y; rw [hvis y]; simp only [List.map_cons, List.mem_cons]; tauto)
        (by
          intro y hy
          rcases List.mem_cons.1 hy with rfl | hy
          · exact hxfs
          · have := hdone y hy
            simp only [List.map_cons, List.mem_cons, not_or] at this
            exact this.2)
        hrk2 (fun f hf => hfr f (by simp [hf]))
        (by simp only [List.map_cons, List.sum_cons, List.length_nil] at hfuel; omega)
      refine ⟨x :: out, ?_, ?_, ?_, ?_, ?_, ?_, ?_⟩
      · rw [h1]; rfl
      · exact List.nodup_cons.2 ⟨fun hx => h3 x hx (by simp), h2⟩
      · intro y hy
        rcases List.mem_cons.1 hy with rfl | hy
        · intro hyd
          exact hdone y hyd (by simp)
        · intro hyd
          exact h3 y hy (by simp [hyd])
      · intro y hy
        simp only [List.map_cons, List.mem_cons] at hy
        rcases hy with rfl | hy
        · simp
        · exact List.mem_cons_of_mem _ (h4 y hy)
      · intro y hy
        rcases List.mem_cons.1 hy with rfl | hy
        · exact hvS y ((hvis y).2 (Or.inr (by simp)))
        · exact h5 y hy
      · intro y hy
        rcases List.mem_cons.1 hy with rfl | hy
        · exact ⟨y, by simp, .refl⟩
        · obtain ⟨z, hz, hzy⟩ := h6 y hy
          exact ⟨z, by simp only [List.map_cons, List.mem_cons]; exact Or.inr hz, hzy⟩
      · intro pre y post hout cs hcs c hc
        cases pre with
        | nil =>
          simp only [List.nil_append, List.cons.injEq] at hout
          obtain ⟨rfl, rfl⟩ := hout
          obtain ⟨cs', hcs', p, hp, hpv⟩ := hfr ([], x) (by simp)
          simp only at hcs' hp
          rw [hcs] at hcs'
          simp only [Option.some.injEq] at hcs'
          subst hcs'
          rw [List.append_nil] at hp
          subst hp
          have hcv := (hvis c).1 (hpv c hc)
          right
          rcases hcv with h | h
          · exact h
          · exfalso
            simp only [List.map_cons, List.mem_cons] at h
            have hr := hrank x c ⟨_, hcs, hc⟩
            rcases h with rfl | h
            · omega
            · obtain ⟨f, hf, rfl⟩ := List.mem_map.1 h
              have := hrk1 f hf
              simp only at this
              omega
        | cons z pre =>
          simp only [List.cons_append, List.cons.injEq] at hout
          obtain ⟨rfl, hout⟩ := hout
          rcases h7 pre y post hout cs hcs c hc with h | h
          · exact Or.inl (List.mem_cons_of_mem _ h)
          · rcases List.mem_cons.1 h with rfl | h
            · exact Or.inl (by simp)
            · exact Or.inr h
    | (c :: cs, x) :: fs, hvis, hdone, hrk, hfr, hfuel =>
      simp only [postorder]
      obtain ⟨cs0, hcs0, p, hp, hpv⟩ := hfr (c :: cs, x) (by simp)
      simp only at hcs0 hp
      by_cases hc : c ∈ vis
      · rw [if_pos hc]
        obtain ⟨out, h1, h2, h3, h4, h5, h6, h7⟩ := ih ((cs, x) :: fs) vis done hv hvS
          (by intro y; rw [hvis y]; simp) (by intro y hy; have := hdone y hy; simpa using this)
          (List.pairwise_cons.2 ⟨(List.pairwise_cons.1 hrk).1, (List.pairwise_cons.1 hrk).2⟩)
          (by
            intro f hf
            rcases List.mem_cons.1 hf with rfl | hf
            · refine ⟨cs0, hcs0, p ++ [c], by simp [hp], fun d hd => ?_⟩
              rcases List.mem_append.1 hd with h | h
              · exact hpv d h
              · have : d = c := by simpa using h
                rw [this]; exact hc
            · exact hfr f (by simp [hf]))
          (by simp only [List.map_cons, List.sum_cons, List.length_cons] at hfuel ⊢; omega)
        exact ⟨out, h1, h2, h3, by simpa using h4, h5, by simpa using h6, h7⟩
      · rw [if_neg hc]
        have hxS : x ∈ S := hvS x ((hvis x).2 (Or.inr (by simp)))
        obtain ⟨cs1, hcs1, hcs1S, -⟩ := hS x hxS
        have hcin : c ∈ cs0 := by rw [hp]; simp
        have hcS : c ∈ S := by
          rw [hcs0] at hcs1
          simp only [Option.some.injEq] at hcs1
          subst hcs1
          exact hcs1S c hcin
        obtain ⟨ds, hds, hdsS, hdslen⟩ := hS c hcS
        rw [hds]
        simp only
        have hvlen : vis.length < S.card := by
          have : (c :: vis).toFinset ⊆ S := by
            intro y hy
            simp only [List.toFinset_cons, Finset.mem_insert, List.mem_toFinset] at hy
            rcases hy with rfl | hy
            · exact hcS
            · exact hvS y hy
          have h1 := Finset.card_le_card this
          rw [List.toFinset_card_of_nodup (List.nodup_cons.2 ⟨hc, hv⟩), List.length_cons] at h1
          omega
        have hrxc := hrank x c ⟨cs0, hcs0, hcin⟩
        obtain ⟨out, h1, h2, h3, h4, h5, h6, h7⟩ := ih ((ds, c) :: (cs, x) :: fs) (c :: vis) done
          (List.nodup_cons.2 ⟨hc, hv⟩)
          (by
            intro y hy
            rcases List.mem_cons.1 hy with rfl | hy
            · exact hcS
            · exact hvS y hy)
          (by intro y; rw [List.mem_cons, hvis y]; simp only [List.map_cons, List.mem_cons]; tauto)
          (by
            intro y hy
            have := hdone y hy
            simp only [List.map_cons, List.mem_cons, not_or] at this ⊢
            refine ⟨?_, this⟩
            rintro rfl
            exact hc ((hvis y).2 (Or.inl hy)))
          (by
            obtain ⟨hrk1, hrk2⟩ := List.pairwise_cons.1 hrk
            refine List.pairwise_cons.2 ⟨?_, List.pairwise_cons.2 ⟨hrk1, hrk2⟩⟩
            intro f hf
            rcases List.mem_cons.1 hf with rfl | hf
            · exact hrxc
            · have := hrk1 f hf
              simp only at this ⊢
              omega)
          (by
            intro f hf
            rcases List.mem_cons.1 hf with rfl | hf
            · exact ⟨ds, hds, [], by simp, by simp⟩
            · rcases List.mem_cons.1 hf with rfl | hf
              · refine ⟨cs0, hcs0, p ++ [c], by simp [hp], fun d hd => ?_⟩
                rcases List.mem_append.1 hd with h | h
                · exact List.mem_cons_of_mem _ (hpv d h)
                · have : d = c := by simpa using h
                  simp [this]
              · obtain ⟨cs', g1, p', g2, g3⟩ := hfr f (by simp [hf])
                exact ⟨cs', g1, p', g2, fun d hd => List.mem_cons_of_mem _ (g3 d hd)⟩)
          (by
            simp only [List.map_cons, List.sum_cons, List.length_cons] at hfuel ⊢
            obtain ⟨k, hk⟩ : ∃ k, S.card - vis.length = k + 1 := ⟨S.card - vis.length - 1, by omega⟩
            have hk' : S.card - (vis.length + 1) = k := by omega
            rw [hk] at hfuel
            rw [hk']
            have : (k + 1) * (S.card + 1) = k * (S.card + 1) + (S.card + 1) := by ring
            omega)
        refine ⟨out, h1, h2, h3, ?_, h5, ?_, h7⟩
        · intro y hy
          apply h4 y
          simp only [List.map_cons, List.mem_cons] at hy ⊢
          exact Or.inr hy
        · intro y hy
          obtain ⟨z, hz, hzy⟩ := h6 y hy
          simp only [List.map_cons, List.mem_cons] at hz
          rcases hz with rfl | hz
          · exact ⟨x, by simp, Relation.ReflTransGen.head ⟨cs0, hcs0, hcin⟩ hzy⟩
          · exact ⟨z, by simpa using hz, hzy⟩

end Verif.Mempool
