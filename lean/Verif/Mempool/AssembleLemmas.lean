import Verif.Mempool.Assemble
import Verif.Mempool.Add

namespace Verif.Mempool

open Verif (BMap)
open Relation (ReflTransGen)

/-! ## Traversal from several roots -/

theorem postorder_cover {next : Nat → Option (List Nat)} {S : Finset Nat}
    (hS : ∀ x ∈ S, ∃ cs, next x = some cs ∧ (∀ y ∈ cs, y ∈ S) ∧ cs.length ≤ S.card) :
    ∀ (n : Nat) (st : List (List Nat × Nat)) (vis : List Nat), vis.Nodup → (∀ x ∈ vis, x ∈ S) →
      (∀ f ∈ st, f.2 ∈ S ∧ ∃ cs, next f.2 = some cs ∧ ∃ p, cs = p ++ f.1) →
      (st.map (fun f => f.1.length + 1)).sum + (S.card - vis.length) * (S.card + 1) ≤ n →
      ∃ out, postorder next n st vis = .ok out ∧ (∀ f ∈ st, f.2 ∈ out) ∧
        (∀ x ∈ out, ∃ f ∈ st, ReflTransGen (StepRel next) f.2 x) ∧
        (∀ f ∈ st, ∀ c ∈ f.1, c ∈ out ∨ c ∈ vis) ∧
        (∀ x ∈ out, (∀ f ∈ st, f.2 ≠ x) → ∀ cs, next x = some cs → ∀ c ∈ cs, c ∈ out ∨ c ∈ vis) := by
  intro n
  induction n with
  | zero =>
    intro st vis hv hvS hfr hfuel
    cases st with
    | nil => exact ⟨[], rfl, by simp, by simp, by simp, by simp⟩
    | cons f fs =>
      exfalso
      simp only [List.map_cons, List.sum_cons] at hfuel
      omega
  | succ n ih =>
    intro st vis hv hvS hfr hfuel
    match st, hfr, hfuel with
    | [], _, _ => exact ⟨[], rfl, by simp, by simp, by simp, by simp⟩
    | ([], x) :: fs, hfr, hfuel =>
      simp only [postorder]
      obtain ⟨out, h1, h2, h3, h4, h5⟩ := ih fs vis hv hvS (fun f hf => hfr f (by simp [hf]))
        (by simp only [List.map_cons, List.sum_cons, List.length_nil] at hfuel; omega)
      refine ⟨x :: out, by rw [h1]; rfl, ?_, ?_, ?_, ?_⟩
      · intro f hf
        rcases List.mem_cons.1 hf with rfl | hf
        · simp
        · exact List.mem_cons_of_mem _ (h2 f hf)
      · intro y hy
        rcases List.mem_cons.1 hy with rfl | hy
        · exact ⟨([], y), by simp, .refl⟩
        · obtain ⟨f, hf, hr⟩ := h3 y hy
          exact ⟨f, by simp [hf], hr⟩
      · intro f hf c hc
        rcases List.mem_cons.1 hf with rfl | hf
        · simp at hc
        · exact (h4 f hf c hc).imp (List.mem_cons_of_mem _) id
      · intro y hy hne cs hcs c hc
        rcases List.mem_cons.1 hy with rfl | hy
        · exact absurd rfl (hne ([], y) (by simp))
        · exact (h5 y hy (fun f hf => hne f (by simp [hf])) cs hcs c hc).imp (List.mem_cons_of_mem _) id
    | (c :: cs, x) :: fs, hfr, hfuel =>
      simp only [postorder]
      obtain ⟨hxS, cs0, hcs0, p, hp⟩ := hfr (c :: cs, x) (by simp)
      simp only at hcs0 hp hxS
      by_cases hc : c ∈ vis
      · rw [if_pos hc]
        obtain ⟨out, h1, h2, h3, h4, h5⟩ := ih ((cs, x) :: fs) vis hv hvS
          (by
            intro f hf
            rcases List.mem_cons.1 hf with rfl | hf
            · exact ⟨hxS, cs0, hcs0, p ++ [c], by simp [hp]⟩
            · exact hfr f (by simp [hf]))
          (by simp only [List.map_cons, List.sum_cons, List.length_cons] at hfuel ⊢; omega)
        refine ⟨out, h1, ?_, ?_, ?_, ?_⟩
        · intro f hf
          rcases List.mem_cons.1 hf with rfl | hf
          · exact h2 (cs, x) (by simp)
          · exact h2 f (by simp [hf])
        · intro y hy
          obtain ⟨f, hf, hr⟩ := h3 y hy
          rcases List.mem_cons.1 hf with rfl | hf
          · exact ⟨(c :: cs, x), by simp, hr⟩
          · exact ⟨f, by simp [hf], hr⟩
        · intro f hf d hd
          rcases List.mem_cons.1 hf with rfl | hf
          · rcases List.mem_cons.1 hd with rfl | hd
            · exact Or.inr hc
            · exact h4 (cs, x) (by simp) d hd
          · exact h4 f (by simp [hf]) d hd
        · intro y hy hne
          refine h5 y hy (fun f hf => ?_)
          rcases List.mem_cons.1 hf with rfl | hf
          · exact hne (c :: cs, x) (by simp)
          · exact hne f (by simp [hf])
      · rw [if_neg hc]
        obtain ⟨cs1, hcs1, hcs1S, -⟩ := hS x hxS
        have hcin : c ∈ cs0 := by rw [hp]; simp
        have hcS : c ∈ S := by
          rw [hcs0] at hcs1
          simp only [Option.some.injEq] at hcs1
          subst hcs1
          exact hcs1S c hcin
        obtain ⟨ds, hds, hdsS, hdslen⟩ := hS c hcS
        rw [hds]
        simp only
        have hvlen : vis.length < S.card := by
          have : (c :: vis).toFinset ⊆ S := by
            intro y hy
            simp only [List.toFinset_cons, Finset.mem_insert, List.mem_toFinset] at hy
            rcases hy with rfl | hy
            · exact hcS
            · exact hvS y hy
          have h1 := Finset.card_le_card this
          rw [List.toFinset_card_of_nodup (List.nodup_cons.2 ⟨hc, hv⟩), List.length_cons] at h1
          omega
        obtain ⟨out, h1, h2, h3, h4, h5⟩ := ih ((ds, c) :: (cs, x) :: fs) (c :: vis)
          (List.nodup_cons.2 ⟨hc, hv⟩)
          (by
            intro y hy
            rcases List.mem_cons.1 hy with rfl | hy
            · exact hcS
            · exact hvS y hy)
          (by
            intro f hf
            rcases List.mem_cons.1 hf with rfl | hf
            · exact ⟨hcS, ds, hds, [], by simp⟩
            rcases List.mem_cons.1 hf with rfl | hf
            · exact ⟨hxS, cs0, hcs0, p ++ [c], by simp [hp]⟩
            · exact hfr f (by simp [hf]))
          (by
            simp only [List.map_cons, List.sum_cons, List.length_cons] at hfuel ⊢
            obtain ⟨k, hk⟩ : ∃ k, S.card - vis.length = k + 1 := ⟨S.card - vis.length - 1, by omega⟩
            have hk' : S.card - (vis.length + 1) = k := by omega
            rw [hk] at hfuel
            rw [hk']
            have : (k + 1) * (S.card + 1) = k * (S.card + 1) + (S.card + 1) := by ring
            omega)
        have hout : ∀ d, d ∈ out ∨ d ∈ c :: vis → d ∈ out ∨ d ∈ vis := by
          rintro d (hd | hd)
          · exact Or.inl hd
          · rcases List.mem_cons.1 hd with rfl | hd
            · exact Or.inl (h2 (ds, d) (by simp))
            · exact Or.inr hd
        refine ⟨out, h1, ?_, ?_, ?_, ?_⟩
        · intro f hf
          rcases List.mem_cons.1 hf with rfl | hf
          · exact h2 (cs, x) (by simp)
          · exact h2 f (by simp [hf])
        · intro y hy
          obtain ⟨f, hf, hr⟩ := h3 y hy
          rcases List.mem_cons.1 hf with rfl | hf
          · exact ⟨(c :: cs, x), by simp, Relation.ReflTransGen.head ⟨cs0, hcs0, hcin⟩ hr⟩
          rcases List.mem_cons.1 hf with rfl | hf
          · exact ⟨(c :: cs, x), by simp, hr⟩
          · exact ⟨f, by simp [hf], hr⟩
        · intro f hf d hd
          rcases List.mem_cons.1 hf with rfl | hf
          · rcases List.mem_cons.1 hd with rfl | hd
            · exact Or.inl (h2 (ds, d) (by simp))
            · exact hout d (h4 (cs, x) (by simp) d hd)
          · exact hout d (h4 f (by simp [hf]) d hd)
        · intro y hy hne es hes d hd
          by_cases hyc : y = c
          · subst hyc
            rw [hds] at hes
            simp only [Option.some.injEq] at hes
            subst hes
            exact hout d (h4 (ds, y) (by simp) d hd)
          · refine hout d (h5 y hy (fun f hf => ?_) es hes d hd)
            rcases List.mem_cons.1 hf with rfl | hf
            · exact fun h => hyc h.symm
            rcases List.mem_cons.1 hf with rfl | hf
            · exact hne (c :: cs, x) (by simp)
            · exact hne f (by simp [hf])

theorem Inv.givenIds_ok {s : Store} (h : Inv s) {roots : List Nat} (hr : ∀ x ∈ roots, x ∈ s.ids) :
    ∃ out, givenIds s roots = .ok out ∧ ∀ x, x ∈ out ↔ ∃ r ∈ roots, Reach s.view x r := by
  have hstep : ∀ x y, StepRel (fun x => (s.byId.get x).map Entry.parents) x y ↔ Edge s.view y x := by
    intro x y
    unfold StepRel
    constructor
    · rintro ⟨cs, hcs, hy⟩
      obtain ⟨ex, hex, rfl⟩ := Option.map_eq_some_iff.1 hcs
      exact ((h.parents x ex hex).2 y).1 hy
    · intro hE
      obtain ⟨ex, hex⟩ := mem_ids.1 (edge_mem hE).2
      exact ⟨ex.parents, by beta_reduce; rw [hex]; rfl, ((h.parents x ex hex).2 y).2 hE⟩
  have hlen : ∀ x ex, s.byId.get x = some ex → ex.parents.length ≤ s.ids.card := by
    intro x ex hex
    have h1 := (h.parents x ex hex).1
    rw [← List.toFinset_card_of_nodup h1]
    apply Finset.card_le_card
    intro y hy
    exact (edge_mem (((h.parents x ex hex).2 y).1 (List.mem_toFinset.1 hy))).1
  have hcard : s.ids.card = s.byId.size := card_keys _
  obtain ⟨out, h1, h2, h3, h4, h5⟩ := postorder_cover (S := s.ids)
    (next := fun x => (s.byId.get x).map Entry.parents)
    (by
      intro x hx
      obtain ⟨ex, hex⟩ := mem_ids.1 hx
      refine ⟨ex.parents, by beta_reduce; rw [hex]; rfl, fun y hy => ?_, hlen x ex hex⟩
      exact (edge_mem (((h.parents x ex hex).2 y).1 hy)).1)
    ((roots.length + s.byId.size + 1) * (s.byId.size + 1))
    (roots.map (fun x => (((s.byId.get x).map Entry.parents).getD [], x))) roots.dedup (List.nodup_dedup _)
    (fun x hx => hr x (List.mem_dedup.1 hx))
    (by
      intro f hf
      obtain ⟨x, hx, rfl⟩ := List.mem_map.1 hf
      obtain ⟨ex, hex⟩ := mem_ids.1 (hr x hx)
      exact ⟨hr x hx, ex.parents, by simp [hex], [], by simp [hex]⟩)
    (by
      rw [List.map_map, hcard]
      have hsum : ((roots.map ((fun f => f.1.length + 1) ∘
          (fun x => ((((s.byId.get x).map Entry.parents).getD [], x) : List Nat × Nat)))).sum)
          ≤ roots.length * (s.byId.size + 1) := by
        rw [← smul_eq_mul, ← List.length_map (as := roots)]
        apply List.sum_le_card_nsmul
        intro k hk
        obtain ⟨x, hx, rfl⟩ := List.mem_map.1 hk
        obtain ⟨ex, hex⟩ := mem_ids.1 (hr x hx)
        have := hlen x ex hex
        simp only [Function.comp, hex, Option.map_some, Option.getD_some]
        omega
      have h6 : (s.byId.size - roots.dedup.length) * (s.byId.size + 1) ≤ (s.byId.size + 1) * (s.byId.size + 1) :=
        Nat.mul_le_mul_right _ (by omega)
      nlinarith)
  refine ⟨out, h1, fun x => ⟨fun hx => ?_, ?_⟩⟩
  · obtain ⟨f, hf, hfx⟩ := h3 x hx
    obtain ⟨r, hrr, rfl⟩ := List.mem_map.1 hf
    refine ⟨r, hrr, ?_⟩
    have : StepRel (fun x => (s.byId.get x).map Entry.parents) = fun x y => Edge s.view y x := by
      funext x y; exact propext (hstep x y)
    rw [this] at hfx
    exact reach_flip.1 hfx
  · rintro ⟨r, hrr, hxr⟩
    have hroots : ∀ r ∈ roots, r ∈ out := by
      intro r hrr
      have := h2 (((s.byId.get r).map Entry.parents).getD [], r) (List.mem_map.2 ⟨r, hrr, rfl⟩)
      exact this
    unfold Reach at hxr
    induction hxr using Relation.ReflTransGen.head_induction_on with
    | refl => exact hroots r hrr
    | @head a b hab _ ih =>
      have key : a ∈ out ∨ a ∈ roots.dedup := by
        by_cases hbr : b ∈ roots
        · obtain ⟨eb, heb⟩ := mem_ids.1 (edge_mem hab).2
          have := h4 (((s.byId.get b).map Entry.parents).getD [], b) (List.mem_map.2 ⟨b, hbr, rfl⟩) a
            (by simp only [heb, Option.map_some, Option.getD_some]; exact ((h.parents b eb heb).2 a).2 hab)
          exact this
        · obtain ⟨cs, hcs, hac⟩ := (hstep b a).2 hab
          refine h5 b ih (fun f hf => ?_) cs hcs a hac
          obtain ⟨x, hx, rfl⟩ := List.mem_map.1 hf
          simp only
          rintro rfl
          exact hbr hx
      rcases key with key | key
      · exact key
      · exact hroots a (List.mem_dedup.1 key)

/-! ## Candidates -/

theorem mem_fresh {x : Nat} : ∀ {l seen : List Nat}, x ∈ fresh seen l ↔ x ∈ l ∧ x ∉ seen := by
  intro l
  induction l with
  | nil => intro seen; simp [fresh]
  | cons a as ih =>
    intro seen
    simp only [fresh]
    by_cases ha : a ∈ seen
    · rw [if_pos ha, ih, List.mem_cons]
      constructor
      · rintro ⟨h1, h2⟩; exact ⟨Or.inr h1, h2⟩
      · rintro ⟨rfl | h1, h2⟩
        · exact absurd ha h2
        · exact ⟨h1, h2⟩
    · rw [if_neg ha, List.mem_cons, ih, List.mem_cons, List.mem_cons]
      constructor
      · rintro (rfl | ⟨h1, h2⟩)
        · exact ⟨Or.inl rfl, ha⟩
        · exact ⟨Or.inr h1, fun h => h2 (Or.inr h)⟩
      · rintro ⟨rfl | h1, h2⟩
        · exact Or.inl rfl
        · by_cases hx : x = a
          · exact Or.inl hx
          · exact Or.inr ⟨h1, fun h => h.elim hx h2⟩

theorem nodup_fresh : ∀ (l seen : List Nat), (fresh seen l).Nodup := by
  intro l
  induction l with
  | nil => intro seen; simp [fresh]
  | cons a as ih =>
    intro seen
    simp only [fresh]
    split
    · exact ih seen
    · refine List.nodup_cons.2 ⟨fun h => ?_, ih _⟩
      exact (mem_fresh.1 h).2 (by simp)

theorem fresh_sublist : ∀ (l seen : List Nat), (fresh seen l).Sublist l := by
  intro l
  induction l with
  | nil => intro seen; simp [fresh]
  | cons a as ih =>
    intro seen
    simp only [fresh]
    split
    · exact (ih seen).cons _
    · exact (ih _).cons_cons _

/-! ## Releasing children -/

theorem mem_pushReady {s : Store} {x y : Nat} {r : List Nat} : y ∈ pushReady s x r ↔ y = x ∨ y ∈ r := by
  unfold pushReady; rw [List.mem_orderedInsert]

theorem nodup_pushReady {s : Store} {x : Nat} {r : List Nat} (h : r.Nodup) (hx : x ∉ r) : (pushReady s x r).Nodup := by
  unfold pushReady
  rw [(List.perm_orderedInsert _ x r).nodup_iff]
  exact List.nodup_cons.2 ⟨hx, h⟩

/-- best first -/
def Desc (s : Store) (l : List Nat) : Prop := l.Pairwise (fun a b => heapKey s b ≤ heapKey s a)

theorem desc_pushReady {s : Store} {x : Nat} {r : List Nat} (h : Desc s r) : Desc s (pushReady s x r) := by
  unfold pushReady Desc
  have : Std.Total (fun a b => heapKey s b ≤ heapKey s a) := ⟨fun a b => le_total (heapKey s b) (heapKey s a)⟩
  have : IsTrans Nat (fun a b => heapKey s b ≤ heapKey s a) := ⟨fun a b c h1 h2 => le_trans h2 h1⟩
  exact List.Pairwise.orderedInsert x r h

theorem score_le_of_key {s : Store} {a b : Nat} (h : heapKey s b ≤ heapKey s a) : score s b ≤ score s a := by
  rcases Prod.Lex.le_iff.1 h with h1 | ⟨h1, -⟩
  · exact le_of_lt h1
  · exact le_of_eq h1

/-- a counter one lower; gone when it was one -/
def lower : Option Nat → Option Nat
  | some (n + 2) => some (n + 1)
  | _ => none

theorem release_spec {s : Store} : ∀ (cs : List Nat) (p : BMap Nat Nat) (r : List Nat), cs.Nodup → r.Nodup →
    (∀ c ∈ cs, p.get c ≠ some 0) → (∀ c m, p.get c = some m → c ∉ r) → Desc s r →
    ∃ p' r', release s cs p r = .ok (p', r') ∧ (∀ y, p'.get y = if y ∈ cs then lower (p.get y) else p.get y) ∧
      r'.Nodup ∧ Desc s r' ∧ (∀ y, y ∈ r' ↔ y ∈ r ∨ (y ∈ cs ∧ p.get y = some 1)) := by
  intro cs
  induction cs with
  | nil => intro p r _ hr _ _ hd; exact ⟨p, r, rfl, by simp, hr, hd, by simp⟩
  | cons c cs ih =>
    intro p r hn hr h0 hpr hd
    obtain ⟨hc, hcs⟩ := List.nodup_cons.1 hn
    simp only [release]
    cases hp : p.get c with
    | none =>
      obtain ⟨p', r', g1, g2, g3, g4, g5⟩ := ih p r hcs hr (fun d hd => h0 d (by simp [hd])) hpr hd
      refine ⟨p', r', g1, fun y => ?_, g3, g4, fun y => ?_⟩
      · rw [g2]
        by_cases hy : y = c
        · subst hy; simp [hc, hp, lower]
        · simp [hy]
      · rw [g5]
        by_cases hy : y = c
        · subst hy; simp [hc, hp]
        · simp [hy]
    | some m =>
      match m, hp with
      | 0, hp => exact absurd hp (h0 c (by simp))
      | 1, hp =>
        obtain ⟨p', r', g1, g2, g3, g4, g5⟩ := ih (p.erase c) (pushReady s c r) hcs
          (nodup_pushReady hr (hpr c 1 hp))
          (by
            intro d hd
            rw [BMap.get_erase, if_neg (by rintro rfl; exact hc hd)]
            exact h0 d (by simp [hd]))
          (by
            intro d m hdm
            rw [BMap.get_erase] at hdm
            split at hdm
            · simp at hdm
            · rename_i hdc
              rw [mem_pushReady]
              rintro (rfl | h1)
              · exact hdc rfl
              · exact hpr d m hdm h1)
          (desc_pushReady hd)
        refine ⟨p', r', g1, fun y => ?_, g3, g4, fun y => ?_⟩
        · rw [g2, BMap.get_erase]
          by_cases hy : y = c
          · subst hy; simp [hc, hp, lower]
          · simp [hy]
        · rw [g5, BMap.get_erase, mem_pushReady]
          by_cases hy : y = c
          · subst hy; simp [hp]
          · simp [hy]
      | m + 2, hp =>
        obtain ⟨p', r', g1, g2, g3, g4, g5⟩ := ih (p.insert c (m + 1)) r hcs hr
          (by
            intro d hd
            rw [BMap.get_insert, if_neg (by rintro rfl; exact hc hd)]
            exact h0 d (by simp [hd]))
          (by
            intro d k hdk
            rw [BMap.get_insert] at hdk
            split at hdk
            · rename_i hdc
              rw [hdc]; exact hpr c _ hp
            · exact hpr d k hdk)
          hd
        refine ⟨p', r', g1, fun y => ?_, g3, g4, fun y => ?_⟩
        · rw [g2, BMap.get_insert]
          by_cases hy : y = c
          · subst hy; simp [hc, hp, lower]
          · simp [hy]
        · rw [g5, BMap.get_insert]
          by_cases hy : y = c
          · subst hy; simp [hc, hp]
          · simp [hy]

theorem missing_zero {em : List Nat} {e : Entry} : missing em e = 0 ↔ ∀ p ∈ e.parents, p ∈ em := by
  unfold missing
  rw [List.length_eq_zero_iff, List.filter_eq_nil_iff]
  simp

theorem missing_cons {em : List Nat} {e : Entry} {x : Nat} (hn : e.parents.Nodup) (hx : x ∉ em) :
    missing em e = missing (x :: em) e + if x ∈ e.parents then 1 else 0 := by
  unfold missing
  generalize e.parents = l at hn
  induction l with
  | nil => simp
  | cons a as ih =>
    obtain ⟨ha, has⟩ := List.nodup_cons.1 hn
    have := ih has
    simp only [List.filter_cons, List.mem_cons]
    by_cases hax : a = x
    · subst hax
      simp only [hx, ha, or_false, not_false_eq_true, decide_true, if_true, true_or, not_true, decide_false,
        Bool.false_eq_true, if_false, List.length_cons] at this ⊢
      simp only [List.mem_cons] at this
      omega
    · have hxa : x ≠ a := fun h => hax h.symm
      by_cases hae : a ∈ em
      · simp only [hae, or_true, not_true, decide_false, Bool.false_eq_true, if_false, hxa, false_or]
        simpa [List.mem_cons] using this
      · simp only [hae, hax, or_false, not_false_eq_true, decide_true, if_true, hxa, false_or, List.length_cons]
        simp only [List.mem_cons] at this
        omega

theorem connectAll_snoc {V : Type} {connect : V → Tx → V × Bool} {t : Tx} : ∀ (l : List Tx) (v v' : V),
    connectAll connect l v = some v' → (connect v' t).2 = true →
    connectAll connect (l ++ [t]) v = some (connect v' t).1 := by
  intro l
  induction l with
  | nil =>
    intro v v' h1 h2
    simp only [connectAll, Option.some.injEq] at h1
    subst h1
    simp [connectAll, h2]
  | cons a as ih =>
    intro v v' h1 h2
    simp only [connectAll, List.cons_append] at h1 ⊢
    split at h1
    · rename_i hc
      rw [if_pos hc]
      exact ih _ _ h1 h2
    · simp at h1

end Verif.Mempool
