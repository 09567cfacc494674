import Verif.Chainstate.History

/-! # The node's own consistency check succeeds -/

namespace Verif.Chainstate
open Verif BlockTree Spec
open Verif.BlockStatus (Stage)
variable {L : Type} {env : Env L}

theorem pairsAll_sorted {V : Type} {p : Nat × V → Nat × V → Bool} : ∀ {l : List (Nat × V)}, l.Pairwise (fun a b => a.1 < b.1) →
    (∀ a ∈ l, ∀ b ∈ l, a.1 < b.1 → (∀ c ∈ l, c.1 ≤ a.1 ∨ b.1 ≤ c.1) → p a b = true) → pairsAll p l = true
  | [], _, _ => rfl
  | [_], _, _ => rfl
  | a :: b :: l, hs, h => by
    obtain ⟨h1, h2⟩ := List.pairwise_cons.1 hs
    obtain ⟨h3, h4⟩ := List.pairwise_cons.1 h2
    rw [pairsAll, Bool.and_eq_true]
    constructor
    · refine h a (by simp) b (by simp) (h1 b (by simp)) ?_
      intro c hc
      rcases List.mem_cons.1 hc with rfl | hc
      · exact .inl (Nat.le_refl _)
      · rcases List.mem_cons.1 hc with rfl | hc
        · exact .inr (Nat.le_refl _)
        · exact .inr (Nat.le_of_lt (h3 c hc))
    · refine pairsAll_sorted h2 ?_
      intro x hx y hy hxy hc
      refine h x (List.mem_cons_of_mem _ hx) y (List.mem_cons_of_mem _ hy) hxy ?_
      intro c hc'
      rcases List.mem_cons.1 hc' with rfl | hc'
      · exact .inl (Nat.le_of_lt (h1 x hx))
      · exact hc c hc'

theorem getLast_sorted {V : Type} : ∀ {l : List (Nat × V)} {x}, l.Pairwise (fun a b => a.1 < b.1) → x ∈ l → (∀ y ∈ l, y.1 ≤ x.1) → l.getLast? = some x
  | [], _, _, hx, _ => by cases hx
  | [a], x, _, hx, _ => by simp only [List.mem_singleton] at hx; subst hx; rfl
  | a :: b :: l, x, hs, hx, hm => by
    obtain ⟨h1, h2⟩ := List.pairwise_cons.1 hs
    rw [List.getLast?_cons_cons]
    refine getLast_sorted h2 ?_ (fun y hy => hm y (List.mem_cons_of_mem _ hy))
    rcases List.mem_cons.1 hx with rfl | hx
    · have h3 := h1 b (by simp)
      have h4 := hm b (by simp)
      omega
    · exact hx

theorem SInv.last {s : Db L} (h : SInv env s) : s.byHeight.entries.getLast? = some (height env s s.best, s.best) := by
  refine getLast_sorted s.byHeight.sorted (BMap.mem_entries.2 ((h.m.heights _ _).2 ⟨anc_refl h.m.known, rfl⟩)) ?_
  rintro ⟨k, v⟩ hv
  obtain ⟨h1, h2⟩ := (h.m.heights _ _).1 (BMap.mem_entries.1 hv)
  have := (h.i.tree.anc_height h1).1
  show k ≤ height env s s.best
  omega

theorem SInv.entryConsistent {s : Db L} (h : SInv env s) {id e} (he : s.index.get id = some e) : s.entryConsistent env id e = true := by
  have hi := h.i
  unfold Db.entryConsistent
  have h1 : (if (s.blocks.get id).isSome then e.persisted else !e.persisted && !e.status.ok) = true := by
    by_cases hp : e.persisted = true
    · rw [if_pos ((hi.pers id e he).1 hp)]; exact hp
    · rw [if_neg (fun hc => hp ((hi.pers id e he).2 hc))]
      simp only [Bool.and_eq_true, Bool.not_eq_true']
      refine ⟨by simpa using hp, ?_⟩
      cases ho : e.status.ok with
      | false => rfl
      | true => exact absurd (hi.okp id e he ho) hp
  have h2 : (if e.idx.prev = env.tree.genesisId then true else match s.index.get e.idx.prev with
    | none => false
    | some p => (!e.persisted || p.persisted) && (!e.status.ok || p.status.ok) && decide (e.status.stage.toNat ≤ p.status.stage.toNat)) = true := by
    split
    · rfl
    · rename_i hg
      obtain ⟨p, hp⟩ := (hi.tree.parent_cases he).resolve_left hg
      obtain ⟨q1, q2, q3⟩ := hi.parent id e p he hp
      rw [hp]
      dsimp only
      simp only [Bool.and_eq_true, Bool.or_eq_true, Bool.not_eq_true', decide_eq_true_eq]
      refine ⟨⟨?_, ?_⟩, q3⟩
      · cases hh : e.persisted with
        | false => exact .inl rfl
        | true => exact .inr (q1 hh)
      · cases hh : e.status.ok with
        | false => exact .inl rfl
        | true => exact .inr (q2 hh)
  rw [Bool.and_eq_true, Bool.and_eq_true]
  exact ⟨⟨h1, decide_eq_true (hi.tree.id_eq' he)⟩, h2⟩

theorem SInv.consistent {s : Db L} (h : SInv env s) : s.consistent env = true := by
  have hi := h.i
  have hm := h.m
  unfold Db.consistent
  simp only [Bool.and_eq_true, List.all_eq_true, decide_eq_true_eq]
  refine ⟨⟨⟨⟨?_, ?_⟩, ?_⟩, ?_⟩, ?_⟩
  · rintro ⟨k, v⟩ hk
    obtain ⟨e, he⟩ := hi.blk k (by rw [BMap.mem_entries.1 hk]; rfl)
    rw [he]; rfl
  · rintro ⟨k, v⟩ hk
    exact h.entryConsistent (BMap.mem_entries.1 hk)
  · exact (hm.heights _ _).2 ⟨hi.tree.anc_genesis hm.known, height_genesis s⟩
  · rw [h.last]; rfl
  · refine pairsAll_sorted s.byHeight.sorted ?_
    rintro ⟨ha, a⟩ ha' ⟨hb, b⟩ hb' hlt hbetween
    obtain ⟨a1, a2⟩ := (hm.heights _ _).1 (BMap.mem_entries.1 ha')
    obtain ⟨b1, b2⟩ := (hm.heights _ _).1 (BMap.mem_entries.1 hb')
    dsimp only at hlt
    have hsucc : hb = ha + 1 := by
      obtain ⟨c, c1, c2⟩ := hi.tree.anc_at hm.known (ha + 1) (by have := (hi.tree.anc_height b1).1; omega)
      have := hbetween (ha + 1, c) (BMap.mem_entries.2 ((hm.heights _ _).2 ⟨c1, c2⟩))
      dsimp only at this; omega
    have hbg : b ≠ env.tree.genesisId := by rintro rfl; rw [height_genesis] at b2; omega
    obtain ⟨e, he⟩ := (known_cases b1.known_right).resolve_left hbg
    obtain ⟨f1, f2⟩ := hm.full b e b1 he
    have hprev : e.idx.prev = a := by
      refine hi.tree.anc_unique (b1.trans (hi.tree.anc_parent he)) a1 ?_
      have := (hi.tree.parent he).2.1; omega
    unfold Db.heightConsistent
    dsimp only
    rw [he]
    simp [hsucc, hbg, hprev, f1, f2, hi.okp b e he f1]

theorem minHeight_process (hu : Undoes env) {s : Db L} (h : Later env IsProcess (Db.init env) s) : height env s s.best - env.maxDepth ≤ s.minHeight := by
  induction h with
  | refl => show height env (Db.init env) env.tree.genesisId - _ ≤ _; rw [height_genesis]; omega
  | step op hl hon hp ih =>
    rename_i s
    have hs := later_sinv hu sinv_init hl
    cases op with
    | invalidate id now => exact hon.elim
    | reset id now => exact hon.elim
    | process id now =>
      rcases process_spec (now := now) hu hs.i hs.m hp with ⟨s', r, h1, h2⟩ | ⟨s', e, h1, h2, -⟩
      · simp only [step, h1]
        rw [h2.minHeight]; omega
      · simp only [step, h1]
        rw [h2.minHeight, h2.best, h2.grows.height hs.m.known]; exact ih

end Verif.Chainstate
