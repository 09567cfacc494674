import Verif.Chainstate.Invalidate

/-! # Choosing the best chain after an invalidation or a reset -/

namespace Verif.Chainstate
open Verif BlockTree Spec
open Verif.BlockStatus (Stage)
variable {L : Type} {env : Env L}

theorem shares_of_tree {s s' : Db L} (h : s'.tree = s.tree) {m a b} : Shares env s' m a b ↔ Shares env s m a b := by
  simp only [Shares, anc_of_tree h, height_of_tree h]

theorem Spec.Shares.symm {s : Db L} {m a b} (h : Shares env s m a b) : Shares env s m b a := by
  obtain ⟨c, h1, h2, h3⟩ := h; exact ⟨c, h2, h1, h3⟩

theorem Spec.Shares.mono {s : Db L} {m m' a b} (h : Shares env s m a b) (hm : m' ≤ m) : Shares env s m' a b := by
  obtain ⟨c, h1, h2, h3⟩ := h; exact ⟨c, h1, h2, by omega⟩

theorem Spec.Shares.trans {s : Db L} {m a b d} (h : Shares env s m a b) (h' : Shares env s m b d) : Shares env s m a d := by
  obtain ⟨x, h1, h2, h3⟩ := h
  obtain ⟨y, g1, g2, g3⟩ := h'
  rcases h2.total g1 with h | h
  · exact ⟨y, h1.trans h, g2, g3⟩
  · exact ⟨x, h1, g2.trans h, h3⟩

theorem Spec.Shares.desc {s : Db L} {m a b d} (h : Shares env s m a b) (h' : Anc env s d a) : Shares env s m d b := by
  obtain ⟨x, h1, h2, h3⟩ := h; exact ⟨x, h'.trans h1, h2, h3⟩

/-- removing a block that is not on the other side leaves the rest of the shared history -/
theorem Spec.Shares.prev {s : Db L} (ht : TInv env s) {m a b bad e} (h : Shares env s m a b) (he : s.index.get bad = some e) (ha : Anc env s a bad)
    (hn : ¬ Anc env s b bad) : Shares env s m e.idx.prev b := by
  obtain ⟨x, h1, h2, h3⟩ := h
  rcases ha.total h1 with h | h
  · rcases (ht.anc_iff he).1 h with rfl | h
    · exact absurd h2 hn
    · exact ⟨x, h, h2, h3⟩
  · exact absurd (h2.trans h) hn

theorem forkPoint_shares {s : Db L} (ht : TInv env s) (hb : Known env s s.best) {id x} (hx : s.gen env id = some x) (m : Nat) :
    ∃ z, s.forkPoint env x = .ok z ∧ (m ≤ z.height ↔ Shares env s m id s.best) := by
  obtain ⟨z, a, h1, h2, h3, h4, h5⟩ := ht.forkPoint_ok hb hx
  refine ⟨z, h1, ?_⟩
  constructor
  · intro h; exact ⟨a, h3, h4, by omega⟩
  · rintro ⟨c, g1, g2, g3⟩
    have := (ht.anc_height (h5 c g1 g2)).1
    omega

/-! ### the set of candidates -/

theorem mem_addItem {x y : Item} {l : List Item} : y ∈ addItem x l ↔ y = x ∨ y ∈ l := by
  unfold addItem
  split
  · rename_i h
    constructor
    · exact .inr
    · rintro (rfl | h')
      · exact h
      · exact h'
  · rw [List.mem_cons]

theorem bestItem_none : ∀ {l : List Item}, bestItem l = none → l = []
  | [], _ => rfl
  | x :: l, h => by
    rw [bestItem] at h
    cases hb : bestItem l <;> rw [hb] at h <;> cases h

theorem bestItem_some : ∀ {l : List Item} {x}, bestItem l = some x → x ∈ l ∧ ∀ y ∈ l, y.trust ≤ x.trust
  | [], _, h => by cases h
  | z :: l, x, h => by
    rw [bestItem] at h
    cases hb : bestItem l with
    | none =>
      rw [hb] at h; cases h
      rw [bestItem_none hb]; simp
    | some y =>
      rw [hb] at h
      obtain ⟨h1, h2⟩ := bestItem_some hb
      simp only [Option.some.injEq] at h
      split at h
      · rename_i hc
        subst h
        refine ⟨List.mem_cons_of_mem _ h1, ?_⟩
        intro w hw
        rcases List.mem_cons.1 hw with rfl | hw
        · simp only [Item.lt, Bool.or_eq_true, Bool.and_eq_true, decide_eq_true_eq] at hc
          omega
        · exact h2 w hw
      · rename_i hc
        subst h
        refine ⟨List.mem_cons_self .., ?_⟩
        intro w hw
        rcases List.mem_cons.1 hw with rfl | hw
        · exact Nat.le_refl _
        · have := h2 w hw
          simp only [Item.lt, Bool.or_eq_true, Bool.and_eq_true, decide_eq_true_eq] at hc
          omega

/-- the candidates and the blocks they cover -/
structure Cand (env : Env L) (now : Now) (m : Nat) (l : List Item) (s : Db L) : Prop where
  items : ∀ x ∈ l, ∃ e, s.index.get x.id = some e ∧ e.item = x ∧ e.status.ok = true ∧ m ≤ e.idx.trust ∧ Shares env s s.minHeight x.id s.best
  cover : ∀ y, s.genOk env y = true → m ≤ trust env s y → Shares env s s.minHeight y s.best →
    (∃ x ∈ l, Anc env s x.id y) ∨ ∃ f, now.fault f = true ∧ Anc env s y f

theorem candidateLoop_spec {s : Db L} (ht : TInv env s) (hb : Known env s s.best) (m : Nat) : ∀ (todo : List Entry) (done : List Entry) (l : List Item) (ps : List Nat),
    (∀ x ∈ todo, s.index.get x.idx.id = some x) → (∀ x ∈ done, s.index.get x.idx.id = some x) →
    (∀ x ∈ l, ∃ e, s.index.get x.id = some e ∧ e.item = x ∧ e.status.ok = true ∧ m ≤ e.idx.trust ∧ Shares env s s.minHeight x.id s.best) →
    (∀ p ∈ ps, ∃ e ∈ done, e.idx.prev = p ∧ e.status.ok = true ∧ m ≤ e.idx.trust) →
    (∀ e ∈ done, e.status.ok = true → m ≤ e.idx.trust → Shares env s s.minHeight e.idx.id s.best → ∃ x ∈ l, Anc env s x.id e.idx.id) →
    ∃ l' ps', s.candidateLoop env m todo (l, ps) = .ok (l', ps') ∧
      (∀ x ∈ l', ∃ e, s.index.get x.id = some e ∧ e.item = x ∧ e.status.ok = true ∧ m ≤ e.idx.trust ∧ Shares env s s.minHeight x.id s.best) ∧
      (∀ e ∈ done ++ todo, e.status.ok = true → m ≤ e.idx.trust → Shares env s s.minHeight e.idx.id s.best → ∃ x ∈ l', Anc env s x.id e.idx.id)
  | [], done, l, ps, _, _, h1, _, h3 => ⟨l, ps, rfl, h1, by simpa using h3⟩
  | e :: todo, done, l, ps, ht1, hd1, h1, h2, h3 => by
    have he := ht1 e (List.mem_cons_self ..)
    have hstep : ∃ l1 ps1, s.candidateStep env m e (l, ps) = .ok (l1, ps1) ∧
        (∀ x ∈ l1, ∃ e, s.index.get x.id = some e ∧ e.item = x ∧ e.status.ok = true ∧ m ≤ e.idx.trust ∧ Shares env s s.minHeight x.id s.best) ∧
        (∀ p ∈ ps1, ∃ e' ∈ done ++ [e], e'.idx.prev = p ∧ e'.status.ok = true ∧ m ≤ e'.idx.trust) ∧
        (∀ e' ∈ done ++ [e], e'.status.ok = true → m ≤ e'.idx.trust → Shares env s s.minHeight e'.idx.id s.best →
          ∃ x ∈ l1, Anc env s x.id e'.idx.id) := by
      unfold Db.candidateStep
      by_cases hc : (e.status.ok && decide (m ≤ e.idx.trust)) = true
      · rw [if_pos hc]
        simp only [Bool.and_eq_true, decide_eq_true_eq] at hc
        have hps : ∀ p ∈ e.idx.prev :: ps, ∃ e' ∈ done ++ [e], e'.idx.prev = p ∧ e'.status.ok = true ∧ m ≤ e'.idx.trust := by
          intro p hp
          rcases List.mem_cons.1 hp with rfl | hp
          · exact ⟨e, by simp, rfl, hc.1, hc.2⟩
          · obtain ⟨e', g1, g2⟩ := h2 p hp
            exact ⟨e', List.mem_append_left _ g1, g2⟩
        by_cases hin : e.idx.id ∈ ps
        · rw [if_pos hin]
          refine ⟨l, e.idx.prev :: ps, rfl, h1, hps, ?_⟩
          intro e' he' ho hm' hs
          rcases List.mem_append.1 he' with he' | he'
          · exact h3 e' he' ho hm' hs
          · simp only [List.mem_singleton] at he'; subst he'
            obtain ⟨c, g1, g2, g3, g4⟩ := h2 _ hin
            have hca : Anc env s c.idx.id e'.idx.id := by rw [← g2]; exact ht.anc_parent (hd1 c g1)
            obtain ⟨x, q1, q2⟩ := h3 c g1 g3 g4 (hs.desc hca)
            exact ⟨x, q1, q2.trans hca⟩
        · rw [if_neg hin]
          obtain ⟨z, hz, hz2⟩ := forkPoint_shares ht hb (gen_block (ht.ne_genesis he) he) s.minHeight
          refine ⟨if s.minHeight ≤ z.height then addItem e.item l else l, e.idx.prev :: ps, ?_, ?_, hps, ?_⟩
          · simp only [hz, bind, Except.bind, pure, Except.pure]
          · intro x hx
            split at hx
            · rename_i hcz
              rcases mem_addItem.1 hx with rfl | hx
              · exact ⟨e, he, rfl, hc.1, hc.2, hz2.1 hcz⟩
              · exact h1 x hx
            · exact h1 x hx
          · intro e' he' ho hm' hs
            rcases List.mem_append.1 he' with he' | he'
            · obtain ⟨x, q1, q2⟩ := h3 e' he' ho hm' hs
              refine ⟨x, ?_, q2⟩
              split
              · exact mem_addItem.2 (.inr q1)
              · exact q1
            · simp only [List.mem_singleton] at he'; subst he'
              rw [if_pos (hz2.2 hs)]
              exact ⟨e'.item, mem_addItem.2 (.inl rfl), anc_refl (known_of_get he)⟩
      · rw [if_neg hc]
        simp only [Bool.and_eq_true, decide_eq_true_eq] at hc
        refine ⟨l, ps, rfl, h1, ?_, ?_⟩
        · intro p hp
          obtain ⟨e', g1, g2⟩ := h2 p hp
          exact ⟨e', List.mem_append_left _ g1, g2⟩
        · intro e' he' ho hm' hs
          rcases List.mem_append.1 he' with he' | he'
          · exact h3 e' he' ho hm' hs
          · simp only [List.mem_singleton] at he'; subst he'
            exact absurd ⟨ho, hm'⟩ hc
    obtain ⟨l1, ps1, g1, g2, g3, g4⟩ := hstep
    obtain ⟨l2, ps2, q1, q2, q3⟩ := candidateLoop_spec ht hb m todo (done ++ [e]) l1 ps1 (fun x hx => ht1 x (List.mem_cons_of_mem _ hx))
      (by
        intro x hx
        rcases List.mem_append.1 hx with hx | hx
        · exact hd1 x hx
        · simp only [List.mem_singleton] at hx; subst hx; exact he) g2 g3 g4
    refine ⟨l2, ps2, ?_, q2, ?_⟩
    · rw [Db.candidateLoop]; simp only [g1, bind, Except.bind]; exact q1
    · intro e' he'; exact q3 e' (by simpa using he')

theorem candidates_ok {s : Db L} (hi : IBase env s) (hb : Known env s s.best) {m : Nat} (hm : 0 < m) (now : Now) :
    ∃ l, s.candidates env m = .ok l ∧ Cand env now m l s := by
  have ht := hi.tree
  obtain ⟨l, ps, h1, h2, h3⟩ := candidateLoop_spec ht hb m (s.higher s.minHeight).reverse [] [] [] (by
      intro x hx; rw [List.mem_reverse, mem_higher ht] at hx; exact hx.1) (by simp) (by simp) (by simp) (by simp)
  refine ⟨l, by simp only [Db.candidates, h1, bind, Except.bind, pure, Except.pure], ⟨h2, ?_⟩⟩
  intro y hy hmy hs
  left
  rcases known_cases (hs.choose_spec.1.known_left) with hg | ⟨e, he⟩
  · rw [hg, trust_genesis] at hmy; omega
  · have hid := ht.id_eq' he
    rw [genOk_block (ht.ne_genesis he) he] at hy
    rw [ht.trust_eq he] at hmy
    have hmem : e ∈ ([] ++ (s.higher s.minHeight).reverse : List Entry) := by
      rw [List.nil_append, List.mem_reverse, mem_higher ht, hid]
      refine ⟨he, ?_⟩
      obtain ⟨c, q1, q2, q3⟩ := hs
      have := (ht.anc_height q1).1
      rw [ht.height_eq he] at this; omega
    have := h3 e hmem hy hmy (by rw [hid]; exact hs)
    rw [hid] at this; exact this

/-! ### the loop -/

/-- one candidate dropped -/
theorem drop_cand {now : Now} {m : Nat} {l : List Item} {s s' : Db L} {bad x} {r : Entry} {ds : List Entry} (hm : 0 < m) (hi : IInv env s)
    (hc : Cand env now m l s) (hx : x ∈ l) (hbx : Anc env s x.id bad) (hnb : ¬ Main env s bad) (hr : s.index.get bad = some r)
    (hds : ∀ y, y ∈ ds ↔ s.index.get y.idx.id = some y ∧ Anc env s y.idx.id bad ∧ y.idx.id ≠ bad)
    (htree : s'.tree = s.tree) (hbest : s'.best = s.best) (hmin : s'.minHeight = s.minHeight)
    (hsame : ∀ y, ¬ Anc env s y bad → s'.index.get y = s.index.get y)
    (hok : ∀ y, s'.genOk env y = true → s.genOk env y = true ∧ (Anc env s y bad → now.fault bad = true)) :
    ∃ l', s'.removeTreeAddParent env m (r :: ds) l = .ok l' ∧ Cand env now m l' s' ∧ s'.weight l' < s.weight l := by
  have ht := hi.tree
  have hrid := ht.id_eq' hr
  -- the removed items
  have hrem : ∀ y ∈ l, y ∈ (r :: ds).map Entry.item ↔ Anc env s y.id bad := by
    intro y hy
    obtain ⟨e, h1, h2, -⟩ := hc.items y hy
    have heid := ht.id_eq' h1
    rw [List.mem_map]
    constructor
    · rintro ⟨z, hz, rfl⟩
      rcases List.mem_cons.1 hz with rfl | hz
      · show Anc env s z.idx.id bad
        rw [hrid]; exact anc_refl (known_of_get hr)
      · exact ((hds z).1 hz).2.1
    · intro ha
      refine ⟨e, ?_, h2⟩
      by_cases hyb : y.id = bad
      · rw [hyb, hr] at h1; cases h1; exact List.mem_cons_self ..
      · refine List.mem_cons_of_mem _ ((hds e).2 ?_)
        rw [heid]; exact ⟨h1, ha, hyb⟩
  have hprev := ht.parent hr
  have hnp : ¬ Anc env s r.idx.prev bad := by
    intro h; have := (ht.anc_height h).1; omega
  obtain ⟨ex, hx1, hx2, hx3, hx4, hx5⟩ := hc.items x hx
  have hxok : s.genOk env x.id = true := by rw [genOk_block (ht.ne_genesis hx1) hx1]; exact hx3
  have hpok : s.genOk env r.idx.prev = true := hi.ok_anc (hbx.trans (ht.anc_parent hr)) hxok
  have hpsh : Shares env s s.minHeight r.idx.prev s.best := hx5.prev ht hr hbx hnb
  -- every kept item is as before
  have hkeep : ∀ y ∈ l.filter (fun x => decide (x ∉ (r :: ds).map Entry.item)), y ∈ l ∧ ¬ Anc env s y.id bad := by
    intro y hy
    rw [List.mem_filter, decide_eq_true_eq] at hy
    exact ⟨hy.1, fun h => hy.2 ((hrem y hy.1).2 h)⟩
  have hitems : ∀ y ∈ l.filter (fun x => decide (x ∉ (r :: ds).map Entry.item)),
      ∃ e, s'.index.get y.id = some e ∧ e.item = y ∧ e.status.ok = true ∧ m ≤ e.idx.trust ∧ Shares env s' s'.minHeight y.id s'.best := by
    intro y hy
    obtain ⟨h1, h2⟩ := hkeep y hy
    obtain ⟨e, g1, g2, g3, g4, g5⟩ := hc.items y h1
    exact ⟨e, by rw [hsame _ h2]; exact g1, g2, g3, g4, by rw [shares_of_tree htree, hmin, hbest]; exact g5⟩
  -- coverage: by a kept item or by the parent
  have hcover : ∀ y, s'.genOk env y = true → m ≤ trust env s' y → Shares env s' s'.minHeight y s'.best →
      (∃ x ∈ l.filter (fun x => decide (x ∉ (r :: ds).map Entry.item)), Anc env s' x.id y) ∨ (∃ f, now.fault f = true ∧ Anc env s' y f) ∨
        Anc env s r.idx.prev y := by
    intro y h1 h2 h3
    obtain ⟨g1, g2⟩ := hok y h1
    rw [trust_of_tree htree] at h2
    rw [shares_of_tree htree, hmin, hbest] at h3
    by_cases hyb : Anc env s y bad
    · exact .inr (.inl ⟨bad, g2 hyb, (anc_of_tree htree).2 hyb⟩)
    · rcases hc.cover y g1 h2 h3 with ⟨z, hz, hza⟩ | ⟨f, hf, hfa⟩
      · by_cases hzb : Anc env s z.id bad
        · rcases hzb.total hza with h | h
          · rcases (ht.anc_iff hr).1 h with rfl | h
            · exact absurd (anc_refl (known_of_get hr)) hyb
            · exact .inr (.inr h)
          · exact absurd h hyb
        · refine .inl ⟨z, ?_, (anc_of_tree htree).2 hza⟩
          rw [List.mem_filter, decide_eq_true_eq]
          exact ⟨hz, fun h => hzb ((hrem z hz).1 h)⟩
      · exact .inr (.inl ⟨f, hf, (anc_of_tree htree).2 hfa⟩)
  -- weights
  have hweq : ∀ l1 : List Item, (∀ y ∈ l1, y ∈ l ∧ ¬ Anc env s y.id bad) → s'.weight l1 = s.weight l1 := by
    intro l1 hl1
    unfold Db.weight
    congr 1
    apply List.map_congr_left
    intro y hy
    rw [hsame _ (hl1 y hy).2]
  have hwx : s.weight [x] = height env s x.id + 1 := by
    simp [Db.weight, hx1, ht.height_eq hx1]
  have hfl : s.weight (l.filter (fun x => decide (x ∉ (r :: ds).map Entry.item))) + s.weight [x] ≤ s.weight l := by
    have hxr : x ∈ (r :: ds).map Entry.item := (hrem x hx).2 hbx
    clear hcover hitems hkeep hweq hrem hc
    generalize (r :: ds).map Entry.item = rm at hxr
    induction l with
    | nil => cases hx
    | cons z l ih =>
      have hcons : ∀ (z : Item) (l : List Item), s.weight (z :: l) = s.weight [z] + s.weight l := by
        intro z l; simp [Db.weight]
      rw [List.filter_cons]
      rcases List.mem_cons.1 hx with rfl | hx'
      · rw [if_neg (by simp [hxr]), hcons x l]
        have : s.weight (l.filter (fun x => decide (x ∉ rm))) ≤ s.weight l := by
          clear ih hx
          induction l with
          | nil => exact Nat.le_refl _
          | cons w l ih2 =>
            rw [List.filter_cons]
            split
            · rw [hcons w l, hcons w]; omega
            · rw [hcons w l]; omega
        omega
      · have := ih hx'
        split
        · rw [hcons z l, hcons z]; omega
        · rw [hcons z l]; omega
  have hhx := (ht.anc_height hbx).1
  unfold Db.removeTreeAddParent
  dsimp only
  by_cases hg : r.idx.prev = env.tree.genesisId
  · rw [if_pos hg]
    refine ⟨_, rfl, ⟨hitems, ?_⟩, ?_⟩
    · intro y h1 h2 h3
      rcases hcover y h1 h2 h3 with h | h | h
      · exact .inl h
      · exact .inr h
      · rw [hg] at h
        rw [anc_of_genesis h, trust_genesis] at h2; omega
    · rw [hweq _ hkeep]; omega
  · rw [if_neg hg]
    obtain ⟨p, hp⟩ := (ht.parent_cases hr).resolve_left hg
    have hpid := ht.id_eq' hp
    have hp' : s'.index.get r.idx.prev = some p := by rw [hsame _ hnp]; exact hp
    have hpokE : p.status.ok = true := by rw [genOk_block (ht.ne_genesis hp) hp] at hpok; exact hpok
    refine ⟨if m ≤ p.idx.trust then addItem p.item (l.filter (fun x => decide (x ∉ (r :: ds).map Entry.item)))
      else l.filter (fun x => decide (x ∉ (r :: ds).map Entry.item)), ?_, ⟨?_, ?_⟩, ?_⟩
    · simp only [hp', okOr, bind, Except.bind, pure, Except.pure]
    · intro y hy
      split at hy
      · rename_i hmp
        rcases mem_addItem.1 hy with rfl | hy
        · refine ⟨p, ?_, rfl, hpokE, hmp, ?_⟩
          · show s'.index.get p.idx.id = some p
            rw [hpid]; exact hp'
          · show Shares env s' s'.minHeight p.idx.id s'.best
            rw [shares_of_tree htree, hmin, hbest, hpid]; exact hpsh
        · exact hitems y hy
      · exact hitems y hy
    · intro y h1 h2 h3
      rcases hcover y h1 h2 h3 with ⟨z, hz, hza⟩ | h | h
      · refine .inl ⟨z, ?_, hza⟩
        split
        · exact mem_addItem.2 (.inr hz)
        · exact hz
      · exact .inr h
      · left
        have htr := ht.anc_trust h
        rw [trust_of_tree htree] at h2
        rw [ht.trust_eq hp] at htr
        rw [if_pos (by omega)]
        refine ⟨p.item, mem_addItem.2 (.inl rfl), ?_⟩
        show Anc env s' p.idx.id y
        rw [anc_of_tree htree, hpid]; exact h
    · have hle : s'.weight (if m ≤ p.idx.trust then addItem p.item (l.filter (fun x => decide (x ∉ (r :: ds).map Entry.item)))
          else l.filter (fun x => decide (x ∉ (r :: ds).map Entry.item))) ≤
          s'.weight (l.filter (fun x => decide (x ∉ (r :: ds).map Entry.item))) + (height env s r.idx.prev + 1) := by
        split
        · unfold addItem
          split
          · omega
          · have : s'.weight (p.item :: l.filter (fun x => decide (x ∉ (r :: ds).map Entry.item))) =
                (p.idx.height + 1) + s'.weight (l.filter (fun x => decide (x ∉ (r :: ds).map Entry.item))) := by
              have : s'.index.get p.item.id = some p := by show s'.index.get p.idx.id = some p; rw [hpid]; exact hp'
              simp [Db.weight, this]
            rw [this, ← ht.height_eq hp]; omega
        · omega
      rw [hweq _ hkeep] at hle
      omega

/-! ### validity -/

theorem led_unique {id l} (h : Led env id l) : ∀ {l'}, Led env id l' → l = l' := by
  induction h with
  | genesis => intro l' h'; cases h' with
    | genesis => rfl
    | block hn _ _ => exact absurd rfl hn
  | block hn _ hc ih => intro l' h'; cases h' with
    | genesis => exact absurd rfl hn
    | block _ h1 h2 => rw [ih h1, h2] at hc; exact (Option.some.inj hc).symm

theorem not_valid {id l} (hn : id ≠ env.tree.genesisId) (h : Led env (env.tree.body id).prev l) (hc : env.connect l id = none) : ¬ Valid env id := by
  rintro ⟨l', h'⟩
  cases h' with
  | genesis => exact hn rfl
  | block _ h1 h2 => rw [led_unique h1 h, hc] at h2; cases h2

theorem valid_anc {s : Db L} (ht : TInv env s) {a b} (h : Anc env s a b) (hv : Valid env a) : Valid env b := by
  have hk := h.known_left
  revert h hv
  refine ht.induct (P := fun a => Anc env s a b → Valid env a → Valid env b) ?_ ?_ a hk
  · intro h hv; rw [anc_of_genesis h]; exact hv
  · intro id e he ih h hv
    rcases (ht.anc_iff he).1 h with rfl | h
    · exact hv
    · refine ih h ?_
      obtain ⟨l, hl⟩ := hv
      cases hl with
      | genesis => exact absurd rfl (ht.ne_genesis he)
      | block _ h1 _ => rw [ht.prev_eq he]; exact ⟨_, h1⟩

/-- outcome of the search for the best chain -/
structure Switched (env : Env L) (now : Now) (s s' : Db L) : Prop where
  iinv : IInv env s'
  minv : MInv env s'
  tree : s'.tree = s.tree
  blocks : s'.blocks = s.blocks
  minHeight : s'.minHeight = s.minHeight
  okSub : ∀ x, s'.genOk env x = true → s.genOk env x = true
  blamed : ∀ x, s.genOk env x = true → s'.genOk env x = true ∨ ¬ Valid env x
  trust : trust env s s.best ≤ trust env s s'.best
  shares : s'.best = s.best ∨ Shares env s s.minHeight s'.best s.best
  max : ∀ x, s'.genOk env x = true → Shares env s s.minHeight x s'.best →
    Spec.trust env s x ≤ Spec.trust env s s'.best ∨ ∃ f, now.fault f = true ∧ Anc env s x f

theorem tryLoop_spec (hu : Undoes env) {now : Now} : ∀ (fuel : Nat) {l : List Item} {s : Db L}, IInv env s → MInv env s →
    Cand env now (trust env s s.best + 1) l s → s.weight l < fuel →
    ∃ s' b, Db.tryLoop env now (trust env s s.best + 1) fuel l s = (s', .ok b) ∧ Switched env now s s'
  | 0, _, _, _, _, _, hf => by omega
  | fuel + 1, l, s, hi, hm, hc, hf => by
    have ht := hi.tree
    rw [Db.tryLoop]
    cases hbi : bestItem l with
    | none =>
      refine ⟨s, false, rfl, hi, hm, rfl, rfl, rfl, fun _ h => h, fun _ h => .inl h, Nat.le_refl _, .inl rfl, ?_⟩
      intro x h1 h2
      rcases Nat.lt_or_ge (trust env s s.best) (trust env s x) with h | h
      · rcases hc.cover x h1 h h2 with ⟨y, hy, -⟩ | h
        · rw [bestItem_none hbi] at hy; cases hy
        · exact .inr h
      · exact .inl h
    | some x =>
      obtain ⟨hx1, hx2⟩ := bestItem_some hbi
      obtain ⟨e, he1, he2, he3, he4, he5⟩ := hc.items x hx1
      have heid := ht.id_eq' he1
      have hxt : x.trust = e.idx.trust := by rw [← he2]; rfl
      have hte := ht.trust_eq he1
      have hact := activate_spec (now := now) hu hi hm (e := e) (by rw [heid]; exact he1) he3
      simp only [Db.tryCandidate, he1, okOr, orOther, bind, Except.bind]
      revert hact
      cases s.activate env now e with
      | ok r =>
        obtain ⟨s1, b⟩ := r
        cases b with
        | false =>
          rintro ⟨-, h⟩
          rw [heid] at h; omega
        | true =>
          rintro ⟨a1, a2, a3, a4, a5⟩
          rw [heid] at a4
          refine ⟨s1, true, rfl, a1, a2, a3.tree, a3.blocks, a3.minHeight, fun y h => by rw [← a3.ok]; exact h,
            fun y h => .inl (by rw [a3.ok]; exact h), by rw [a4]; omega, .inr (by rw [a4]; exact he5), ?_⟩
          intro y h1 h2
          rw [a3.ok] at h1
          rw [a4] at h2 ⊢
          rcases Nat.lt_or_ge (trust env s s.best) (trust env s y) with h | h
          · rcases hc.cover y h1 h (h2.trans he5) with ⟨z, hz, hza⟩ | h
            · left
              obtain ⟨ez, hz1, hz2, -⟩ := hc.items z hz
              have h3 := hx2 z hz
              have h4 := ht.anc_trust hza
              have h5 := ht.trust_eq hz1
              have h6 : z.trust = ez.idx.trust := by rw [← hz2]; rfl
              omega
            · exact .inr h
          · left; omega
      | error re =>
        cases re with
        | other err => exact False.elim
        | connectFailed bad err =>
          rintro ⟨a1, a2, a3, -⟩
          rw [heid] at a1
          dsimp only
          have hbg : bad ≠ env.tree.genesisId := by rintro rfl; exact a2 (ht.anc_genesis hm.known)
          obtain ⟨r, hr⟩ := (known_cases a1.known_right).resolve_left hbg
          -- both ways of dropping the candidate
          have hdrop : ∃ s1 ds, s.dropCandidate env bad err = .ok (s1, r :: ds) ∧ IInv env s1 ∧ MInv env s1 ∧ s1.tree = s.tree ∧ s1.best = s.best ∧
              s1.minHeight = s.minHeight ∧ s1.blocks = s.blocks ∧ (∀ y, ¬ Anc env s y bad → s1.index.get y = s.index.get y) ∧
              (∀ y, s1.genOk env y = true → s.genOk env y = true ∧ (Anc env s y bad → now.fault bad = true)) ∧
              (∀ y, s.genOk env y = true → s1.genOk env y = true ∨ ¬ Valid env y) ∧
              (∀ y, y ∈ ds ↔ s.index.get y.idx.id = some y ∧ Anc env s y.idx.id bad ∧ y.idx.id ≠ bad) := by
            rcases a3 with ⟨rfl, hfl⟩ | ⟨rfl, l0, hl0, hcn⟩
            · obtain ⟨ds, g1, g2⟩ := branch_ok ht hr
              have hnm : s.inMain env bad = false := by
                cases h : s.inMain env bad with
                | false => rfl
                | true => exact absurd ((inMain_iff hi.toIBase hm bad).1 h) a2
              refine ⟨s, ds, ?_, hi, hm, rfl, rfl, rfl, rfl, fun _ _ => rfl, fun y h => ⟨h, fun _ => hfl⟩, fun y h => .inl h, g2⟩
              have hcl : (Err.storage.classify).shouldInvalidate = false := rfl
              simp only [Db.dropCandidate, hcl, Db.staleBranch, hnm, ensure, Bool.not_false, if_true, g1, bind, Except.bind, pure, Except.pure,
                Bool.false_eq_true, if_false]
            · obtain ⟨s1, ds, g1, g2, g3⟩ := invalidateStale_ok hi.toIBase hm hr a2 false
              have hcl : (Err.badBlock.classify).shouldInvalidate = true := rfl
              refine ⟨s1, ds, by rw [Db.dropCandidate, if_pos hcl, g1], g2.iinv hi, g2.minv hm a2, g2.tree, g2.best, g2.minHeight, g2.blocks, g2.others, ?_, ?_, g3⟩
              · intro y hy
                obtain ⟨q1, q2⟩ := (g2.ok_iff hi.toIBase hbg y).1 hy
                exact ⟨q1, fun h => absurd h q2⟩
              · intro y hy
                by_cases ha : Anc env s y bad
                · exact .inr (fun hv => not_valid hbg hl0 hcn (valid_anc ht ha hv))
                · exact .inl ((g2.ok_iff hi.toIBase hbg y).2 ⟨hy, ha⟩)
          obtain ⟨s1, ds, d1, d2, d3, d4, d5, d6, d7, d8, d9, d10, d11⟩ := hdrop
          obtain ⟨l', q1, q2, q3⟩ := drop_cand (s' := s1) (by omega) hi hc hx1 a1 a2 hr d11 d4 d5 d6 d8 d9
          have htr : trust env s1 s1.best = trust env s s.best := by rw [d5, trust_of_tree d4]
          rw [← htr] at q2
          obtain ⟨s2, b, r1, r2⟩ := tryLoop_spec hu fuel d2 d3 q2 (by omega)
          rw [htr] at r1
          refine ⟨s2, b, ?_, ?_⟩
          · rw [d1]; dsimp only; rw [q1]; exact r1
          · refine ⟨r2.iinv, r2.minv, r2.tree.trans d4, r2.blocks.trans d7, r2.minHeight.trans d6, fun y h => (d9 y (r2.okSub y h)).1, ?_, ?_, ?_, ?_⟩
            · intro y h
              rcases d10 y h with h | h
              · exact r2.blamed y h
              · exact .inr h
            · have := r2.trust
              rw [trust_of_tree d4, trust_of_tree d4, d5] at this; exact this
            · rcases r2.shares with h | h
              · exact .inl (h.trans d5)
              · rw [shares_of_tree d4, d6, d5] at h; exact .inr h
            · intro y h1 h2
              have := r2.max y h1 (by rw [shares_of_tree d4, d6]; exact h2)
              rw [trust_of_tree d4, trust_of_tree d4] at this
              simpa only [anc_of_tree d4] using this

theorem findBest_spec (hu : Undoes env) (now : Now) {s : Db L} (hi : IInv env s) (hm : MInv env s) :
    ∃ s' b, s.findBest env now = (s', .ok b) ∧ Switched env now s s' := by
  obtain ⟨b, hb⟩ := known_gen.1 hm.known
  have hbt := gen_trust hb
  obtain ⟨l, hl, hc⟩ := candidates_ok hi.toIBase hm.known (m := trust env s s.best + 1) (by omega) now
  obtain ⟨s', r, h1, h2⟩ := tryLoop_spec hu (s.weight l + 1) hi hm hc (by omega)
  refine ⟨s', r, ?_, h2⟩
  simp only [Db.findBest, Db.bestIndex, hb, okOr, hbt, hl]; exact h1

end Verif.Chainstate
