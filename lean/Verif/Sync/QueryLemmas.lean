import Verif.Sync.QuerySpec
import Verif.Chainstate.History

/-!
# Lemmas on locators and header lists
-/

namespace Verif.Sync
open Verif Verif.Chainstate Verif.Chainstate.Spec
open Verif.BlockTree hiding Err

variable {L : Type} {env : Env L}

/-! ### distances -/

theorem mem_distances_pow (h : Nat) : ∀ (f k d : Nat), h < 2 ^ (k + f) → (d ∈ distances h f (2 ^ k) ↔ d ≤ h ∧ ∃ j, k ≤ j ∧ d = 2 ^ j)
  | 0, k, d, hh => by
    simp only [distances, List.not_mem_nil, false_iff]
    rintro ⟨h1, j, h2, rfl⟩
    have := Nat.pow_le_pow_right (n := 2) (by omega) h2
    rw [Nat.add_zero] at hh
    omega
  | f + 1, k, d, hh => by
    simp only [distances]
    have hp : 0 < 2 ^ k := Nat.two_pow_pos k
    have hm : max 1 (2 ^ k * 2) = 2 ^ (k + 1) := by rw [Nat.pow_succ]; omega
    split
    · rename_i hk
      rw [List.mem_cons, hm, mem_distances_pow h f (k + 1) d (by rw [show k + 1 + f = k + (f + 1) by omega]; exact hh)]
      constructor
      · rintro (rfl | ⟨h1, j, h2, h3⟩)
        · exact ⟨hk, k, Nat.le_refl _, rfl⟩
        · exact ⟨h1, j, by omega, h3⟩
      · rintro ⟨h1, j, h2, h3⟩
        rcases Nat.lt_or_ge k j with hj | hj
        · exact .inr ⟨h1, j, by omega, h3⟩
        · have : j = k := by omega
          subst this
          exact .inl h3
    · rename_i hk
      simp only [List.not_mem_nil, false_iff]
      rintro ⟨h1, j, h2, rfl⟩
      have := Nat.pow_le_pow_right (n := 2) (by omega) h2
      omega

theorem distances_sorted (h : Nat) : ∀ (f d : Nat), (distances h f d).Pairwise (· < ·) ∧ ∀ x ∈ distances h f d, d ≤ x
  | 0, _ => by simp [distances]
  | f + 1, d => by
    simp only [distances]
    split
    · obtain ⟨h1, h2⟩ := distances_sorted h f (max 1 (d * 2))
      constructor
      · rw [List.pairwise_cons]
        exact ⟨fun x hx => by have := h2 x hx; omega, h1⟩
      · intro x hx
        rcases List.mem_cons.1 hx with rfl | hx
        · exact Nat.le_refl _
        · have := h2 x hx; omega
    · simp

theorem mem_distances (h d : Nat) : d ∈ distances h (h + 2) 0 ↔ d ≤ h ∧ Sparse d := by
  have h1 : distances h (h + 2) 0 = 0 :: distances h (h + 1) (2 ^ 0) := by simp [distances]
  have h2 : h < 2 ^ (0 + (h + 1)) := by
    have := @Nat.lt_two_pow_self (0 + (h + 1))
    omega
  rw [h1, List.mem_cons, mem_distances_pow h _ _ _ h2]
  unfold Sparse
  constructor
  · rintro (rfl | ⟨h3, j, -, rfl⟩)
    · exact ⟨Nat.zero_le _, .inl rfl⟩
    · exact ⟨h3, .inr ⟨j, rfl⟩⟩
  · rintro ⟨h3, rfl | ⟨j, rfl⟩⟩
    · exact .inl rfl
    · exact .inr ⟨h3, j, Nat.zero_le _, rfl⟩

theorem mem_locatorHeights (h k : Nat) : k ∈ locatorHeights h ↔ k ≤ h ∧ Sparse (h - k) := by
  unfold locatorHeights
  rw [List.mem_map]
  constructor
  · rintro ⟨d, hd, rfl⟩
    obtain ⟨h1, h2⟩ := (mem_distances h d).1 hd
    refine ⟨Nat.sub_le _ _, ?_⟩
    rw [show h - (h - d) = d by omega]
    exact h2
  · rintro ⟨h1, h2⟩
    exact ⟨h - k, (mem_distances h _).2 ⟨Nat.sub_le _ _, h2⟩, by omega⟩

theorem locatorHeights_sorted (h : Nat) : (locatorHeights h).Pairwise (fun a b => b < a) := by
  unfold locatorHeights
  rw [List.pairwise_map]
  have h1 := (distances_sorted h (h + 2) 0).1
  refine (List.pairwise_iff_forall_sublist.2 ?_)
  intro a b hab
  have h2 := List.pairwise_iff_forall_sublist.1 h1 hab
  have ha := ((mem_distances h a).1 (hab.subset (by simp))).1
  have hb := ((mem_distances h b).1 (hab.subset (by simp))).1
  omega

theorem locatorHeights_ne (h : Nat) : locatorHeights h ≠ [] := by
  intro hh
  have := (mem_locatorHeights h h).2 ⟨Nat.le_refl _, .inl (by omega)⟩
  rw [hh] at this
  cases this

theorem distances_length (h : Nat) : ∀ (f k n : Nat), h < 2 ^ (k + n) → (distances h f (2 ^ k)).length ≤ n
  | 0, _, _, _ => Nat.zero_le _
  | f + 1, k, n, hn => by
    simp only [distances]
    have hp : 0 < 2 ^ k := Nat.two_pow_pos k
    have hm : max 1 (2 ^ k * 2) = 2 ^ (k + 1) := by rw [Nat.pow_succ]; omega
    split
    · rename_i hk
      cases n with
      | zero => rw [Nat.add_zero] at hn; omega
      | succ n =>
        rw [hm, List.length_cons]
        have := distances_length h f (k + 1) n (by rw [show k + 1 + n = k + (n + 1) by omega]; exact hn)
        omega
    · exact Nat.zero_le _

/-- a locator is short: for a height below 2^n it has at most n + 1 entries -/
theorem locatorHeights_length {h n : Nat} (hn : h < 2 ^ n) : (locatorHeights h).length ≤ n + 1 := by
  unfold locatorHeights
  rw [List.length_map]
  have h1 : distances h (h + 2) 0 = 0 :: distances h (h + 1) (2 ^ 0) := by simp [distances]
  rw [h1, List.length_cons]
  have := distances_length h (h + 1) 0 n (by rw [Nat.zero_add]; exact hn)
  omega

/-- a sparse distance between a number and its double -/
theorem exists_sparse {x : Nat} : ∃ d, Sparse d ∧ x ≤ d ∧ (d = x ∨ d < 2 * x) := by
  rcases Nat.eq_zero_or_pos x with rfl | hx
  · exact ⟨0, .inl rfl, Nat.le_refl _, .inl rfl⟩
  · have h1 := Nat.lt_log2_self (n := x)
    have h2 := Nat.log2_self_le (n := x) (by omega)
    rcases Nat.eq_or_lt_of_le h2 with h | h
    · exact ⟨2 ^ x.log2, .inr ⟨_, rfl⟩, by omega, .inl h⟩
    · refine ⟨2 ^ (x.log2 + 1), .inr ⟨_, rfl⟩, by omega, .inr ?_⟩
      rw [Nat.pow_succ]
      omega

/-! ### the main chain -/

theorem main_at {s : Db L} (hs : SInv env s) {h : Nat} (hh : h ≤ height env s s.best) : ∃ id, s.byHeight.get h = some id ∧ Main env s id ∧ height env s id = h := by
  obtain ⟨b, h1, h2⟩ := hs.i.tree.anc_at hs.m.known h hh
  exact ⟨b, (hs.m.heights h b).2 ⟨h1, h2⟩, h1, h2⟩

theorem bestIndex_ok {s : Db L} (hs : SInv env s) : ∃ g, s.bestIndex env = .ok g ∧ s.gen env s.best = some g ∧ g.height = height env s s.best := by
  obtain ⟨g, hg⟩ := known_gen.1 hs.m.known
  exact ⟨g, by unfold Db.bestIndex; rw [hg]; rfl, hg, gen_height hg⟩

theorem inMain_iff {s : Db L} (hs : SInv env s) (id : Nat) : s.inMain env id = true ↔ Main env s id := by
  unfold Db.inMain
  by_cases hg : id = env.tree.genesisId
  · subst hg
    rw [if_pos rfl]
    exact ⟨fun _ => hs.i.tree.anc_genesis hs.m.known, fun _ => rfl⟩
  · rw [if_neg hg]
    cases he : s.index.get id with
    | none =>
      constructor
      · intro h; cases h
      · intro h
        rcases known_cases h.known_right with h | ⟨e, h⟩
        · exact absurd h hg
        · rw [he] at h; cases h
    | some e =>
      simp only [decide_eq_true_eq]
      rw [hs.m.heights, hs.i.tree.height_eq he]
      exact ⟨fun h => h.1, fun h => ⟨h, rfl⟩⟩

/-! ### agreement of two nodes on the tree -/

theorem height_env {s1 s2 : Db L} (h1 : TInv env s1) (h2 : TInv env s2) : ∀ x, Known env s1 x → Known env s2 x → height env s1 x = height env s2 x := by
  intro x hx
  refine h1.induct (P := fun x => Known env s2 x → height env s1 x = height env s2 x) ?_ ?_ x hx
  · intro _; rw [height_genesis, height_genesis]
  · intro id e he ih hk
    obtain ⟨e2, he2⟩ := (known_cases hk).resolve_left (h1.ne_genesis he)
    have hpe : e.idx.prev = e2.idx.prev := by rw [h1.prev_eq he, h2.prev_eq he2]
    have := ih (by rw [hpe]; exact (h2.parent he2).1)
    have a1 := (h1.parent he).2.1
    have a2 := (h2.parent he2).2.1
    rw [← hpe] at a2
    omega

theorem anc_env {s1 s2 : Db L} (h1 : TInv env s1) (h2 : TInv env s2) {x y : Nat} (k1 : Known env s1 x) (k2 : Known env s2 x) : Anc env s1 x y ↔ Anc env s2 x y := by
  refine h1.induct (P := fun x => Known env s2 x → (Anc env s1 x y ↔ Anc env s2 x y)) ?_ ?_ x k1 k2
  · intro _
    constructor
    · intro h; rw [anc_of_genesis h]; exact anc_refl (known_genesis _)
    · intro h; rw [anc_of_genesis h]; exact anc_refl (known_genesis _)
  · intro id e he ih hk
    obtain ⟨e2, he2⟩ := (known_cases hk).resolve_left (h1.ne_genesis he)
    have hpe : e.idx.prev = e2.idx.prev := by rw [h1.prev_eq he, h2.prev_eq he2]
    have := ih (by rw [hpe]; exact (h2.parent he2).1)
    rw [h1.anc_iff he, h2.anc_iff he2, this, hpe]

/-! ### locators -/

/-- ancestors of a block at the given heights -/
def AtHeights (env : Env L) (s : Db L) (x : Nat) : List Nat → List Nat → Prop := List.Forall₂ (fun h y => Anc env s x y ∧ height env s y = h)

theorem AtHeights.mem {s : Db L} (ht : TInv env s) {x : Nat} {hs l : List Nat} (h : AtHeights env s x hs l) (y : Nat) : y ∈ l ↔ Anc env s x y ∧ height env s y ∈ hs := by
  unfold AtHeights at h
  induction h with
  | nil => simp
  | @cons k z ks zs h1 _ ih =>
    rw [List.mem_cons, ih, List.mem_cons]
    constructor
    · rintro (rfl | ⟨h2, h3⟩)
      · exact ⟨h1.1, .inl h1.2⟩
      · exact ⟨h2, .inr h3⟩
    · rintro ⟨h2, h3 | h3⟩
      · exact .inl (ht.anc_unique h2 h1.1 (by rw [h3, h1.2]))
      · exact .inr ⟨h2, h3⟩

theorem AtHeights.sorted {s : Db L} {x : Nat} {hs l : List Nat} (h : AtHeights env s x hs l) (hp : hs.Pairwise (fun a b => b < a)) :
    l.Pairwise (fun a b => height env s b < height env s a) := by
  unfold AtHeights at h
  induction h with
  | nil => exact List.Pairwise.nil
  | @cons k z ks zs h1 h2 ih =>
    rw [List.pairwise_cons] at hp ⊢
    refine ⟨?_, ih hp.2⟩
    intro y hy
    obtain ⟨i, hi, rfl⟩ := List.mem_iff_getElem.1 hy
    have := (List.forall₂_iff_get.1 h2).2 i (by rw [h2.length_eq]; exact hi) hi
    simp only [List.get_eq_getElem] at this
    rw [this.2, h1.2]
    exact hp.1 _ (List.getElem_mem _)

theorem AtHeights.isLocator {s : Db L} (ht : TInv env s) {x : Nat} {l : List Nat} (h : AtHeights env s x (locatorHeights (height env s x)) l) : IsLocator env s x l := by
  refine ⟨?_, h.sorted (locatorHeights_sorted _)⟩
  intro y
  rw [h.mem ht, mem_locatorHeights]
  constructor
  · rintro ⟨h1, -, h2⟩; exact ⟨h1, h2⟩
  · rintro ⟨h1, h2⟩; exact ⟨h1, (ht.anc_height h1).1, h2⟩

theorem filterMap_main {s : Db L} (hs : SInv env s) : ∀ ks : List Nat, (∀ k ∈ ks, k ≤ height env s s.best) → AtHeights env s s.best ks (ks.filterMap s.byHeight.get)
  | [], _ => List.Forall₂.nil
  | k :: ks, h => by
    obtain ⟨id, h1, h2, h3⟩ := main_at hs (h k (by simp))
    rw [List.filterMap_cons_some h1]
    exact List.Forall₂.cons ⟨h2, h3⟩ (filterMap_main hs ks (fun k hk => h k (by simp [hk])))

theorem locatorFromBest_ok {s : Db L} (hs : SInv env s) : ∃ l, locatorFromBest env s = .ok l ∧ AtHeights env s s.best (locatorHeights (height env s s.best)) l := by
  obtain ⟨g, h1, -, h2⟩ := bestIndex_ok hs
  refine ⟨locatorFromHeight s g.height, ?_, ?_⟩
  · unfold locatorFromBest
    rw [h1]; rfl
  · rw [h2]
    exact filterMap_main hs _ (fun k hk => ((mem_locatorHeights _ k).1 hk).1)

theorem locatorLoop_ok {s : Db L} (hs : SInv env s) {x : Nat} : ∀ (ks : List Nat) (a : Nat) (g : Gen) (m : Bool), s.gen env a = some g → Anc env s x a →
    (m = true → Main env s a) → ks.Pairwise (fun a b => b < a) → (∀ k ∈ ks, k ≤ height env s a) → ∃ l, locatorLoop env s (g, m) ks = .ok l ∧ AtHeights env s x ks l
  | [], _, _, _, _, _, _, _, _ => ⟨[], rfl, List.Forall₂.nil⟩
  | k :: ks, a, g, m, hg, hx, hm, hp, hk => by
    rw [List.pairwise_cons] at hp
    have hgh := gen_height hg
    have hgi : g.id env.tree = a := hs.i.tree.id_eq hg
    have hka := hk k (by simp)
    by_cases hM : Main env s a
    · -- on the main chain
      have hmm : (m || decide (s.byHeight.get g.height = some (g.id env.tree))) = true := by
        rw [Bool.or_eq_true, decide_eq_true_eq, hgi]
        exact .inr ((hs.m.heights _ _).2 ⟨hM, hgh.symm⟩)
      have hb := (hs.i.tree.anc_height hM).1
      obtain ⟨id, h1, h2, h3⟩ := main_at hs (h := k) (by omega)
      obtain ⟨l, h4, h5⟩ := locatorLoop_ok hs ks a g true hg hx (fun _ => hM) hp.2 (fun k' hk' => hk k' (by simp [hk']))
      refine ⟨id :: l, ?_, List.Forall₂.cons ⟨hx.trans ?_, h3⟩ h5⟩
      · simp only [locatorLoop, locatorStep, hmm, if_true, h1, bind, Except.bind, h4, pure, Except.pure]
      · rcases hM.total h2 with h | h
        · exact h
        · have := (hs.i.tree.anc_height h)
          rw [← this.2 (by omega)]
          exact anc_refl hM.known_right
    · have hmf : m = false := by
        cases m with
        | false => rfl
        | true => exact absurd (hm rfl) hM
      have hmm : (m || decide (s.byHeight.get g.height = some (g.id env.tree))) = false := by
        rw [hmf, Bool.false_or, decide_eq_false_iff_not, hgi]
        intro h
        exact hM ((hs.m.heights _ _).1 h).1
      obtain ⟨y, b, h1, h2, h3, h4⟩ := getAncestor_ok hs.i.tree hg (h := k) (by omega)
      have hb : height env s b = k := by rw [← gen_height h3]; exact h4
      have hab : Anc env s a b := ⟨_, h2⟩
      obtain ⟨l, h5, h6⟩ := locatorLoop_ok hs ks b y false h3 (hx.trans hab) (by intro h; cases h) hp.2
        (fun k' hk' => by rw [hb]; exact Nat.le_of_lt (hp.1 k' hk'))
      refine ⟨b :: l, ?_, List.Forall₂.cons ⟨hx.trans hab, hb⟩ h6⟩
      simp only [locatorLoop, locatorStep, hmm, Bool.false_eq_true, if_false, h1, bind, Except.bind, h5, pure, Except.pure, hs.i.tree.id_eq h3]

theorem locatorFromBlock_ok {s : Db L} (hs : SInv env s) {x : Nat} (hx : Known env s x) :
    ∃ l, locatorFromBlock env s x = .ok l ∧ AtHeights env s x (locatorHeights (height env s x)) l := by
  obtain ⟨g, hg⟩ := known_gen.1 hx
  obtain ⟨l, h1, h2⟩ := locatorLoop_ok hs (x := x) (locatorHeights (height env s x)) x g false hg (anc_refl hx) (by intro h; cases h)
    (locatorHeights_sorted _) (fun k hk => ((mem_locatorHeights _ k).1 hk).1)
  refine ⟨l, ?_, h2⟩
  unfold locatorFromBlock
  rw [hg]
  show locatorLoop env s (g, false) (locatorHeights g.height) = _
  rw [gen_height hg]
  exact h1

/-- there is only one locator of a block -/
theorem IsLocator.unique {s : Db L} {x : Nat} {l l' : List Nat} (h : IsLocator env s x l) (h' : IsLocator env s x l') : l = l' := by
  have hp : l.Perm l' := by
    refine (List.perm_ext_iff_of_nodup ?_ ?_).2 ?_
    · exact h.sorted.imp (fun {a b} hab => by intro he; rw [he] at hab; omega)
    · exact h'.sorted.imp (fun {a b} hab => by intro he; rw [he] at hab; omega)
    · intro a; rw [h.mem, h'.mem]
  exact hp.eq_of_pairwise (fun a b _ _ h1 h2 => by omega) h.sorted h'.sorted

/-! ### header lists -/

theorem Run.main {s : Db L} {g : Nat} {l : List Nat} (h : Run env s g l) : Main env s g := by cases h <;> assumption

theorem Run.mem_main {s : Db L} {g : Nat} {l : List Nat} (h : Run env s g l) : ∀ b ∈ l, Main env s b := by
  induction h with
  | nil => simp
  | cons _ _ _ h ih =>
    intro b hb
    rcases List.mem_cons.1 hb with rfl | hb
    · exact h.main
    · exact ih b hb

theorem main_next {s : Db L} (hs : SInv env s) {a b : Nat} (ha : Main env s a) (hb : Main env s b) (hh : height env s b = height env s a + 1) :
    b ≠ env.tree.genesisId ∧ (env.tree.body b).prev = a := by
  rcases known_cases hb.known_right with rfl | ⟨e, he⟩
  · rw [height_genesis] at hh; omega
  · refine ⟨hs.i.tree.ne_genesis he, ?_⟩
    rw [← hs.i.tree.prev_eq he]
    have hp := hs.i.tree.parent he
    exact hs.i.tree.anc_unique (hb.trans (hs.i.tree.anc_parent he)) ha (by omega)

theorem range_run {s : Db L} (hs : SInv env s) : ∀ (n g : Nat), Main env s g → height env s g + n ≤ height env s s.best →
    Run env s g ((List.range' (height env s g + 1) n).filterMap s.byHeight.get) ∧ ((List.range' (height env s g + 1) n).filterMap s.byHeight.get).length = n
  | 0, g, hg, _ => ⟨Run.nil hg, rfl⟩
  | n + 1, g, hg, hn => by
    obtain ⟨id, h1, h2, h3⟩ := main_at hs (h := height env s g + 1) (by omega)
    obtain ⟨h4, h5⟩ := main_next hs hg h2 h3
    obtain ⟨h6, h7⟩ := range_run hs n id h2 (by omega)
    rw [List.range'_succ, List.filterMap_cons_some h1, ← h3]
    refine ⟨Run.cons hg h4 h5 h6, ?_⟩
    rw [List.length_cons, h7]

theorem headersAbove_ok {s : Db L} (hs : SInv env s) {g : Nat} (hg : Main env s g) (limit : Nat) :
    ∃ l, headersAbove env s (height env s g) limit = .ok l ∧ Run env s g l ∧ l.length = min limit (height env s s.best - height env s g) := by
  obtain ⟨i, h1, -, h2⟩ := bestIndex_ok hs
  have hb := (hs.i.tree.anc_height hg).1
  obtain ⟨h3, h4⟩ := range_run hs (min (height env s g + limit) (height env s s.best) - height env s g) g hg (by omega)
  refine ⟨_, ?_, h3, ?_⟩
  · unfold headersAbove
    rw [h1, h2.symm]; rfl
  · rw [h4]; omega

theorem forkHeight_ok {s : Db L} (hs : SInv env s) : ∀ loc : List Nat, ∃ g, Main env s g ∧ FirstMain env s loc g ∧ forkHeight env s loc = height env s g
  | [] => ⟨env.tree.genesisId, hs.i.tree.anc_genesis hs.m.known, .inr ⟨rfl, by simp⟩, by rw [height_genesis]; rfl⟩
  | id :: loc => by
    by_cases hM : Main env s id
    · obtain ⟨i, hi⟩ := known_gen.1 hM.known_right
      refine ⟨id, hM, .inl ⟨[], loc, rfl, hM, by simp⟩, ?_⟩
      simp only [forkHeight, hi, (inMain_iff hs id).2 hM, if_true, gen_height hi]
    · have hf : s.inMain env id = false := by
        cases h : s.inMain env id with
        | false => rfl
        | true => exact absurd ((inMain_iff hs id).1 h) hM
      obtain ⟨g, h1, h2, h3⟩ := forkHeight_ok hs loc
      refine ⟨g, h1, ?_, ?_⟩
      · rcases h2 with ⟨a, b, rfl, h4, h5⟩ | ⟨h4, h5⟩
        · refine .inl ⟨id :: a, b, rfl, h4, ?_⟩
          intro x hx
          rcases List.mem_cons.1 hx with rfl | hx
          · exact hM
          · exact h5 x hx
        · refine .inr ⟨h4, ?_⟩
          intro x hx
          rcases List.mem_cons.1 hx with rfl | hx
          · exact hM
          · exact h5 x hx
      · rw [← h3]
        cases hi : s.gen env id with
        | none => simp only [forkHeight, hi]
        | some i => simp only [forkHeight, hi, hf, Bool.false_eq_true, if_false]

theorem latestFork_ok {s : Db L} (hs : SInv env s) : ∀ (ids : List Nat) (m : Nat), (∀ x ∈ ids, Known env s x) → ∃ h, latestFork env s m ids = .ok h ∧ m ≤ h ∧
    (∀ x ∈ ids, ∀ y, Anc env s x y → Main env s y → height env s y ≤ h) ∧ (h = m ∨ ∃ x ∈ ids, ∃ y, Anc env s x y ∧ Main env s y ∧ height env s y = h)
  | [], m, _ => ⟨m, rfl, Nat.le_refl _, by simp, .inl rfl⟩
  | x :: ids, m, hk => by
    obtain ⟨i, hi⟩ := known_gen.1 (hk x (by simp))
    obtain ⟨z, a, h1, h2, h3, h4, h5⟩ := hs.i.tree.forkPoint_ok hs.m.known hi
    obtain ⟨h, h6, h7, h8, h9⟩ := latestFork_ok hs ids (max m z.height) (fun y hy => hk y (by simp [hy]))
    refine ⟨h, ?_, by omega, ?_, ?_⟩
    · simp only [latestFork, hi, okOr, bind, Except.bind, h1, h6]
    · intro x' hx' y hy hm
      rcases List.mem_cons.1 hx' with rfl | hx'
      · have := (hs.i.tree.anc_height (h5 y hy hm)).1
        omega
      · exact h8 x' hx' y hy hm
    · rcases h9 with h9 | ⟨x', hx', h9⟩
      · by_cases hc : z.height ≤ m
        · exact .inl (by omega)
        · exact .inr ⟨x, by simp, a, h3, h4, by omega⟩
      · exact .inr ⟨x', by simp [hx'], h9⟩

/-! ### the answer to a locator -/

theorem main_anc {s : Db L} {a b : Nat} (ha : Main env s a) (hab : Anc env s a b) : Main env s b := Spec.Anc.trans ha hab

/-- two ancestors of a block, the lower is an ancestor of the higher -/
theorem anc_of_le {s : Db L} (ht : TInv env s) {x a b : Nat} (ha : Anc env s x a) (hb : Anc env s x b) (hh : height env s b ≤ height env s a) : Anc env s a b := by
  rcases ha.total hb with h | h
  · exact h
  · have h1 := ht.anc_height h
    have := h1.2 (by omega)
    subst this
    exact anc_refl ha.known_right

theorem fork_gap {s s' : Db L} (hs : SInv env s) (hs' : SInv env s') {x f g : Nat} {l : List Nat} (hl : IsLocator env s x l) (hf : ForkOf env s s' x f)
    (hg : FirstMain env s' l g) : Anc env s f g ∧ (g = f ∨ height env s f - height env s g < height env s x - height env s f) := by
  obtain ⟨f1, f2, f3⟩ := hf
  have ht := hs.i.tree
  have hfx := (ht.anc_height f1).1
  have hk := f1.known_left
  -- ancestors of the fork are on the main chain of the other node
  have down : ∀ y, Anc env s f y → Main env s' y := fun y hy => main_anc f2 ((anc_env ht hs'.i.tree f1.known_right f2.known_right).1 hy)
  obtain ⟨d, d1, d2, d3⟩ := exists_sparse (x := height env s x - height env s f)
  rcases hg with ⟨a, b, rfl, g1, g2⟩ | ⟨rfl, g2⟩
  · have gm := (hl.mem g).1 (by simp)
    have gf := f3 g gm.1 g1
    have gfa : Anc env s f g := anc_of_le ht f1 gm.1 gf
    refine ⟨gfa, ?_⟩
    by_cases hd : d ≤ height env s x
    · obtain ⟨y, y1, y2⟩ := ht.anc_at hk (height env s x - d) (by omega)
      have yf : Anc env s f y := anc_of_le ht f1 y1 (by omega)
      have ym : y ∈ a ++ g :: b := (hl.mem y).2 ⟨y1, by rw [y2, show height env s x - (height env s x - d) = d by omega]; exact d1⟩
      have yg : height env s y ≤ height env s g := by
        rcases List.mem_append.1 ym with h | h
        · exact absurd (down y yf) (g2 y h)
        · rcases List.mem_cons.1 h with rfl | h
          · exact Nat.le_refl _
          · have := (List.pairwise_cons.1 (List.pairwise_append.1 hl.sorted).2.1).1 y h
            omega
      rcases d3 with d3 | d3
      · exact .inl (ht.anc_unique gm.1 f1 (by omega))
      · exact .inr (by omega)
    · exact .inr (by omega)
  · refine ⟨ht.anc_genesis f1.known_right, ?_⟩
    rw [height_genesis]
    by_cases hd : d ≤ height env s x
    · exfalso
      obtain ⟨y, y1, y2⟩ := ht.anc_at hk (height env s x - d) (by omega)
      have yf : Anc env s f y := anc_of_le ht f1 y1 (by omega)
      exact g2 y ((hl.mem y).2 ⟨y1, by rw [y2, show height env s x - (height env s x - d) = d by omega]; exact d1⟩) (down y yf)
    · exact .inr (by omega)

/-- a run reaches every block of the main chain within its length -/
theorem Run.reach {s : Db L} (hs : SInv env s) {g : Nat} {l : List Nat} (h : Run env s g l) {b : Nat} (hb : Main env s b) (h1 : height env s g < height env s b)
    (h2 : height env s b ≤ height env s g + l.length) : b ∈ l := by
  induction h with
  | nil => simp at h2; omega
  | @cons g c l hg hc hp hr ih =>
    have hch : height env s c = height env s g + 1 := by
      obtain ⟨e, he⟩ := (known_cases hr.main.known_right).resolve_left hc
      have := (hs.i.tree.parent he).2.1
      rw [hs.i.tree.prev_eq he, hp] at this
      omega
    rw [List.length_cons] at h2
    by_cases hbc : height env s b = height env s c
    · rw [hs.i.tree.anc_unique hb hr.main hbc]; simp
    · exact List.mem_cons_of_mem _ (ih (by omega) (by omega))

theorem Run.above {s : Db L} (hs : SInv env s) {g : Nat} {l : List Nat} (h : Run env s g l) : ∀ b ∈ l, height env s g < height env s b ∧ height env s b ≤ height env s g + l.length := by
  induction h with
  | nil => simp
  | @cons g c l hg hc hp hr ih =>
    have hch : height env s c = height env s g + 1 := by
      obtain ⟨e, he⟩ := (known_cases hr.main.known_right).resolve_left hc
      have := (hs.i.tree.parent he).2.1
      rw [hs.i.tree.prev_eq he, hp] at this
      omega
    intro b hb
    rw [List.length_cons]
    rcases List.mem_cons.1 hb with rfl | hb
    · omega
    · have := ih b hb; omega

end Verif.Sync
