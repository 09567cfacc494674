import Verif.BlockTree.Spec
import Mathlib.Tactic.Linarith

/-! # Lemmas about block trees -/

namespace Verif.BlockTree
open Verif Spec

theorem getGen_genesis (c : Cfg) (s : Store) : getGen c s c.genesisId = some .genesis := by simp [getGen]

theorem getGen_block {c : Cfg} {s : Store} {id b} (h : id ≠ c.genesisId) (hb : s.get id = some b) :
    getGen c s id = some (.block b) := by simp [getGen, h, hb]

theorem known_iff {c : Cfg} {s : Store} {id} : Known c s id ↔ ∃ g, getGen c s id = some g := by
  unfold Known getGen
  by_cases h : id = c.genesisId
  · simp [h]
  · simp only [h, false_or, if_false, Option.map_eq_some_iff]
    constructor
    · rintro ⟨b, hb⟩; exact ⟨.block b, b, hb, rfl⟩
    · rintro ⟨g, b, hb, -⟩; exact ⟨b, hb⟩

/-! ### skip heights -/

theorem invertLowestOne_lt {n : Nat} (h : 0 < n) : invertLowestOne n < n := by
  have : n &&& (n - 1) ≤ n - 1 := Nat.and_le_right
  unfold invertLowestOne; omega

theorem invertLowestOne_le (n : Nat) : invertLowestOne n ≤ n := Nat.and_le_left

theorem skipHeight_lt {h : Nat} (hh : 0 < h) : skipHeight h < h := by
  unfold skipHeight
  split
  · exact hh
  · split
    · have h1 := invertLowestOne_lt (n := h - 1) (by omega)
      have h2 := invertLowestOne_le (invertLowestOne (h - 1))
      omega
    · exact invertLowestOne_lt hh

/-! ### the invariant -/

/-- what holds of every stored index -/
structure Good (c : Cfg) (s : Store) (id : Nat) (b : Idx) : Prop where
  id_eq : b.id = id
  not_genesis : id ≠ c.genesisId
  prev_eq : b.prev = (c.body id).prev
  time_eq : b.timestamp = (c.body id).timestamp
  parent : ∃ p, getGen c s b.prev = some p ∧ b.height = p.height + 1 ∧ b.trust = p.trust + (c.body id).proof ∧
    b.timeMax = max (p.timeMax c) (c.body id).timestamp ∧ b.txCount = p.txCount + (c.body id).txs
  skip : ∃ k, Up c s id k b.someAncestor ∧ b.height = skipHeight b.height + k

/-- the index table is consistent -/
def Inv (c : Cfg) (s : Store) : Prop := ∀ id b, s.get id = some b → Good c s id b

theorem Inv.id_eq {c s} (hi : Inv c s) {id g} (h : getGen c s id = some g) : g.id c = id := by
  unfold getGen at h
  split at h
  · cases h; rename_i h; simp [Gen.id, h]
  · cases hb : s.get id with
    | none => rw [hb] at h; cases h
    | some b => rw [hb] at h; cases h; exact (hi id b hb).id_eq

theorem Spec.Up.known {c s a k b} (h : Up c s a k b) : Known c s a ∧ Known c s b := by
  induction h with
  | here h => exact ⟨h, h⟩
  | step _ h2 _ ih => exact ⟨Or.inr ⟨_, h2⟩, ih.2⟩

theorem Spec.Up.trans {c s a k b m d} (h : Up c s a k b) (h' : Up c s b m d) : Up c s a (k + m) d := by
  induction h with
  | here _ => simpa using h'
  | step h1 h2 _ ih => rw [Nat.add_right_comm]; exact Up.step h1 h2 (ih h')

theorem Spec.Up.unique {c s a k b b'} (h : Up c s a k b) (h' : Up c s a k b') : b = b' := by
  induction h with
  | here _ => cases h'; rfl
  | step _ _ _ ih => cases h' with | step _ _ h3 => exact ih h3

/-- heights along parent links -/
theorem Inv.up_height {c s} (hi : Inv c s) {a k b} (h : Up c s a k b) {x} (hx : getGen c s a = some x) :
    ∃ y, getGen c s b = some y ∧ x.height = y.height + k := by
  induction h generalizing x with
  | here _ => exact ⟨x, hx, rfl⟩
  | @step a b k i h1 h2 _ ih =>
    rw [getGen_block h1 h2] at hx
    cases hx
    have hg := hi _ _ h2
    obtain ⟨p, hp, hh, -⟩ := hg.parent
    rw [hg.prev_eq] at hp
    obtain ⟨y, hy, e⟩ := ih hp
    refine ⟨y, hy, ?_⟩
    show i.height = _
    omega

/-- the walk finds the ancestor -/
theorem walk_ok {c s} (hi : Inv c s) (target : Nat) : ∀ (fuel hw id : Nat) (x : Gen), getGen c s id = some x → x.height = hw →
    target ≤ hw → hw < fuel → ∃ y a, walk c s target fuel hw x = .ok y ∧ Up c s id (hw - target) a ∧ getGen c s a = some y := by
  intro fuel
  induction fuel with
  | zero => intro hw id x _ _ _ hf; omega
  | succ fuel ih =>
    intro hw id x hx hxh ht hf
    rw [walk.eq_def]
    simp only [if_neg (by omega : ¬ hw < target)]
    by_cases he : hw = target
    · rw [if_pos he]
      refine ⟨x, id, rfl, ?_, hx⟩
      rw [he, Nat.sub_self]
      exact Up.here (known_iff.2 ⟨x, hx⟩)
    · rw [if_neg he]
      cases x with
      | genesis => simp [Gen.height] at hxh; omega
      | block b =>
        have hid : id ≠ c.genesisId := by
          intro h; rw [h, getGen_genesis] at hx; cases hx
        have hb : s.get id = some b := by
          unfold getGen at hx; rw [if_neg hid] at hx
          cases hb : s.get id with
          | none => rw [hb] at hx; cases hx
          | some b' => rw [hb] at hx; cases hx; rfl
        have hg := hi id b hb
        have hbh : b.height = hw := hxh
        simp only [if_neg (by omega : ¬ hw = 0)]
        split
        · rename_i hcond
          have hskt : target ≤ skipHeight hw := by
            simp only [Bool.or_eq_true, Bool.and_eq_true, decide_eq_true_eq] at hcond
            omega
          obtain ⟨k, hk, hkh⟩ := hg.skip
          rw [hbh] at hkh
          obtain ⟨y, hy, hyh⟩ := hi.up_height hk hx
          have hyh' : y.height = skipHeight hw := by
            have : (Gen.block b).height = hw := hxh
            omega
          simp only [hy]
          have := skipHeight_lt (h := hw) (by omega)
          obtain ⟨z, a, h1, h2, h3⟩ := ih (skipHeight hw) _ y hy hyh' hskt (by omega)
          refine ⟨z, a, h1, ?_, h3⟩
          have := hk.trans h2
          have e : k + (skipHeight hw - target) = hw - target := by omega
          rwa [e] at this
        · obtain ⟨p, hp, hph, -⟩ := hg.parent
          simp only [hp]
          obtain ⟨z, a, h1, h2, h3⟩ := ih (hw - 1) _ p hp (by omega) (by omega) (by omega)
          refine ⟨z, a, h1, ?_, h3⟩
          rw [hg.prev_eq] at h2
          have := Up.step hid hb h2
          have e : hw - 1 - target + 1 = hw - target := by omega
          rwa [e] at this

theorem getAncestor_ok {c s} (hi : Inv c s) {id x h} (hx : getGen c s id = some x) (hh : h ≤ x.height) :
    ∃ y a, getAncestor c s x h = .ok y ∧ Up c s id (x.height - h) a ∧ getGen c s a = some y ∧ y.height = h := by
  rw [getAncestor, if_neg (by omega)]
  obtain ⟨y, a, h1, h2, h3⟩ := walk_ok hi h (x.height + 1) x.height id x hx rfl hh (by omega)
  refine ⟨y, a, h1, h2, h3, ?_⟩
  obtain ⟨y', hy', e⟩ := hi.up_height h2 hx
  rw [h3] at hy'; cases hy'; omega

/-! ### stores that extend one another -/

/-- `s'` is part of `s` -/
def Sub (s' s : Store) : Prop := ∀ id i, s'.get id = some i → s.get id = some i

/-- parents of stored blocks are known -/
def Closed (c : Cfg) (s : Store) : Prop := ∀ id i, s.get id = some i → i.prev = (c.body id).prev ∧ Known c s i.prev

theorem Inv.closed {c s} (hi : Inv c s) : Closed c s := fun id i h => by
  have := hi id i h
  obtain ⟨p, hp, -⟩ := this.parent
  exact ⟨this.prev_eq, known_iff.2 ⟨p, hp⟩⟩

theorem getGen_sub {c s' s} (hs : Sub s' s) {id g} (h : getGen c s' id = some g) : getGen c s id = some g := by
  unfold getGen at h ⊢
  split
  · rename_i he; rw [if_pos he] at h; exact h
  · rename_i he
    rw [if_neg he] at h
    cases hb : s'.get id with
    | none => rw [hb] at h; cases h
    | some b => rw [hb] at h; rw [hs id b hb]; exact h

theorem known_sub {c s' s} (hs : Sub s' s) {id} (h : Known c s' id) : Known c s id := by
  obtain ⟨g, hg⟩ := known_iff.1 h
  exact known_iff.2 ⟨g, getGen_sub hs hg⟩

theorem up_sub {c s' s} (hs : Sub s' s) {a k b} (h : Up c s' a k b) : Up c s a k b := by
  induction h with
  | here h => exact Up.here (known_sub hs h)
  | step h1 h2 _ ih => exact Up.step h1 (hs _ _ h2) ih

theorem up_back {c s' s} (hs : Sub s' s) (hc : Closed c s') {a k b} (h : Up c s a k b) (ha : Known c s' a) : Up c s' a k b := by
  induction h with
  | here _ => exact Up.here ha
  | step h1 h2 _ ih =>
    rcases ha with ha | ⟨i', hi'⟩
    · exact absurd ha h1
    · have := hc _ _ hi'
      exact Up.step h1 hi' (ih (this.1 ▸ this.2))

theorem history_sub {c s' s} (hs : Sub s' s) (hc : Closed c s') : ∀ (n id : Nat), Known c s' id → history c s n id = history c s' n id := by
  intro n
  induction n with
  | zero => intro id _; rfl
  | succ n ih =>
    intro id hk
    obtain ⟨g, hg⟩ := known_iff.1 hk
    have hg' := getGen_sub hs hg
    simp only [history, hg, hg']
    cases g with
    | genesis => rfl
    | block b =>
      have hid : id ≠ c.genesisId := by
        intro h; rw [h, getGen_genesis] at hg; cases hg
      have hb : s'.get id = some b := by
        unfold getGen at hg; rw [if_neg hid] at hg
        cases hb : s'.get id with
        | none => rw [hb] at hg; cases hg
        | some b' => rw [hb] at hg; cases hg; rfl
      simp only
      rw [ih b.prev (hc id b hb).2]

theorem median_sub {c s' s} (hs : Sub s' s) (hc : Closed c s') {id} (hk : Known c s' id) : medianTimePast c s id = medianTimePast c s' id := by
  simp only [medianTimePast, history_sub hs hc 11 id hk]

/-- the facts about an index carry over from a part to the whole -/
theorem good_up {c s' s} (hs : Sub s' s) {id b} (h : Good c s' id b) : Good c s id b := by
  obtain ⟨p, hp, rest⟩ := h.parent
  obtain ⟨k, hk, hkh⟩ := h.skip
  exact ⟨h.id_eq, h.not_genesis, h.prev_eq, h.time_eq, ⟨p, getGen_sub hs hp, rest⟩, ⟨k, up_sub hs hk, hkh⟩⟩

/-- and back, for an index stored in the part -/
theorem good_down {c s' s} (hs : Sub s' s) (hc : Closed c s') {id b} (hb : s'.get id = some b) (h : Good c s id b) : Good c s' id b := by
  obtain ⟨p, hp, rest⟩ := h.parent
  obtain ⟨k, hk, hkh⟩ := h.skip
  have hkn := (hc id b hb).2
  obtain ⟨p', hp'⟩ := known_iff.1 hkn
  have := getGen_sub hs hp'
  rw [hp] at this
  cases this
  exact ⟨h.id_eq, h.not_genesis, h.prev_eq, h.time_eq, ⟨p, hp', rest⟩, ⟨k, up_back hs hc hk (Or.inr ⟨b, hb⟩), hkh⟩⟩

/-! ### preservation -/

/-- the index of a new block with parent index `p` and skip target `a` -/
def newIdx (c : Cfg) (id : Nat) (p : Gen) (a : Nat) : Idx :=
  ⟨id, (c.body id).prev, a, p.trust + (c.body id).proof, p.height + 1, (c.body id).timestamp,
    max (p.timeMax c) (c.body id).timestamp, p.txCount + (c.body id).txs⟩

theorem createIndex_ok {c s} (hi : Inv c s) {id p} (hp : getGen c s (c.body id).prev = some p) :
    ∃ y a, getGen c s a = some y ∧ Up c s (c.body id).prev (p.height - skipHeight (p.height + 1)) a ∧
    createIndex c s id = .ok (newIdx c id p a) := by
  have hlt := skipHeight_lt (h := p.height + 1) (by omega)
  obtain ⟨y, a, h1, h2, h3, -⟩ := getAncestor_ok hi hp (h := skipHeight (p.height + 1)) (by omega)
  refine ⟨y, a, h3, h2, ?_⟩
  have hida := hi.id_eq h3
  simp only [createIndex, hp, okOr, h1, bind, Except.bind, pure, Except.pure, hida, newIdx]

theorem createIndex_prev {c s id idx} (h : createIndex c s id = .ok idx) : ∃ p, getGen c s (c.body id).prev = some p := by
  cases hp : getGen c s (c.body id).prev with
  | none => simp [createIndex, hp, okOr, bind, Except.bind] at h
  | some p => exact ⟨p, rfl⟩

theorem sub_insert {s : Store} {id} (hn : s.get id = none) (idx : Idx) : Sub s (s.insert id idx) := by
  intro k i hk
  rw [BMap.get_insert_ne]
  · exact hk
  · intro he; rw [he, hn] at hk; cases hk

theorem insert_inv {c s id idx} (hi : Inv c s) (hg : id ≠ c.genesisId) (hn : s.get id = none) (h1 : createIndex c s id = .ok idx) :
    Inv c (s.insert id idx) := by
  obtain ⟨p, hp⟩ := createIndex_prev h1
  obtain ⟨y, a, hy, hup, he⟩ := createIndex_ok hi hp
  rw [h1] at he
  cases he
  have hsub := sub_insert hn (newIdx c id p a)
  intro k b hb
  rw [BMap.get_insert] at hb
  split at hb
  · rename_i hk
    subst hk
    cases hb
    refine ⟨rfl, hg, rfl, rfl, ⟨p, getGen_sub hsub hp, rfl, rfl, rfl, rfl⟩, ?_⟩
    · have hlt := skipHeight_lt (h := p.height + 1) (by omega)
      refine ⟨p.height - skipHeight (p.height + 1) + 1, Up.step hg (BMap.get_insert_self _ _ _) (up_sub hsub hup), ?_⟩
      show p.height + 1 = skipHeight (p.height + 1) + _
      omega
  · exact good_up hsub (hi k b hb)

theorem addBlock_eq {c s s' id} (h : addBlock c s id = .ok s') : ∃ idx m, createIndex c s id = .ok idx ∧ s' = s.insert id idx ∧
    medianTimePast c s idx.prev = .ok m ∧ m ≤ idx.timestamp := by
  unfold addBlock at h
  simp only [bind_eq_ok, ensure_eq_ok, pure_eq_ok] at h
  obtain ⟨idx, h1, m, h2, -, h3, h4⟩ := h
  exact ⟨idx, m, h1, h4.symm, h2, h3⟩

theorem delBlock_sub (s : Store) (id : Nat) : Sub (delBlock s id) s := by
  intro k i hk
  rw [delBlock, BMap.get_erase] at hk
  split at hk
  · cases hk
  · exact hk

theorem delBlock_closed {c s id} (hi : Inv c s) (hl : Leaf s id) : Closed c (delBlock s id) := by
  intro k i hk
  have hk' := delBlock_sub s id k i hk
  obtain ⟨h1, h2⟩ := hi.closed k i hk'
  refine ⟨h1, ?_⟩
  rcases h2 with h2 | ⟨j, hj⟩
  · exact Or.inl h2
  · right
    refine ⟨j, ?_⟩
    rw [delBlock, BMap.get_erase_ne _ (hl k i hk')]
    exact hj

theorem delBlock_inv {c s id} (hi : Inv c s) (hl : Leaf s id) : Inv c (delBlock s id) := by
  have hsub := delBlock_sub s id
  have hc := delBlock_closed hi hl
  intro k b hb
  exact good_down hsub hc hb (hi k b (hsub k b hb))

theorem reachable_inv {c s ck} (h : Reachable c s ck) : Inv c s := by
  induction h with
  | init => intro id b hb; cases hb
  | add _ h1 h2 _ h3 ih => obtain ⟨idx, m, e1, rfl, -⟩ := addBlock_eq h3; exact insert_inv ih h1 h2 e1
  | failed _ h1 h2 h3 ih => exact insert_inv ih h1 h2 h3
  | del _ h1 ih => exact delBlock_inv ih h1

/-! ### the blocks that passed their checks -/

/-- checked blocks are stored, their parents are checked or genesis, and they are not dated before the median of the parent -/
def CheckedInv (c : Cfg) (s : Store) (ck : List Nat) : Prop :=
  ∀ id ∈ ck, ∃ b, s.get id = some b ∧ ((c.body id).prev = c.genesisId ∨ (c.body id).prev ∈ ck) ∧
    ∃ m, medianTimePast c s b.prev = .ok m ∧ m ≤ b.timestamp

theorem CheckedInv.sub {c s s' ck} (h : CheckedInv c s ck) (hs : Sub s s') (hc : Closed c s) : CheckedInv c s' ck := by
  intro id hid
  obtain ⟨b, hb, h1, m, h2, h3⟩ := h id hid
  refine ⟨b, hs _ _ hb, h1, m, ?_, h3⟩
  rw [median_sub hs hc (hc id b hb).2]; exact h2

theorem reachable_checked {c s ck} (h : Reachable c s ck) : CheckedInv c s ck := by
  induction h with
  | init => intro id hid; cases hid
  | @add s s' ck id hr h1 h2 h3 h4 ih =>
    have hi := reachable_inv hr
    obtain ⟨idx, m, e1, rfl, e2, e3⟩ := addBlock_eq h4
    have hs := sub_insert h2 idx
    have hold := ih.sub hs hi.closed
    intro k hk
    rcases List.mem_cons.1 hk with rfl | hk
    · obtain ⟨p, hp⟩ := createIndex_prev e1
      obtain ⟨y, a, hy, hup, he⟩ := createIndex_ok hi hp
      rw [e1] at he
      cases he
      refine ⟨_, BMap.get_insert_self _ _ _, h3.imp_right (List.mem_cons_of_mem _), m, ?_, e3⟩
      exact (median_sub hs hi.closed (known_iff.2 ⟨p, hp⟩)).trans e2
    · obtain ⟨b, q1, q2, q3⟩ := hold k hk
      exact ⟨b, q1, q2.imp_right (List.mem_cons_of_mem _), q3⟩
  | failed hr h1 h2 h3 ih => exact ih.sub (sub_insert h2 _) (reachable_inv hr).closed
  | @del s ck id hr hl ih =>
    have hi := reachable_inv hr
    intro k hk
    obtain ⟨hk1, hk2⟩ := List.mem_filter.1 hk
    obtain ⟨b, q1, q2, m, q3, q4⟩ := ih k hk1
    have hkne : k ≠ id := by simpa using hk2
    have hb : (delBlock s id).get k = some b := by rw [delBlock, BMap.get_erase_ne _ hkne]; exact q1
    refine ⟨b, hb, ?_, m, ?_, q4⟩
    · rcases q2 with q2 | q2
      · exact .inl q2
      · right
        refine List.mem_filter.2 ⟨q2, ?_⟩
        have := hl k b q1
        rw [(hi k b q1).prev_eq] at this
        simpa using this
    · rw [← median_sub (delBlock_sub s id) (delBlock_closed hi hl) (delBlock_closed hi hl k b hb).2]
      exact q3

/-! ### common ancestors -/

theorem lockstep_ok {c s} (hi : Inv c s) : ∀ (fuel : Nat) (i j : Nat) (x y : Gen), getGen c s i = some x → getGen c s j = some y →
    x.height = y.height → x.height < fuel → ∃ z a k, lockstep c s fuel x y = .ok z ∧ getGen c s a = some z ∧ Up c s i k a ∧ Up c s j k a ∧
      ∀ m b, Up c s i m b → Up c s j m b → k ≤ m := by
  intro fuel
  induction fuel with
  | zero => intro i j x y _ _ _ hf; omega
  | succ fuel ih =>
    intro i j x y hx hy hh hf
    have hix := hi.id_eq hx
    have hjy := hi.id_eq hy
    simp only [lockstep, hix, hjy]
    by_cases he : i = j
    · rw [if_pos he]
      have hk := known_iff.2 ⟨x, hx⟩
      exact ⟨x, i, 0, rfl, hx, Up.here hk, he ▸ Up.here hk, fun _ _ _ _ => Nat.zero_le _⟩
    · rw [if_neg he]
      cases x with
      | genesis =>
        exfalso
        have h0 : y.height = 0 := hh.symm
        cases y with
        | genesis => apply he; rw [← hix, ← hjy]
        | block b =>
          have hid : j ≠ c.genesisId := by
            intro h; rw [h, getGen_genesis] at hy; cases hy
          unfold getGen at hy; rw [if_neg hid] at hy
          cases hb : s.get j with
          | none => rw [hb] at hy; cases hy
          | some b' =>
            rw [hb] at hy; cases hy
            obtain ⟨p, -, hp, -⟩ := (hi j b hb).parent
            simp [Gen.height] at h0; omega
      | block a =>
        have hidi : i ≠ c.genesisId := by
          intro h; rw [h, getGen_genesis] at hx; cases hx
        have hai : s.get i = some a := by
          unfold getGen at hx; rw [if_neg hidi] at hx
          cases hb : s.get i with
          | none => rw [hb] at hx; cases hx
          | some b' => rw [hb] at hx; cases hx; rfl
        obtain ⟨p, hp, hph, -⟩ := (hi i a hai).parent
        cases y with
        | genesis => simp [Gen.height] at hh; omega
        | block b =>
          have hidj : j ≠ c.genesisId := by
            intro h; rw [h, getGen_genesis] at hy; cases hy
          have hbj : s.get j = some b := by
            unfold getGen at hy; rw [if_neg hidj] at hy
            cases hb : s.get j with
            | none => rw [hb] at hy; cases hy
            | some b' => rw [hb] at hy; cases hy; rfl
          obtain ⟨q, hq, hqh, -⟩ := (hi j b hbj).parent
          simp only [Gen.height] at hh hf
          obtain ⟨z, d, k, h1, h2, h3, h4, h5⟩ := ih _ _ p q hp hq (by omega) (by omega)
          rw [(hi i a hai).prev_eq] at h3 h5
          rw [(hi j b hbj).prev_eq] at h4 h5
          refine ⟨z, d, k + 1, ?_, h2, Up.step hidi hai h3, Up.step hidj hbj h4, ?_⟩
          · simp only [hp, hq, okOr, bind, Except.bind]; exact h1
          · intro m e hm1 hm2
            cases hm1 with
            | here _ =>
              cases hm2 with
              | here _ => exact absurd rfl he
            | step _ _ g1 =>
              cases hm2 with
              | step _ _ g2 => have := h5 _ _ g1 g2; omega

theorem Spec.Up.split {c s a k b} (h : Up c s a k b) : ∀ {m d}, Up c s a m d → k ≤ m → Up c s b (m - k) d := by
  induction h with
  | here _ => intro m d h' _; simpa using h'
  | step _ _ _ ih =>
    intro m d h' hm
    cases h' with
    | here _ => omega
    | step _ _ h3 =>
      have := ih h3 (by omega)
      rw [Nat.add_sub_add_right]; exact this

theorem lca_ok {c s} (hi : Inv c s) {i j x y} (hx : getGen c s i = some x) (hy : getGen c s j = some y) :
    ∃ z a, lastCommonAncestor c s x y = .ok z ∧ getGen c s a = some z ∧ Anc c s i a ∧ Anc c s j a ∧
      ∀ b, Anc c s i b → Anc c s j b → Anc c s a b := by
  have hxx : ∃ x' i', levelTo c s x y = .ok x' ∧ getGen c s i' = some x' ∧
      x'.height = min x.height y.height ∧ Up c s i (x.height - y.height) i' := by
    by_cases h : x.height > y.height
    · obtain ⟨x', i', h1, h2, h3, h4⟩ := getAncestor_ok hi hx (h := y.height) (by omega)
      exact ⟨x', i', by rw [levelTo, if_pos h]; exact h1, h3, by omega, h2⟩
    · refine ⟨x, i, by rw [levelTo, if_neg h], hx, by omega, ?_⟩
      rw [Nat.sub_eq_zero_of_le (by omega)]; exact Up.here (known_iff.2 ⟨x, hx⟩)
  have hyy : ∃ y' j', levelTo c s y x = .ok y' ∧ getGen c s j' = some y' ∧
      y'.height = min x.height y.height ∧ Up c s j (y.height - x.height) j' := by
    by_cases h : y.height > x.height
    · obtain ⟨y', j', h1, h2, h3, h4⟩ := getAncestor_ok hi hy (h := x.height) (by omega)
      exact ⟨y', j', by rw [levelTo, if_pos h]; exact h1, h3, by omega, h2⟩
    · refine ⟨y, j, by rw [levelTo, if_neg h], hy, by omega, ?_⟩
      rw [Nat.sub_eq_zero_of_le (by omega)]; exact Up.here (known_iff.2 ⟨y, hy⟩)
  obtain ⟨x', i', ex, gx, hx', ux⟩ := hxx
  obtain ⟨y', j', ey, gy, hy', uy⟩ := hyy
  obtain ⟨z, a, k, h1, h2, h3, h4, h5⟩ := lockstep_ok hi (x'.height + 1) i' j' x' y' gx gy (by omega) (by omega)
  refine ⟨z, a, ?_, h2, ⟨_, ux.trans h3⟩, ⟨_, uy.trans h4⟩, ?_⟩
  · simp only [lastCommonAncestor, ex, ey, bind, Except.bind]; exact h1
  · rintro b ⟨m, hm⟩ ⟨m', hm'⟩
    obtain ⟨w, hw, hwh⟩ := hi.up_height hm hx
    obtain ⟨w', hw', hwh'⟩ := hi.up_height hm' hy
    rw [hw] at hw'; cases hw'
    have g1 := ux.split hm (by omega)
    have g2 := uy.split hm' (by omega)
    have e : m - (x.height - y.height) = m' - (y.height - x.height) := by omega
    rw [e] at g1
    have hk := h5 _ _ g1 g2
    exact ⟨_, h3.split g1 hk⟩

end Verif.BlockTree
