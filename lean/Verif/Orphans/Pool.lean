import Verif.Orphans.Spec

/-!
# The pool of waiting blocks behaves like a list
-/

namespace Verif.Orphans
open Verif Orphans.Spec

variable {prev : Nat → Nat}

/-- the children of a block in a list -/
def kids (prev : Nat → Nat) (l : List Nat) (q : Nat) : List Nat := l.filter (fun x => prev x = q)

/-- the maps agree with the list -/
structure Rep (prev : Nat → Nat) (p : Pool) : Prop where
  nodup : p.ids.Nodup
  byId : ∀ x, (p.byId.get x).isSome = true ↔ x ∈ p.ids
  byPrev : ∀ q, p.byPrev.get q = if kids prev p.ids q = [] then none else some (kids prev p.ids q)

theorem mem_kids {l : List Nat} {q x : Nat} : x ∈ kids prev l q ↔ x ∈ l ∧ prev x = q := by
  simp [kids]

theorem kids_without {l : List Nat} {x q : Nat} : kids prev (l.filter (· ≠ x)) q = (kids prev l q).filter (· ≠ x) := by
  unfold kids
  rw [List.filter_filter, List.filter_filter]
  congr 1
  funext y
  exact Bool.and_comm _ _

theorem rep_new (max : Nat) : Rep prev (Pool.new max) :=
  ⟨List.nodup_nil, fun x => by simp [Pool.new], fun q => by simp [Pool.new, kids]⟩

theorem drop_spec {p : Pool} (h : Rep prev p) {x : Nat} (hx : x ∈ p.ids) :
    ∃ p', p.drop prev x = .ok p' ∧ Rep prev p' ∧ p'.ids = p.ids.filter (· ≠ x) ∧ p'.max = p.max := by
  obtain ⟨u, hu⟩ := Option.isSome_iff_exists.1 ((h.byId x).2 hx)
  have hk : kids prev p.ids (prev x) ≠ [] := List.ne_nil_of_mem (mem_kids.2 ⟨hx, rfl⟩)
  have hp := h.byPrev (prev x)
  rw [if_neg hk] at hp
  unfold Pool.drop
  rw [hu]
  simp only [hp]
  refine ⟨_, rfl, ⟨h.nodup.filter _, ?_, ?_⟩, rfl, rfl⟩
  · intro y
    simp only [List.mem_filter, decide_eq_true_eq]
    by_cases hy : y = x
    · subst hy; simp [BMap.get_erase]
    · rw [BMap.get_erase_ne _ hy, h.byId]; simp [hy]
  · intro q
    rw [kids_without]
    unfold dropChild
    by_cases hq : q = prev x
    · subst hq
      split
      · rename_i he
        rw [List.isEmpty_iff] at he
        rw [if_pos he, BMap.get_erase, if_pos rfl]
      · rename_i he
        rw [List.isEmpty_iff] at he
        rw [if_neg he, BMap.get_insert, if_pos rfl]
    · have hsame : (kids prev p.ids q).filter (· ≠ x) = kids prev p.ids q := by
        rw [List.filter_eq_self]
        intro y hy
        have := (mem_kids.1 hy).2
        exact decide_eq_true (fun e => hq (by rw [← this, e]))
      rw [hsame, ← h.byPrev q]
      split
      · exact BMap.get_erase_ne _ hq
      · exact BMap.get_insert_ne _ _ hq

theorem dropAll_spec : ∀ (l : List Nat) {p : Pool}, Rep prev p → (∀ x ∈ l, x ∈ p.ids) → l.Nodup →
    ∃ p', l.foldlM (Pool.drop prev) p = .ok p' ∧ Rep prev p' ∧ p'.ids = p.ids.filter (fun x => decide (x ∉ l)) ∧ p'.max = p.max
  | [], p, h, _, _ => ⟨p, rfl, h, by simp, rfl⟩
  | x :: l, p, h, hl, hn => by
    obtain ⟨p1, e1, r1, i1, m1⟩ := drop_spec h (hl x (List.mem_cons_self ..))
    have hn' := List.nodup_cons.1 hn
    obtain ⟨p2, e2, r2, i2, m2⟩ := dropAll_spec l r1 (by
      intro y hy
      rw [i1]
      exact List.mem_filter.2 ⟨hl y (List.mem_cons_of_mem _ hy), decide_eq_true (fun e => hn'.1 (e ▸ hy))⟩) hn'.2
    refine ⟨p2, ?_, r2, ?_, m2.trans m1⟩
    · rw [List.foldlM_cons, e1]; exact e2
    · rw [i2, i1, List.filter_filter]
      congr 1
      funext y
      simp [Bool.and_comm]

theorem take_spec {p : Pool} (h : Rep prev p) (q : Nat) :
    ∃ p', p.take prev q = .ok (p', kids prev p.ids q) ∧ Rep prev p' ∧ p'.ids = p.ids.filter (fun x => decide (prev x ≠ q)) ∧ p'.max = p.max := by
  unfold Pool.take
  rw [h.byPrev q]
  by_cases hk : kids prev p.ids q = []
  · rw [if_pos hk]
    refine ⟨p, by rw [hk], h, ?_, rfl⟩
    symm
    rw [List.filter_eq_self]
    intro x hx
    refine decide_eq_true (fun e => ?_)
    have : x ∈ kids prev p.ids q := mem_kids.2 ⟨hx, e⟩
    rw [hk] at this
    cases this
  · rw [if_neg hk]
    obtain ⟨p', e, r, i, m⟩ := dropAll_spec (kids prev p.ids q) h (fun x hx => (mem_kids.1 hx).1) (h.nodup.filter _)
    refine ⟨p', by simp only [e]; rfl, r, ?_, m⟩
    rw [i]
    apply List.filter_congr
    intro x hx
    simp [mem_kids, hx]

/-- the block to be evicted: one without children in the pool -/
theorem dropDeepest_spec {r : Nat → Nat} {p : Pool} (hr : ∀ x ∈ p.ids, r (prev x) < r x) (h : Rep prev p) : ∀ (k : Nat) {x : Nat}, x ∈ p.ids →
    (p.ids.filter (fun y => decide (r x ≤ r y))).length ≤ k →
    ∃ p' v, p.dropDeepest prev k x = .ok p' ∧ v ∈ p.ids ∧ kids prev p.ids v = [] ∧ Rep prev p' ∧ p'.ids = p.ids.filter (· ≠ v) ∧ p'.max = p.max
  | 0, x, hx, hk => by
    have : x ∈ p.ids.filter (fun y => decide (r x ≤ r y)) := List.mem_filter.2 ⟨hx, by simp⟩
    rw [List.length_eq_zero_iff.1 (Nat.le_zero.1 hk)] at this
    cases this
  | k + 1, x, hx, hk => by
    rw [Pool.dropDeepest, h.byPrev x]
    by_cases hkids : kids prev p.ids x = []
    · rw [if_pos hkids]
      obtain ⟨p', e, r', i, m⟩ := drop_spec h hx
      exact ⟨p', x, e, hx, hkids, r', i, m⟩
    · rw [if_neg hkids]
      obtain ⟨y, l, hy⟩ := List.exists_cons_of_ne_nil hkids
      have hym : y ∈ kids prev p.ids x := by rw [hy]; exact List.mem_cons_self ..
      obtain ⟨hyi, hyp⟩ := mem_kids.1 hym
      rw [hy]
      have hlt : r x < r y := by rw [← hyp]; exact hr y hyi
      apply dropDeepest_spec hr h k hyi
      have hsub : (p.ids.filter (fun z => decide (r y ≤ r z))).Sublist ((p.ids.filter (fun z => decide (r x ≤ r z))).filter (· ≠ x)) := by
        rw [List.filter_filter]
        apply List.monotone_filter_right
        intro z hz
        simp only [decide_eq_true_eq] at hz
        simp only [Bool.and_eq_true, decide_eq_true_eq]
        refine ⟨fun e => ?_, by omega⟩
        subst e; omega
      have h1 := hsub.length_le
      have h2 : ((p.ids.filter (fun z => decide (r x ≤ r z))).filter (· ≠ x)).length < (p.ids.filter (fun z => decide (r x ≤ r z))).length := by
        apply List.length_filter_lt_length_iff_exists.2
        exact ⟨x, List.mem_filter.2 ⟨hx, by simp⟩, by simp⟩
      omega

theorem prune_spec {r : Nat → Nat} {p : Pool} (hr : ∀ x ∈ p.ids, r (prev x) < r x) (h : Rep prev p) (hm : 0 < p.max) (hl : p.ids.length ≤ p.max) (pick : Nat) :
    ∃ p', p.prune prev pick = .ok p' ∧ Rep prev p' ∧ p'.max = p.max ∧
      (p.ids.length < p.max ∧ p' = p ∨ p.ids.length = p.max ∧ ∃ v ∈ p.ids, kids prev p.ids v = [] ∧ p'.ids = p.ids.filter (· ≠ v)) := by
  unfold Pool.prune Pool.len
  by_cases hlt : p.ids.length < p.max
  · rw [if_pos hlt]; exact ⟨p, rfl, h, rfl, .inl ⟨hlt, rfl⟩⟩
  · rw [if_neg hlt]
    have hpos : 0 < p.ids.length := by omega
    have hi : pick % p.ids.length < p.ids.length := Nat.mod_lt _ hpos
    rw [List.getElem?_eq_getElem hi]
    obtain ⟨p', v, e, hv, hk, r', i, m⟩ := dropDeepest_spec hr h (p.ids.length + 1) (List.getElem_mem hi)
      (Nat.le_succ_of_le (List.length_filter_le ..))
    exact ⟨p', e, r', m, .inr ⟨by omega, v, hv, hk, i⟩⟩

theorem push_spec {p : Pool} (h : Rep prev p) {x : Nat} (hx : x ∉ p.ids) : Rep prev (p.push prev x) := by
  refine ⟨?_, ?_, ?_⟩
  · show (p.ids ++ [x]).Nodup
    rw [List.nodup_append]
    refine ⟨h.nodup, List.nodup_singleton _, ?_⟩
    intro a ha b hb
    rw [List.mem_singleton.1 hb]
    exact fun e => hx (e ▸ ha)
  · intro y
    show ((p.byId.insert x ()).get y).isSome = true ↔ y ∈ p.ids ++ [x]
    by_cases hy : y = x
    · subst hy; simp [BMap.get_insert]
    · rw [BMap.get_insert_ne _ _ hy, h.byId]; simp [hy]
  · intro q
    show (p.byPrev.insert (prev x) _).get q = if kids prev (p.ids ++ [x]) q = [] then none else some (kids prev (p.ids ++ [x]) q)
    have hk : kids prev (p.ids ++ [x]) q = kids prev p.ids q ++ (if prev x = q then [x] else []) := by
      unfold kids
      rw [List.filter_append]
      congr 1
      by_cases hq : prev x = q <;> simp [hq]
    rw [hk]
    by_cases hq : prev x = q
    · subst hq
      rw [BMap.get_insert, if_pos rfl, if_neg (by simp), h.byPrev]
      split
      · rename_i he; rw [he, if_pos rfl]; rfl
      · rw [if_pos rfl]; rfl
    · rw [BMap.get_insert_ne _ _ (Ne.symm hq), if_neg hq, List.append_nil, h.byPrev]

theorem has_iff {p : Pool} (h : Rep prev p) {x : Nat} : p.has x = true ↔ x ∈ p.ids := h.byId x

/-- what remains after room was made -/
def Pruned (prev : Nat → Nat) (max : Nat) (l l' : List Nat) : Prop :=
  l.length < max ∧ l' = l ∨ l.length = max ∧ ∃ v ∈ l, kids prev l v = [] ∧ l' = l.filter (· ≠ v)

theorem add_spec {r : Nat → Nat} {p : Pool} (hr : ∀ x ∈ p.ids, r (prev x) < r x) (h : Rep prev p) (hm : 0 < p.max) (hl : p.ids.length ≤ p.max) (pick x : Nat) :
    ∃ p' b l, p.add prev pick x = .ok (p', b) ∧ Rep prev p' ∧ p'.max = p.max ∧ Pruned prev p.max p.ids l ∧ l.length < p.max ∧
      (b = true ∧ x ∉ l ∧ p'.ids = l ++ [x] ∨ b = false ∧ x ∈ l ∧ p'.ids = l) := by
  obtain ⟨p1, e1, r1, m1, h1⟩ := prune_spec hr h hm hl pick
  have hpr : Pruned prev p.max p.ids p1.ids := by
    rcases h1 with ⟨a, b⟩ | ⟨a, v, b, c, d⟩
    · exact .inl ⟨a, by rw [b]⟩
    · exact .inr ⟨a, v, b, c, d⟩
  have hlen : p1.ids.length < p.max := by
    rcases h1 with ⟨a, b⟩ | ⟨a, v, b, c, d⟩
    · rw [b]; exact a
    · rw [d, ← a]
      exact List.length_filter_lt_length_iff_exists.2 ⟨v, b, by simp⟩
  unfold Pool.add
  simp only [e1, bind, Except.bind]
  by_cases hx : p1.has x = true
  · rw [if_pos hx]
    exact ⟨p1, false, p1.ids, rfl, r1, m1, hpr, hlen, .inr ⟨rfl, (has_iff r1).1 hx, rfl⟩⟩
  · rw [if_neg hx]
    have hx' : x ∉ p1.ids := fun hm => hx ((has_iff r1).2 hm)
    exact ⟨_, true, p1.ids, rfl, push_spec r1 hx', m1, hpr, hlen, .inl ⟨rfl, hx', rfl⟩⟩

theorem Pruned.sub {max : Nat} {l l' : List Nat} (h : Pruned prev max l l') : ∀ x ∈ l', x ∈ l := by
  rcases h with ⟨-, rfl⟩ | ⟨-, v, -, -, rfl⟩
  · exact fun _ h => h
  · exact fun _ h => (List.mem_filter.1 h).1

theorem below_mem {l : List Nat} {b x : Nat} (h : Descends prev l b x) : x ∈ l := by
  cases h <;> assumption

/-- the loop taking out descendants: all of them and nothing else -/
theorem removeBelow_spec {l0 : List Nat} {b : Nat} : ∀ (k : Nat) (queue : List Nat) {p : Pool}, Rep prev p →
    queue.length + p.ids.length ≤ k → (∀ x ∈ p.ids, x ∈ l0) → (∀ q ∈ queue, q = b ∨ Descends prev l0 b q) →
    (∀ x ∈ l0, x ∈ p.ids ∨ Descends prev l0 b x) →
    (∀ x ∈ p.ids, prev x = b ∨ (prev x ∈ l0 ∧ prev x ∉ p.ids) → prev x ∈ queue) →
    ∃ p', Pool.removeBelow prev k queue p = .ok p' ∧ Rep prev p' ∧ p'.max = p.max ∧ (∃ f : Nat → Bool, p'.ids = p.ids.filter f) ∧
      ∀ x, x ∈ p'.ids ↔ x ∈ l0 ∧ ¬ Descends prev l0 b x
  | k, [], p, h, _, hsub, _, hcov, hq => by
    refine ⟨p, by cases k <;> rfl, h, rfl, ⟨fun _ => true, by simp⟩, ?_⟩
    have hno : ∀ x, Descends prev l0 b x → x ∉ p.ids := by
      intro x hb
      induction hb with
      | child hx hp =>
        intro hm
        have := hq _ hm (.inl hp)
        cases this
      | step hx hb ih =>
        intro hm
        have := hq _ hm (.inr ⟨below_mem hb, ih⟩)
        cases this
    intro x
    constructor
    · exact fun hm => ⟨hsub x hm, fun hb => hno x hb hm⟩
    · rintro ⟨hx, hb⟩
      exact (hcov x hx).resolve_right hb
  | 0, q :: queue, p, _, hlen, _, _, _, _ => by simp at hlen
  | k + 1, q :: queue, p, h, hlen, hsub, hqb, hcov, hq => by
    obtain ⟨p1, e1, r1, i1, m1⟩ := take_spec h q
    have hbelow : ∀ x ∈ kids prev p.ids q, Descends prev l0 b x := by
      intro x hx
      obtain ⟨a, c⟩ := mem_kids.1 hx
      rcases hqb q (List.mem_cons_self ..) with e | e
      · exact .child (hsub x a) (c.trans e)
      · exact .step (hsub x a) (c ▸ e)
    have hcount : (kids prev p.ids q).length + p1.ids.length = p.ids.length := by
      rw [i1]
      unfold kids
      have := List.length_eq_length_filter_add (l := p.ids) (fun x => decide (prev x = q))
      rw [this]
      congr 2
      apply List.filter_congr
      intro x _
      simp
    obtain ⟨p', e, r', m, ⟨f, hf⟩, hx⟩ := removeBelow_spec k (queue ++ kids prev p.ids q) r1 (l0 := l0) (b := b) (by
        rw [List.length_append]
        simp only [List.length_cons] at hlen
        omega)
      (fun x hx => hsub x (by rw [i1] at hx; exact (List.mem_filter.1 hx).1))
      (by
        intro x hx
        rcases List.mem_append.1 hx with hx | hx
        · exact hqb x (List.mem_cons_of_mem _ hx)
        · exact .inr (hbelow x hx))
      (by
        intro x hx
        rcases hcov x hx with hm | hb
        · by_cases hp : prev x = q
          · exact .inr (hbelow x (mem_kids.2 ⟨hm, hp⟩))
          · left; rw [i1]; exact List.mem_filter.2 ⟨hm, decide_eq_true hp⟩
        · exact .inr hb)
      (by
        intro x hx hc
        rw [i1] at hx
        obtain ⟨hx, hne⟩ := List.mem_filter.1 hx
        have hne := of_decide_eq_true hne
        rcases hc with hb | ⟨hl, hn⟩
        · have := hq x hx (.inl hb)
          rcases List.mem_cons.1 this with e | e
          · exact absurd e hne
          · exact List.mem_append.2 (.inl e)
        · by_cases hp : prev x ∈ p.ids
          · apply List.mem_append.2; right
            refine mem_kids.2 ⟨hp, ?_⟩
            by_contra hpq
            exact hn (by rw [i1]; exact List.mem_filter.2 ⟨hp, decide_eq_true hpq⟩)
          · have := hq x hx (.inr ⟨hl, hp⟩)
            rcases List.mem_cons.1 this with e | e
            · exact absurd e hne
            · exact List.mem_append.2 (.inl e))
    refine ⟨p', ?_, r', m.trans m1, ⟨fun x => f x && decide (prev x ≠ q), ?_⟩, hx⟩
    · rw [Pool.removeBelow, e1]; exact e
    · rw [hf, i1, List.filter_filter]

theorem forget_spec {p : Pool} (h : Rep prev p) (b : Nat) :
    ∃ p', p.forget prev (some b) = .ok p' ∧ Rep prev p' ∧ p'.max = p.max ∧ (∃ f : Nat → Bool, p'.ids = p.ids.filter f) ∧
      ∀ x, x ∈ p'.ids ↔ x ∈ p.ids ∧ ¬ Descends prev p.ids b x := by
  unfold Pool.forget Pool.len
  exact removeBelow_spec _ _ h (by simp; omega) (fun _ h => h) (fun q hq => .inl (List.mem_singleton.1 hq)) (fun _ h => .inl h)
    (fun x hx hc => by
      rcases hc with e | ⟨a, c⟩
      · rw [e]; exact List.mem_singleton.2 rfl
      · exact absurd a c)

theorem forget_sub {p : Pool} (h : Rep prev p) (b : Option Nat) :
    ∃ p', p.forget prev b = .ok p' ∧ Rep prev p' ∧ p'.max = p.max ∧ (∃ f : Nat → Bool, p'.ids = p.ids.filter f) := by
  cases b with
  | none => exact ⟨p, rfl, h, rfl, fun _ => true, by simp⟩
  | some b =>
    obtain ⟨p', a, c, d, e, -⟩ := forget_spec h b
    exact ⟨p', a, c, d, e⟩

/-- one call -/
theorem run1_spec {r : Nat → Nat} {p : Pool} (h : Rep prev p) (hr : ∀ x ∈ p.ids, r (prev x) < r x) (hm : 0 < p.max) (hl : p.ids.length ≤ p.max) (op : PoolOp) :
    ∃ p' o, p.run1 prev op = .ok (p', o) ∧ Rep prev p' ∧ p'.max = p.max ∧ p'.ids.length ≤ p.max ∧ Does prev p.max p.ids op p'.ids o ∧
      ∀ x ∈ p'.ids, x ∈ p.ids ∨ x ∈ added [op] := by
  cases op with
  | add pick id =>
    obtain ⟨p', b, l, e, r', m, pr, hlen, hc⟩ := add_spec hr h hm hl pick id
    have hroom : Room prev p.max p.ids l := by
      rcases pr with hp | ⟨a, v, hv, hk, hl⟩
      · exact .inl hp
      · refine .inr ⟨a, v, hv, fun x hx hxv => ?_, hl⟩
        have : x ∈ kids prev p.ids v := mem_kids.2 ⟨hx, hxv⟩
        rw [hk] at this; cases this
    refine ⟨p', [], by simp only [Pool.run1, e]; rfl, r', m, ?_, ?_, ?_⟩
    · rcases hc with ⟨-, -, hi⟩ | ⟨-, -, hi⟩
      · rw [hi, List.length_append]; simp; omega
      · rw [hi]; omega
    · rcases hc with ⟨-, hn, hi⟩ | ⟨-, hn, hi⟩
      · rw [hi]; exact .add hroom hn
      · rw [hi]; exact .again hroom hn
    · intro x hx
      rcases hc with ⟨-, -, hi⟩ | ⟨-, -, hi⟩
      · rw [hi] at hx
        rcases List.mem_append.1 hx with hx | hx
        · exact .inl (pr.sub x hx)
        · exact .inr hx
      · rw [hi] at hx; exact .inl (pr.sub x hx)
  | take q =>
    obtain ⟨p', e, r', i, m⟩ := take_spec h q
    refine ⟨p', _, e, r', m, ?_, ?_, ?_⟩
    · rw [i]; exact Nat.le_trans (List.length_filter_le ..) hl
    · rw [i]; exact .take
    · intro x hx; rw [i] at hx; exact .inl (List.mem_filter.1 hx).1
  | forget b =>
    obtain ⟨p', e, r', m, ⟨f, hf⟩, hx⟩ := forget_spec h b
    refine ⟨p', [], ?_, r', m, ?_, .forget ?_ hx, ?_⟩
    · have e' : p.removeBelow prev (p.len + 1) [b] = .ok p' := e
      simp only [Pool.run1, e']; rfl
    · rw [hf]; exact Nat.le_trans (List.length_filter_le ..) hl
    · rw [hf]; exact List.filter_sublist
    · intro x hx; rw [hf] at hx; exact .inl (List.mem_filter.1 hx).1

/-- a sequence of calls -/
theorem run_spec {r : Nat → Nat} : ∀ (ops : List PoolOp) {p : Pool}, Rep prev p → (∀ x ∈ p.ids, r (prev x) < r x) → (∀ x ∈ added ops, r (prev x) < r x) → 0 < p.max →
    p.ids.length ≤ p.max → ∃ p' os, Pool.run prev ops p = .ok (p', os) ∧ p'.ids.length ≤ p.max ∧ DoesAll prev p.max p.ids ops p'.ids os
  | [], p, _, _, _, _, hl => ⟨p, [], rfl, hl, .nil⟩
  | op :: ops, p, h, hr, ha, hm, hl => by
    have hadd : ∀ x, x ∈ added [op] ∨ x ∈ added ops → x ∈ added (op :: ops) := by
      intro x hx
      cases op with
      | add pick id =>
        rcases hx with hx | hx
        · rw [List.mem_singleton.1 hx]; exact List.mem_cons_self ..
        · exact List.mem_cons_of_mem _ hx
      | take q =>
        rcases hx with hx | hx
        · cases hx
        · exact hx
      | forget b =>
        rcases hx with hx | hx
        · cases hx
        · exact hx
    obtain ⟨p1, o, e1, r1, m1, l1, d1, s1⟩ := run1_spec h hr hm hl op
    obtain ⟨p2, os, e2, l2, d2⟩ := run_spec ops r1 (fun x hx => by
      rcases s1 x hx with hx | hx
      · exact hr x hx
      · exact ha x (hadd x (.inl hx))) (fun x hx => ha x (hadd x (.inr hx))) (by rw [m1]; exact hm) (by rw [m1]; exact l1)
    rw [m1] at l2 d2
    refine ⟨p2, o :: os, ?_, l2, .cons d1 d2⟩
    rw [Pool.run, e1]
    simp only [bind, Except.bind]
    rw [e2]; rfl

end Verif.Orphans
