import Verif.Reward.Spec
import Verif.Pos.Lemmas
import Mathlib.Tactic.Linarith
import Mathlib.Tactic.Ring
import Mathlib.Algebra.Order.BigOperators.Group.List

/-!
# Lemmas about reward distribution
-/

namespace Verif.Reward
open Verif Verif.Pos Verif.Accounting

theorem sub_some {a b r : Nat} : Amt.sub a b = some r ↔ b ≤ a ∧ r = a - b := by
  unfold Amt.sub
  split <;> simp_all [eq_comm]

theorem sub_none {a b : Nat} : Amt.sub a b = none ↔ a < b := by
  unfold Amt.sub
  split <;> simp_all

theorem mul_some {a b r : Nat} : Amt.mul a b = some r ↔ a * b < U128 ∧ r = a * b := by
  unfold Amt.mul
  split <;> simp_all [eq_comm]

theorem div_some {a b r : Nat} : Amt.div a b = some r ↔ b ≠ 0 ∧ r = a / b := by
  unfold Amt.div
  split <;> simp_all [eq_comm]

theorem mapError_eq_ok {E E' A : Type} {x : Except E A} {w : E → E'} {a : A} : x.mapError w = .ok a ↔ x = .ok a := by
  cases x <;> simp [Except.mapError]

theorem mul256_ok {a b r : Nat} : mul256 a b = .ok r ↔ a * b < U256 ∧ r = a * b := by
  unfold mul256
  split <;> simp_all [eq_comm]

theorem to128_ok {a r : Nat} : to128 a = .ok r ↔ a < U128 ∧ r = a := by
  unfold to128
  split <;> simp_all [eq_comm]

/-- pro-rata part is at most the whole -/
theorem proRata_le {t a b : Nat} (h : a ≤ b) : t * a / b ≤ t := by
  rcases Nat.eq_zero_or_pos b with rfl | hb
  · simp
  · exact Nat.div_le_of_le_mul (by rw [Nat.mul_comm b t]; exact Nat.mul_le_mul_left _ h)

theorem margin_le {t m : Nat} (h : m ≤ 1000) : t * m / 1000 ≤ t := proRata_le h

theorem ownerCut_le {ver : Version} {total cost mpt owner pool : Nat} (hm : mpt ≤ 1000) (ho : owner ≤ pool) :
    ownerCut ver total cost mpt owner pool ≤ total := by
  unfold ownerCut
  split
  · exact le_refl _
  · cases ver with
    | v0 =>
      have := margin_le (t := total - cost) hm
      simp only; omega
    | v1 =>
      have h1 := proRata_le (t := total - cost) ho
      have h2 := margin_le (t := total - cost - (total - cost) * owner / pool) hm
      simp only; omega

theorem ownerCut_ge {ver : Version} {total cost mpt owner pool : Nat} :
    min cost total ≤ ownerCut ver total cost mpt owner pool := by
  unfold ownerCut
  split
  · exact min_le_right _ _
  · have h1 : min cost total ≤ cost := min_le_left _ _
    cases ver with
    | v0 => exact le_trans h1 (Nat.le_add_right _ _)
    | v1 => exact le_trans h1 (le_trans (Nat.le_add_right _ _) (Nat.le_add_right _ _))

theorem stakerRewardV0_some {total cost mpt r : Nat} (h : stakerRewardV0 total cost mpt = some r) (owner pool : Nat) :
    r = ownerCut .v0 total cost mpt owner pool := by
  unfold stakerRewardV0 at h
  cases hs : Amt.sub total cost with
  | none =>
    rw [hs] at h
    injection h with h
    have := sub_none.1 hs
    unfold ownerCut
    rw [if_pos this]; exact h.symm
  | some t =>
    rw [hs] at h
    simp only [Option.bind_eq_bind, Option.bind_eq_some_iff, mul_some, div_some, Amt_add_some] at h
    obtain ⟨h1, rfl⟩ := sub_some.1 hs
    obtain ⟨_, ⟨_, rfl⟩, _, ⟨_, rfl⟩, _, rfl⟩ := h
    unfold ownerCut
    rw [if_neg (by omega)]
    simp only; omega

theorem stakerRewardV1_ok {total cost mpt owner pool r : Nat} (h : stakerRewardV1 total pool owner cost mpt = .ok r) :
    owner ≤ pool ∧ 0 < pool ∧ r = ownerCut .v1 total cost mpt owner pool := by
  simp only [stakerRewardV1, bind_eq_ok, ensure_eq_ok] at h
  obtain ⟨_, h1, _, h2, h⟩ := h
  refine ⟨h1, h2, ?_⟩
  cases hs : Amt.sub total cost with
  | none =>
    rw [hs] at h
    cases h
    have := sub_none.1 hs
    unfold ownerCut
    rw [if_pos this]
  | some t =>
    rw [hs] at h
    simp only [bind_eq_ok, okOr_eq_ok, mul256_ok, div_some, to128_ok, sub_some, Amt_add_some] at h
    obtain ⟨h3, rfl⟩ := sub_some.1 hs
    obtain ⟨_, ⟨_, rfl⟩, _, ⟨_, rfl⟩, _, ⟨_, rfl⟩, _, ⟨_, rfl⟩, _, ⟨_, rfl⟩, _, ⟨_, rfl⟩, _, ⟨_, rfl⟩, _, ⟨_, rfl⟩, _, rfl⟩ := h
    unfold ownerCut
    rw [if_neg (by omega)]
    simp only; omega

/-- version 1 never fails on sound pools -/
theorem stakerRewardV1_isOk {total cost mpt owner pool : Nat} (ht : total < U128) (hp : pool < U128)
    (hm : mpt ≤ 1000) (ho : owner ≤ pool) (h0 : 0 < pool) :
    stakerRewardV1 total pool owner cost mpt = .ok (ownerCut .v1 total cost mpt owner pool) := by
  have key : ∃ r, stakerRewardV1 total pool owner cost mpt = .ok r := by
    simp only [stakerRewardV1, bind_eq_ok, ensure_eq_ok]
    cases hs : Amt.sub total cost with
    | none => exact ⟨total, (), ho, (), h0, rfl⟩
    | some t =>
      obtain ⟨h3, rfl⟩ := sub_some.1 hs
      simp only [bind_eq_ok, okOr_eq_ok, mul256_ok, div_some, to128_ok, sub_some, Amt_add_some]
      have h1 := proRata_le (t := total - cost) ho
      have h2 := margin_le (t := total - cost - (total - cost) * owner / pool) hm
      have e1 : (total - cost) * owner < U256 := by
        unfold U256; exact Nat.mul_lt_mul'' (by omega) (by omega)
      have e2 : (total - cost - (total - cost) * owner / pool) * mpt < U256 := by
        unfold U256
        refine Nat.mul_lt_mul'' (lt_of_le_of_lt (Nat.sub_le _ _) (by omega)) (lt_of_le_of_lt hm (by decide))
      generalize hA : (total - cost) * owner / pool = A at h1 h2 e2 ⊢
      generalize hB : (total - cost - A) * mpt / 1000 = B at h2 ⊢
      exact ⟨_, (), ho, (), h0, _, ⟨e1, rfl⟩, A, ⟨by omega, hA.symm⟩, A, ⟨by omega, rfl⟩, _, ⟨h1, rfl⟩, _, ⟨e2, rfl⟩,
        B, ⟨by omega, hB.symm⟩, B, ⟨by omega, rfl⟩, _, ⟨by omega, rfl⟩, by omega, rfl⟩
  obtain ⟨r, hr⟩ := key
  rw [hr, (stakerRewardV1_ok hr).2.2]

theorem delegationReward_ok {tb tr b r : Nat} (h : delegationReward tb tr b = .ok r) : r = tr * b / tb := by
  simp only [delegationReward, bind_eq_ok, mul256_ok, okOr_eq_ok, div_some] at h
  obtain ⟨_, ⟨_, rfl⟩, _, ⟨_, rfl⟩, h⟩ := h
  split at h
  · cases h; rfl
  · cases h

theorem delegationReward_isOk {tb tr b : Nat} (h0 : tb ≠ 0) (hb : b ≤ tb) (htb : tb < U128) (htr : tr < U128) :
    delegationReward tb tr b = .ok (tr * b / tb) := by
  have hle := proRata_le (t := tr) hb
  have e : tr * b < U256 := by unfold U256; exact Nat.mul_lt_mul'' htr (by omega)
  simp only [delegationReward]
  rw [show mul256 tr b = .ok (tr * b) from mul256_ok.2 ⟨e, rfl⟩]
  show (okOr (Amt.div (tr * b) tb) _ >>= _) = _
  rw [show Amt.div (tr * b) tb = some (tr * b / tb) from div_some.2 ⟨h0, rfl⟩]
  show (if tr * b / tb < U128 then pure (tr * b / tb) else _) = _
  rw [if_pos (by omega)]; rfl

theorem mapM_ok {A B E : Type} {f : A → Except E B} {g : A → B} (hg : ∀ a b, f a = .ok b → b = g a) :
    ∀ {l : List A} {r : List B}, l.mapM f = .ok r → r = l.map g := by
  intro l
  induction l with
  | nil => intro r h; cases h; rfl
  | cons a l ih =>
    intro r h
    rw [List.mapM_cons, bind_eq_ok] at h
    obtain ⟨b, h1, h⟩ := h
    rw [bind_eq_ok] at h
    obtain ⟨bs, h2, h3⟩ := h
    cases h3
    rw [List.map_cons, hg a b h1, ih h2]

theorem mapM_isOk {A B E : Type} {f : A → Except E B} {g : A → B} {l : List A} (hg : ∀ a ∈ l, f a = .ok (g a)) :
    l.mapM f = .ok (l.map g) := by
  induction l with
  | nil => rfl
  | cons a l ih =>
    rw [List.mapM_cons, hg a (by simp), ih (fun b hb => hg b (by simp [hb]))]
    rfl

theorem rewards_ok {m : BMap Nat Nat} {tb tr : Nat} {l : List (Nat × Nat)}
    (h : rewardsPerDelegation m tb tr = .ok l) :
    tb ≠ 0 ∧ l = m.entries.map (fun kv => (kv.1, tr * kv.2 / tb)) := by
  simp only [rewardsPerDelegation, bind_eq_ok, ensure_eq_ok] at h
  obtain ⟨_, h1, h2⟩ := h
  refine ⟨h1, mapM_ok ?_ h2⟩
  rintro ⟨k, v⟩ b hb
  simp only [bind_eq_ok, pure_eq_ok] at hb
  obtain ⟨r, h3, rfl⟩ := hb
  rw [delegationReward_ok h3]

theorem sum_ok {l : List Nat} {n : Nat} (h : Amt.sum l = some n) : n = l.sum := by
  have gen : ∀ (l : List Nat) (a n : Nat), l.foldlM Amt.add a = some n → n = a + l.sum := by
    intro l
    induction l with
    | nil => intro a n h; cases h; simp
    | cons x l ih =>
      intro a n h
      rw [List.foldlM_cons] at h
      cases hx : Amt.add a x with
      | none => rw [hx] at h; cases h
      | some y =>
        rw [hx] at h
        obtain ⟨_, rfl⟩ := Amt_add_some.1 hx
        rw [ih _ _ h, List.sum_cons]
        omega
  simpa using gen l 0 n h

theorem sum_isSome {l : List Nat} (h : l.sum < U128) : Amt.sum l = some l.sum := by
  have gen : ∀ (l : List Nat) (a : Nat), a + l.sum < U128 → l.foldlM Amt.add a = some (a + l.sum) := by
    intro l
    induction l with
    | nil => intro a _; simp
    | cons x l ih =>
      intro a h
      rw [List.sum_cons] at h
      rw [List.foldlM_cons, Amt_add_some.2 ⟨by omega, rfl⟩]
      show l.foldlM Amt.add (a + x) = _
      rw [ih (a + x) (by omega), List.sum_cons]
      congr 1; omega
  have := gen l 0 (by omega)
  simpa [Amt.sum] using this

/-- rounded-down parts never exceed the whole -/
theorem parts_sum_le (l : List Nat) (tr tb : Nat) : (l.map (fun b => tr * b / tb)).sum ≤ tr * l.sum / tb := by
  induction l with
  | nil => simp
  | cons x l ih =>
    rw [List.map_cons, List.sum_cons, List.sum_cons, Nat.mul_add]
    have := Nat.div_add_div_le_add_div (x := tr * x) (y := tr * l.sum) (z := tb)
    omega

/-! ### the sequence of operations performed -/

theorem delegateAll_run {l : List (Nat × Nat)} {c c' : Cache} {us : List Undo} (h : delegateAll c l = .ok (c', us)) :
    History.run step c (l.map (fun x => Op.delegateStaking x.1 x.2)) = .ok (c', us) := by
  induction l generalizing c us with
  | nil => cases h; rfl
  | cons x l ih =>
    obtain ⟨d, r⟩ := x
    simp only [delegateAll, bind_eq_ok, mapError_eq_ok, pure_eq_ok, Prod.mk.injEq] at h
    obtain ⟨⟨c1, u⟩, h1, ⟨c2, us'⟩, h2, rfl, rfl⟩ := h
    have := ih h2
    simp only [List.map_cons, History.run, bind_eq_ok, pure_eq_ok]
    exact ⟨(c1, u), h1, (c2, us'), this, rfl⟩

theorem run_append {S U E O : Type} {stp : S → O → Except E (S × U)} {c c1 c2 : S} {us1 us2 : List U} {l1 l2 : List O}
    (h1 : History.run stp c l1 = .ok (c1, us1)) (h2 : History.run stp c1 l2 = .ok (c2, us2)) :
    History.run stp c (l1 ++ l2) = .ok (c2, us1 ++ us2) := by
  induction l1 generalizing c us1 with
  | nil => cases h1; exact h2
  | cons x l ih =>
    simp only [List.cons_append, History.run, bind_eq_ok, pure_eq_ok, Prod.mk.injEq] at h1 ⊢
    obtain ⟨⟨s, u⟩, g1, ⟨s2, us'⟩, g2, rfl, rfl⟩ := h1
    exact ⟨(s, u), g1, (c2, us' ++ us2), ih g2, rfl, rfl⟩

/-- effect of a list of `delegate_staking` calls on the layer's signed changes -/
theorem delegateAll_ok {l : List (Nat × Nat)} {c c' : Cache} {us : List Undo} (h : delegateAll c l = .ok (c', us)) (p : Nat)
    (hsrc : ∀ x ∈ l, ∃ k, c.view.delegationData x.1 = .ok (some ⟨k, p⟩)) :
    c'.parent = c.parent ∧ c'.delta.poolData = c.delta.poolData ∧ c'.delta.delegationData = c.delta.delegationData ∧
    (∀ q, dval (c'.delta.poolBalances.get q) =
      dval (c.delta.poolBalances.get q) + if q = p then ((l.map Prod.snd).sum : Nat) else 0) ∧
    (∀ d, dval (c'.delta.delegationBalances.get d) =
      dval (c.delta.delegationBalances.get d) + ((l.map (fun x => if d = x.1 then x.2 else 0)).sum : Nat)) ∧
    (∀ k, dval (c'.delta.shares.get k) =
      dval (c.delta.shares.get k) + ((l.map (fun x => if k = key p x.1 then x.2 else 0)).sum : Nat)) := by
  induction l generalizing c us with
  | nil => cases h; simp
  | cons x l ih =>
    obtain ⟨e, r⟩ := x
    simp only [delegateAll, bind_eq_ok, mapError_eq_ok, pure_eq_ok, Prod.mk.injEq] at h
    obtain ⟨⟨c1, u⟩, h1, ⟨c2, us'⟩, h2, rfl, rfl⟩ := h
    obtain ⟨data, db, pb, sh, g1, g2, g3, g4, rfl, -⟩ := delegateStaking_ok.1 h1
    obtain ⟨k, hk⟩ := hsrc (e, r) (by simp)
    rw [hk] at g1
    cases g1
    obtain ⟨i1, i2, i3, i4, i5, i6⟩ := ih h2 (fun y hy => hsrc y (by simp [hy]))
    refine ⟨i1, i2, i3, fun q => ?_, fun d => ?_, fun q => ?_⟩
    · rw [i4, dval_add g3]
      simp only [List.map_cons, List.sum_cons]
      split <;> push_cast <;> ring
    · rw [i5, dval_add g2]
      simp only [List.map_cons, List.sum_cons]
      split <;> push_cast <;> ring
    · rw [i6, dval_add g4]
      simp only [List.map_cons, List.sum_cons]
      split <;> push_cast <;> ring

theorem sum_lookup (f : Nat → Nat) (d : Nat) : ∀ (l : List (Nat × Nat)), l.Pairwise (fun a b => a.1 < b.1) →
    (l.map (fun kv => if d = kv.1 then f kv.2 else 0)).sum = ((BMap.lookupL l d).map f).getD 0
  | [], _ => rfl
  | (k, v) :: l, h => by
    rw [List.pairwise_cons] at h
    rw [List.map_cons, List.sum_cons, sum_lookup f d l h.2]
    by_cases e : d = k
    · subst e
      rw [BMap.lookupL_eq_none_of_lt h.1]
      simp [BMap.lookupL]
    · rw [if_neg e]
      simp [BMap.lookupL, e]

theorem sum_filter_pos (g : Nat × Nat → Nat) (hg : ∀ x, x.2 = 0 → g x = 0) (l : List (Nat × Nat)) :
    ((l.filter (fun x => x.2 > 0)).map g).sum = (l.map g).sum := by
  induction l with
  | nil => rfl
  | cons x l ih =>
    rw [List.filter_cons]
    split
    · simp [ih]
    · rename_i h
      have : x.2 = 0 := by simpa using h
      rw [ih, List.map_cons, List.sum_cons, hg x this]; simp

theorem sharesTotal_some (m : BMap Nat Nat) : sharesTotal (some m) = (m.entries.map Prod.snd).sum := rfl

/-- the list of (delegation, reward) pairs paid out -/
def payouts (o : Option (BMap Nat Nat)) (rest : Nat) : List (Nat × Nat) :=
  match o with
  | none => []
  | some m => (m.entries.map (fun kv => (kv.1, part o rest kv.1))).filter (fun x => x.2 > 0)

theorem part_entry {m : BMap Nat Nat} {rest : Nat} {kv : Nat × Nat} (h : kv ∈ m.entries) (h0 : sharesTotal (some m) ≠ 0) :
    part (some m) rest kv.1 = rest * kv.2 / sharesTotal (some m) := by
  unfold part
  rw [if_neg h0]
  have : m.get kv.1 = some kv.2 := BMap.mem_entries.1 h
  simp [shareOf, this]

theorem payouts_sum (o : Option (BMap Nat Nat)) (rest : Nat) : ((payouts o rest).map Prod.snd).sum = parts o rest := by
  cases o with
  | none => rfl
  | some m =>
    unfold payouts parts
    simp only
    rw [sum_filter_pos Prod.snd (fun x h => h), List.map_map]
    rfl

theorem payouts_part (o : Option (BMap Nat Nat)) (rest d : Nat) :
    ((payouts o rest).map (fun x => if d = x.1 then x.2 else 0)).sum = part o rest d := by
  cases o with
  | none => simp [payouts, part, sharesTotal]
  | some m =>
    unfold payouts
    simp only
    rw [sum_filter_pos (fun x => if d = x.1 then x.2 else 0) (fun x h => by simp [h]), List.map_map]
    by_cases h0 : sharesTotal (some m) = 0
    · have hp : ∀ k, part (some m) rest k = 0 := fun k => by unfold part; rw [if_pos h0]
      rw [hp]
      simp [Function.comp_def, hp]
    · have : m.entries.map ((fun x : Nat × Nat => if d = x.1 then x.2 else 0) ∘ fun kv => (kv.1, part (some m) rest kv.1)) =
          m.entries.map (fun kv => if d = kv.1 then rest * kv.2 / sharesTotal (some m) else 0) := by
        refine List.map_congr_left fun kv hkv => ?_
        simp only [Function.comp_apply]
        rw [part_entry hkv h0]
      rw [this, sum_lookup (fun v => rest * v / sharesTotal (some m)) d _ m.sorted]
      unfold part
      rw [if_neg h0]
      show ((m.get d).map _).getD 0 = _
      cases hg : m.get d <;> simp [shareOf, hg]

theorem parts_le (o : Option (BMap Nat Nat)) (rest : Nat) : parts o rest ≤ rest := by
  cases o with
  | none => exact Nat.zero_le _
  | some m =>
    unfold parts
    simp only
    by_cases h0 : sharesTotal (some m) = 0
    · have hp : ∀ k, part (some m) rest k = 0 := fun k => by unfold part; rw [if_pos h0]
      simp [hp]
    · have : m.entries.map (fun kv => part (some m) rest kv.1) =
          (m.entries.map Prod.snd).map (fun b => rest * b / sharesTotal (some m)) := by
        rw [List.map_map]
        exact List.map_congr_left fun kv hkv => part_entry hkv h0
      rw [this]
      refine le_trans (parts_sum_le _ _ _) ?_
      rw [← sharesTotal_some]
      exact proRata_le (le_refl _)

/-- at most one unit per delegation stays unallocated -/
theorem parts_remainder (m : BMap Nat Nat) (rest : Nat) (h0 : sharesTotal (some m) ≠ 0) :
    rest < parts (some m) rest + m.entries.length ∨ rest = parts (some m) rest := by
  have key : ∀ (l : List Nat) (tb : Nat), 0 < tb →
      rest * l.sum ≤ tb * (l.map (fun b => rest * b / tb)).sum + l.length * (tb - 1) := by
    intro l tb htb
    induction l with
    | nil => simp
    | cons x l ih =>
      simp only [List.sum_cons, List.map_cons, List.length_cons, Nat.mul_add, Nat.add_mul, Nat.one_mul]
      have h1 := Nat.div_add_mod (rest * x) tb
      have h2 := Nat.mod_lt (rest * x) htb
      omega
  have e : parts (some m) rest = ((m.entries.map Prod.snd).map (fun b => rest * b / sharesTotal (some m))).sum := by
    unfold parts
    simp only
    rw [List.map_map]
    congr 1
    exact List.map_congr_left fun kv hkv => part_entry hkv h0
  have k := key (m.entries.map Prod.snd) _ (Nat.pos_of_ne_zero h0)
  rw [← e, ← sharesTotal_some, List.length_map] at k
  generalize sharesTotal (some m) = T at k h0
  generalize parts (some m) rest = P at k ⊢
  generalize m.entries.length = n at k ⊢
  have hT : 0 < T := Nat.pos_of_ne_zero h0
  by_contra hc
  rw [not_or, not_lt] at hc
  obtain ⟨c1, c2⟩ := hc
  -- rest ≥ P + n, n ≥ 1 or rest ≠ P
  rcases Nat.eq_zero_or_pos n with rfl | hn
  · simp only [Nat.zero_mul, Nat.add_zero] at k c1
    have : rest ≤ P := Nat.le_of_mul_le_mul_left (by rw [Nat.mul_comm T rest]; exact k) hT
    omega
  · have h3 : T * (P + n) ≤ rest * T := by rw [Nat.mul_comm rest T]; exact Nat.mul_le_mul_left _ c1
    rw [Nat.mul_add] at h3
    have h4 : T * n ≤ n * (T - 1) := by omega
    rw [Nat.mul_comm T n] at h4
    have := Nat.le_of_mul_le_mul_left h4 hn
    omega

theorem payouts_share {o : Option (BMap Nat Nat)} {rest : Nat} {x : Nat × Nat} (h : x ∈ payouts o rest) :
    shareOf o x.1 ≠ 0 := by
  cases o with
  | none => cases h
  | some m =>
    unfold payouts at h
    simp only [List.mem_filter, List.mem_map] at h
    obtain ⟨⟨kv, -, rfl⟩, h⟩ := h
    intro e
    have e : shareOf (some m) kv.1 = 0 := e
    simp [part, e] at h

theorem key_eq {p q d e : Nat} : key p d = key q e ↔ p = q ∧ d = e := by
  unfold key
  simp

theorem getBal_shift {K E : Type} [LinearOrder K] {wrap : Accounting.Err → E} {parent : K → Except E Nat} {c r : AmountColl K}
    {k : K} {a v w : Nat} (h : dval (r.get k) = dval (c.get k) + a)
    (h1 : getBal wrap parent c k = .ok v) (h2 : getBal wrap parent r k = .ok w) : w = v + a := by
  obtain ⟨p, hp, e1, _⟩ := getBal_ok.1 h1
  obtain ⟨p', hp', e2, _⟩ := getBal_ok.1 h2
  rw [hp] at hp'; cases hp'
  omega

theorem delegateAll_nil {c c1 : Cache} {us : List Undo} (h : delegateAll c [] = .ok (c1, us)) : c1 = c ∧ us = [] := by
  cases h; exact ⟨rfl, rfl⟩

theorem payouts_zero (o : Option (BMap Nat Nat)) : payouts o 0 = [] := by
  cases o with
  | none => rfl
  | some m =>
    unfold payouts
    rw [List.filter_eq_nil_iff]
    intro x hx
    obtain ⟨kv, -, rfl⟩ := List.mem_map.1 hx
    simp [part]

theorem payouts_noShares {o : Option (BMap Nat Nat)} (h : sharesTotal o = 0) (rest : Nat) : payouts o rest = [] := by
  cases o with
  | none => rfl
  | some m =>
    unfold payouts
    rw [List.filter_eq_nil_iff]
    intro x hx
    obtain ⟨kv, -, rfl⟩ := List.mem_map.1 hx
    simp [part, h]

theorem distributeRest_ok {c c1 : Cache} {p rest rem : Nat} {us : List Undo} {o : Option (BMap Nat Nat)}
    (ho : c.view.shares p = .ok o) (h : distributeRest c p rest = .ok (c1, us, rem)) :
    delegateAll c (payouts o rest) = .ok (c1, us) ∧ rem = rest - parts o rest := by
  unfold distributeRest at h
  split at h
  · rw [ho] at h
    simp only [Except.mapError] at h
    cases o with
    | none => cases h; exact ⟨rfl, rfl⟩
    | some m =>
      simp only [bind_eq_ok, okOr_eq_ok, Except.ok.injEq, exists_eq_left'] at h
      obtain ⟨b, hb, h⟩ := h
      have hbT : b = sharesTotal (some m) := by rw [sharesTotal_some]; exact sum_ok hb
      split at h
      · rename_i hpos
        have h0 : sharesTotal (some m) ≠ 0 := by omega
        simp only [distributeDelegations, bind_eq_ok, okOr_eq_ok, sub_some, pure_eq_ok, Prod.mk.injEq] at h
        obtain ⟨rw1, h1, ⟨c2, us2⟩, h2, dd, h3, rr, ⟨h4, rfl⟩, rfl, rfl, rfl⟩ := h
        obtain ⟨-, h5⟩ := rewards_ok h1
        have h6 : rw1 = m.entries.map (fun kv => (kv.1, part (some m) rest kv.1)) := by
          rw [h5]
          refine List.map_congr_left fun kv hkv => ?_
          rw [part_entry hkv h0, hbT]
        subst h6
        refine ⟨h2, ?_⟩
        rw [sum_ok h3, List.map_map]; rfl
      · have h0 : sharesTotal (some m) = 0 := by omega
        cases h
        rw [payouts_noShares h0, ← payouts_sum, payouts_noShares h0]
        exact ⟨rfl, rfl⟩
  · have h0 : rest = 0 := by omega
    subst h0
    cases h
    rw [payouts_zero]
    exact ⟨rfl, by omega⟩

theorem distribute_ok {c c' : Cache} {p total : Nat} {ver : Version} {us : List Undo} {o : Option (BMap Nat Nat)}
    (ho : c.view.shares p = .ok o) (h : distribute c p total ver = .ok (c', us)) :
    ∃ d b s c1 us1 u, c.view.poolData p = .ok (some d) ∧ c.view.poolBalance p = .ok b ∧
      stakerReward ver total b d = .ok s ∧ s ≤ total ∧ delegateAll c (payouts o (total - s)) = .ok (c1, us1) ∧
      increaseStakerRewards c1 p (total - parts o (total - s)) = .ok (c', u) ∧ us = us1 ++ [u] := by
  simp only [distribute, bind_eq_ok, okOr_eq_ok, mapError_eq_ok, sub_some, Amt_add_some, pure_eq_ok, Prod.mk.injEq] at h
  obtain ⟨_, h1, d, rfl, b, h2, s, h3, _, ⟨h4, rfl⟩, ⟨c1, us1, rem⟩, h5, ts, ⟨_, rfl⟩, ⟨c2, u⟩, h7, rfl, rfl⟩ := h
  obtain ⟨h8, rfl⟩ := distributeRest_ok ho h5
  have h9 := parts_le o (total - s)
  refine ⟨d, b, s, c1, us1, u, h1, h2, h3, h4, h8, ?_, rfl⟩
  rw [show total - parts o (total - s) = s + (total - s - parts o (total - s)) by omega]
  exact h7

theorem delegateAll_error {l : List (Nat × Nat)} {c : Cache} {e : Err} (h : delegateAll c l = .error e) :
    ∃ x, e = .pos x := by
  induction l generalizing c with
  | nil => cases h
  | cons x l ih =>
    obtain ⟨d, r⟩ := x
    simp only [delegateAll] at h
    cases h1 : delegateStaking c d r with
    | error y => rw [h1] at h; cases h; exact ⟨_, rfl⟩
    | ok y =>
      rw [h1] at h
      simp only [Except.mapError, bind, Except.bind] at h
      cases h2 : delegateAll y.1 l with
      | error z => rw [h2] at h; cases h; exact ih h2
      | ok z => rw [h2] at h; cases h

/-- the part after the owner's cut fails only inside staking operations -/
theorem distributeRest_error {c : Cache} {p rest : Nat} {o : Option (BMap Nat Nat)} {e : Err}
    (ho : c.view.shares p = .ok o) (hT : sharesTotal o < U128) (hr : rest < U128)
    (h : distributeRest c p rest = .error e) : ∃ x, e = .pos x := by
  unfold distributeRest at h
  split at h
  · rw [ho] at h
    simp only [Except.mapError] at h
    cases o with
    | none => cases h
    | some m =>
      have hb : Amt.sum (m.entries.map Prod.snd) = some (sharesTotal (some m)) := sum_isSome hT
      simp only [bind, Except.bind, hb, okOr] at h
      split at h
      · rename_i hpos
        have h0 : sharesTotal (some m) ≠ 0 := by omega
        have hrew : rewardsPerDelegation m (sharesTotal (some m)) rest =
            .ok (m.entries.map (fun kv => (kv.1, part (some m) rest kv.1))) := by
          simp only [rewardsPerDelegation]
          rw [show ensure (sharesTotal (some m) ≠ 0) Err.totalDelegationBalanceZero = .ok () from ensure_eq_ok.2 h0]
          refine mapM_isOk fun kv hkv => ?_
          have hle : kv.2 ≤ sharesTotal (some m) := by
            rw [sharesTotal_some]
            exact List.single_le_sum (fun _ _ => Nat.zero_le _) _ (List.mem_map.2 ⟨kv, hkv, rfl⟩)
          rw [delegationReward_isOk h0 hle hT hr, part_entry hkv h0]
          rfl
        have hps := parts_le (some m) rest
        have hsum : Amt.sum ((m.entries.map (fun kv => (kv.1, part (some m) rest kv.1))).map Prod.snd) =
            some (parts (some m) rest) := by
          rw [List.map_map]
          exact sum_isSome (l := m.entries.map (fun kv => part (some m) rest kv.1))
            (lt_of_le_of_lt hps hr)
        simp only [distributeDelegations, bind, Except.bind, hrew] at h
        cases hda : delegateAll c ((m.entries.map (fun kv => (kv.1, part (some m) rest kv.1))).filter (fun x => x.2 > 0)) with
        | error z => rw [hda] at h; cases h; exact delegateAll_error hda
        | ok z =>
          rw [hda] at h
          simp only [hsum, okOr, sub_some.2 ⟨hps, rfl⟩] at h
          cases h
      · cases h
  · cases h

theorem stakerReward_ok {ver : Version} {total b s : Nat} {d : PoolData} (h : stakerReward ver total b d = .ok s) :
    s = ownerCut ver total d.costPerBlock d.margin (d.pledge + d.rewards) b ∧
    (ver = .v1 → d.pledge + d.rewards ≤ b ∧ 0 < b) := by
  cases ver with
  | v0 =>
    simp only [stakerReward, okOr_eq_ok] at h
    exact ⟨stakerRewardV0_some h _ _, by intro h; cases h⟩
  | v1 =>
    simp only [stakerReward, bind_eq_ok, mapError_eq_ok, PoolData.stakerBalance, okOr_eq_ok, Amt_add_some] at h
    obtain ⟨_, ⟨_, rfl⟩, h⟩ := h
    obtain ⟨h1, h2, h3⟩ := stakerRewardV1_ok h
    exact ⟨h3, fun _ => ⟨h1, h2⟩⟩

end Verif.Reward
