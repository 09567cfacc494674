import Mathlib.Data.List.Induction
import Verif.Epoch.RandomnessSpec

/-!
# Lemmas on the randomness of epochs
-/

namespace Verif.Epoch.Rnd
open Verif
open Verif.Stake (Net epochOf lastInEpoch sealedEpoch subIn)

variable {B : Type} {w : World B}

/-! ### the cache -/

theorem get_set (c : Cache) (e r x : Nat) : (c.set e r).get x = if x = e then some r else c.get x := by
  unfold Cache.get Cache.set
  by_cases h : x = e
  · subst h; simp [BMap.get_insert_self]
  · simp only [BMap.get_insert_ne _ _ h, if_neg h]

theorem get_del (c : Cache) (e x : Nat) : (c.del e).get x = if x = e then none else c.get x := by
  unfold Cache.get Cache.del
  by_cases h : x = e
  · subst h; simp [BMap.get_insert_self]
  · simp only [BMap.get_insert_ne _ _ h, if_neg h]

theorem get_new (s : Store) (x : Nat) : (Cache.new s).get x = s.get x := rfl

theorem foldl_flush (l : List (Nat × Option Nat)) (hs : l.Pairwise (fun a b => a.1 < b.1)) (s : Store) (x : Nat) :
    (l.foldl flushOne s).get x = match BMap.lookupL l x with | some (some r) => some r | some none => none | none => s.get x := by
  induction l generalizing s with
  | nil => simp [BMap.lookupL]
  | cons a l ih =>
    obtain ⟨k, v⟩ := a
    rw [List.pairwise_cons] at hs
    rw [List.foldl_cons, ih hs.2]
    by_cases hk : x = k
    · subst hk
      have hn : BMap.lookupL l x = none := BMap.lookupL_eq_none_of_lt (fun y hy => hs.1 y hy)
      rw [hn]
      cases v <;> simp [flushOne, BMap.lookupL, BMap.get_insert_self, BMap.get_erase]
    · have : BMap.lookupL ((k, v) :: l) x = BMap.lookupL l x := by
        simp only [BMap.lookupL]
        rw [if_neg (by simpa using fun h => hk (h : x = k))]
      rw [this]
      cases hl : BMap.lookupL l x with
      | none => cases v <;> simp [flushOne, BMap.get_insert_ne _ _ hk, BMap.get_erase, hk]
      | some o => cases o <;> rfl

theorem get_flush (c : Cache) (x : Nat) : (c.flush c.parent).get x = c.get x := by
  unfold Cache.flush Cache.get
  rw [foldl_flush _ c.data.sorted]
  rfl

/-! ### epochs -/

theorem lastOf_succ {n : Net} (hL : 0 < n.epochLength) (e : Nat) : lastOf n e + 1 = (e + 1) * n.epochLength := by
  unfold lastOf
  rw [Nat.succ_mul]
  omega

theorem epochOf_lastOf {n : Net} (hL : 0 < n.epochLength) (e : Nat) : epochOf n (lastOf n e) = e := by
  unfold epochOf lastOf
  rw [Nat.mul_comm, Nat.mul_add_div hL, Nat.div_eq_of_lt (by omega)]; rfl

theorem lastInEpoch_iff {n : Net} (hL : 0 < n.epochLength) (h : Nat) : lastInEpoch n h = true ↔ h = lastOf n (epochOf n h) := by
  constructor
  · intro hh
    unfold lastInEpoch at hh
    have hd : n.epochLength ∣ h + 1 := Nat.dvd_of_mod_eq_zero (by simpa using hh)
    obtain ⟨k, hk⟩ := hd
    cases k with
    | zero => omega
    | succ k =>
      have : h = lastOf n k := by
        have := lastOf_succ hL k
        rw [Nat.mul_comm] at hk
        omega
      rw [this, epochOf_lastOf hL]
  · intro hh
    rw [hh]
    unfold lastInEpoch
    rw [lastOf_succ hL]
    simp

theorem lastOf_lt {n : Net} (hL : 0 < n.epochLength) {a b : Nat} (h : a < b) : lastOf n a < lastOf n b := by
  have h1 := lastOf_succ hL a
  have h2 := lastOf_succ hL b
  have : (a + 1) * n.epochLength < (b + 1) * n.epochLength := Nat.mul_lt_mul_of_pos_right (by omega) hL
  omega

theorem lastOf_le {n : Net} (hL : 0 < n.epochLength) {a b : Nat} (h : a ≤ b) : lastOf n a ≤ lastOf n b := by
  rcases Nat.lt_or_ge a b with h' | h'
  · exact Nat.le_of_lt (lastOf_lt hL h')
  · rw [Nat.le_antisymm h h']

/-- the height is in its epoch -/
theorem in_epoch {n : Net} (hL : 0 < n.epochLength) (h : Nat) : epochOf n h * n.epochLength ≤ h ∧ h ≤ lastOf n (epochOf n h) := by
  have h1 : h / n.epochLength * n.epochLength ≤ h := Nat.div_mul_le_self _ _
  have h2 := Nat.lt_div_mul_add (a := h) hL
  have h3 := lastOf_succ hL (epochOf n h)
  rw [Nat.succ_mul] at h3
  unfold epochOf at *
  exact ⟨h1, by omega⟩

/-- the epochs finished with a height -/
theorem finished {n : Net} (hL : 0 < n.epochLength) (h : Nat) :
    (h + 1) / n.epochLength = if lastInEpoch n h = true then epochOf n h + 1 else epochOf n h := by
  by_cases hl : lastInEpoch n h = true
  · rw [if_pos hl]
    have := (lastInEpoch_iff hL h).1 hl
    rw [this, lastOf_succ hL, Nat.mul_div_cancel _ hL, epochOf_lastOf hL]
  · rw [if_neg hl]
    have h1 := in_epoch hL h
    have h2 : h ≠ lastOf n (epochOf n h) := fun hh => hl ((lastInEpoch_iff hL h).2 hh)
    have h3 := lastOf_succ hL (epochOf n h)
    refine Nat.div_eq_of_lt_le (by omega) ?_
    omega

/-! ### the specification -/

theorem contribution_append {c l : List B} {h x : Nat} (hh : h < c.length) : contribution w (c ++ l) h x = contribution w c h x := by
  unfold contribution
  rw [List.take_append_of_le_length (by omega)]

theorem rndF_append (hL : 0 < w.net.epochLength) {c : List B} (l : List B) (f e : Nat) (hh : lastOf w.net e < c.length) :
    rndF w (c ++ l) f e = rndF w c f e := by
  induction f generalizing e with
  | zero => rfl
  | succ f ih =>
    simp only [rndF]
    rw [contribution_append hh, ih]
    exact Nat.lt_of_le_of_lt (lastOf_le hL (Nat.sub_le _ _)) hh

theorem rnd_append (hL : 0 < w.net.epochLength) {c : List B} (l : List B) {e : Nat} (hh : lastOf w.net e < c.length) : rnd w (c ++ l) e = rnd w c e :=
  rndF_append hL l _ e hh

theorem rndF_fuel (hd : 1 ≤ w.net.sealDistance) (c : List B) (f e : Nat) (hf : e < f) : rndF w c f e = rnd w c e := by
  induction e using Nat.strongRecOn generalizing f with
  | _ e ih =>
    obtain ⟨f, rfl⟩ : ∃ k, f = k + 1 := ⟨f - 1, by omega⟩
    unfold rnd
    simp only [rndF]
    by_cases h : w.net.sealDistance ≤ e
    · simp only [if_pos h]
      rw [ih _ (by omega) f (by omega), ih _ (by omega) e (by omega)]
    · simp only [if_neg h]

/-- the equation of the randomness -/
theorem rnd_eq (hd : 1 ≤ w.net.sealDistance) (c : List B) (e : Nat) :
    rnd w c e = contribution w c (lastOf w.net e)
      (if w.net.sealDistance ≤ e then (rnd w c (e - w.net.sealDistance)).getD w.net.initialRandomness else w.net.initialRandomness) := by
  conv_lhs => unfold rnd
  simp only [rndF]
  by_cases h : w.net.sealDistance ≤ e
  · simp only [if_pos h]
    rw [rndF_fuel hd _ _ _ (by omega)]
  · simp only [if_neg h]

/-! ### the invariant -/

/-- the data of the finished epochs is right, that of the epochs not begun is absent, as is that of the epochs that have none -/
structure Good (w : World B) (c : List B) (g : Nat → Option Nat) : Prop where
  ne : c ≠ []
  done : ∀ e, lastOf w.net e < c.length → g e = rnd w c e
  future : ∀ e, c.length ≤ e * w.net.epochLength → g e = none
  void : ∀ e, ¬ (w.posAt (lastOf w.net e) = true ∧ lastOf w.net e ≠ 0) → g e = none

theorem rnd_void {c : List B} {e : Nat} (h : ¬ (w.posAt (lastOf w.net e) = true ∧ lastOf w.net e ≠ 0)) : rnd w c e = none := by
  unfold rnd
  simp only [rndF, contribution, if_neg h]

theorem seed_eq (hL : 0 < w.net.epochLength) (hd : 1 ≤ w.net.sealDistance) {c : List B} {g : Nat → Option Nat} (hg : Good w c g) :
    seed w g c.length = given w c c.length := by
  unfold seed given sealedEpoch
  rw [finished hL]
  have hin := in_epoch hL c.length
  by_cases hl : lastInEpoch w.net c.length = true
  · simp only [if_pos hl, subIn]
    by_cases hc : w.net.sealDistance ≤ epochOf w.net c.length
    · rw [if_pos hc, if_pos (by omega)]
      simp only [Option.map_some, Option.join_some]
      rw [hg.done]
      · rfl
      · have := lastOf_lt hL (n := w.net) (a := epochOf w.net c.length - w.net.sealDistance) (b := epochOf w.net c.length) (by omega)
        have := (lastInEpoch_iff hL c.length).1 hl
        omega
    · rw [if_neg hc, if_neg (by omega)]
      rfl
  · simp only [if_neg hl, subIn]
    by_cases hc : w.net.sealDistance + 1 ≤ epochOf w.net c.length
    · rw [if_pos hc, if_pos (by omega)]
      simp only [Option.map_some, Option.join_some]
      have he : epochOf w.net c.length - 1 - w.net.sealDistance = epochOf w.net c.length - (w.net.sealDistance + 1) := by omega
      rw [hg.done, he]
      have h1 := lastOf_succ hL (epochOf w.net c.length - (w.net.sealDistance + 1))
      have h2 : (epochOf w.net c.length - (w.net.sealDistance + 1) + 1) * w.net.epochLength ≤ epochOf w.net c.length * w.net.epochLength :=
        Nat.mul_le_mul_right _ (by omega)
      omega
    · rw [if_neg hc, if_neg (by omega)]
      rfl

theorem up_get {c : List B} {b : B} {k k' : Cache} (h : up w k (c ++ [b]) b c.length = some k') :
    (∀ e, k'.get e = if lastInEpoch w.net c.length = true ∧ w.isPos b = true ∧ e = epochOf w.net c.length then w.fresh (c ++ [b]) (seed w k.get c.length) else k.get e) ∧
    k'.parent = k.parent := by
  unfold up at h
  split at h
  · rename_i h1
    split at h
    · rename_i h2
      cases hf : w.fresh (c ++ [b]) (seed w k.get c.length) with
      | none => rw [hf] at h; cases h
      | some r =>
        rw [hf] at h
        cases h
        refine ⟨fun e => ?_, rfl⟩
        rw [get_set]
        by_cases he : e = epochOf w.net c.length
        · rw [if_pos he, if_pos ⟨h1, h2, he⟩]
        · rw [if_neg he, if_neg (fun h => he h.2.2)]
    · rename_i h2
      cases h
      exact ⟨fun e => by rw [if_neg (fun h => h2 h.2.1)], rfl⟩
  · rename_i h1
    cases h
    exact ⟨fun e => by rw [if_neg (fun h => h1 h.1)], rfl⟩

theorem good_up (hL : 0 < w.net.epochLength) (hd : 1 ≤ w.net.sealDistance) {c : List B} {b : B} {k k' : Cache} (hg : Good w c k.get)
    (hb : w.isPos b = w.posAt c.length) (h : up w k (c ++ [b]) b c.length = some k') : Good w (c ++ [b]) k'.get := by
  have hk := (up_get h).1
  have hlen : (c ++ [b]).length = c.length + 1 := by simp
  have hpos : 0 < c.length := List.length_pos_iff.2 hg.ne
  have hin := in_epoch hL c.length
  refine ⟨by simp, ?_, ?_, ?_⟩
  · intro e he
    rw [hlen] at he
    rw [hk]
    rcases Nat.lt_or_ge (lastOf w.net e) c.length with hlt | hge
    · rw [if_neg, hg.done e hlt, rnd_append hL _ hlt]
      rintro ⟨h1, -, rfl⟩
      have := (lastInEpoch_iff hL c.length).1 h1
      omega
    · have heq : c.length = lastOf w.net e := by omega
      have hee : epochOf w.net c.length = e := by rw [heq, epochOf_lastOf hL]
      have hl : lastInEpoch w.net c.length = true := (lastInEpoch_iff hL _).2 (by rw [hee, ← heq])
      by_cases hp : w.posAt c.length = true
      · rw [if_pos ⟨hl, by rw [hb, hp], hee.symm⟩, seed_eq hL hd hg, rnd_eq hd]
        unfold contribution
        rw [← heq, if_pos ⟨hp, by omega⟩, List.take_of_length_le (by omega)]
        congr 1
        unfold given
        rw [finished hL, if_pos hl, hee]
        by_cases hc : w.net.sealDistance ≤ e
        · rw [if_pos hc, if_pos (by omega), Nat.add_sub_cancel, rnd_append hL]
          rw [heq]
          exact lastOf_lt hL (by omega)
        · rw [if_neg hc, if_neg (by omega)]
      · have hv : ¬ (w.posAt (lastOf w.net e) = true ∧ lastOf w.net e ≠ 0) := by
          rw [← heq]; exact fun h => hp h.1
        rw [if_neg (fun h => hp (hb ▸ h.2.1)), hg.void e hv, rnd_void hv]
  · intro e he
    rw [hlen] at he
    rw [hk, if_neg, hg.future e (by omega)]
    rintro ⟨-, -, rfl⟩
    omega
  · intro e he
    rw [hk]
    by_cases hc : lastInEpoch w.net c.length = true ∧ w.isPos b = true ∧ e = epochOf w.net c.length
    · exfalso
      have h1 := (lastInEpoch_iff hL c.length).1 hc.1
      rw [← hc.2.2] at h1
      refine he ⟨?_, by omega⟩
      rw [← h1, ← hb, hc.2.1]
    · rw [if_neg hc, hg.void e he]

theorem down_get (k : Cache) (h e : Nat) :
    (down w k h).get e = if lastInEpoch w.net h = true ∧ e = epochOf w.net (h + 1) then none else k.get e := by
  unfold down
  split
  · rename_i h1
    rw [get_del]
    by_cases he : e = epochOf w.net (h + 1)
    · rw [if_pos he, if_pos ⟨h1, he⟩]
    · rw [if_neg he, if_neg (fun h => he h.2)]
  · rename_i h1
    rw [if_neg (fun h => h1 h.1)]

theorem good_down (hL : 0 < w.net.epochLength) {c : List B} {b : B} {k : Cache} (hg : Good w (c ++ [b]) k.get) (hc : c ≠ []) :
    Good w c (down w k (c.length - 1)).get := by
  have hlen : (c ++ [b]).length = c.length + 1 := by simp
  have hpos : 0 < c.length := List.length_pos_iff.2 hc
  have h1 : c.length - 1 + 1 = c.length := by omega
  refine ⟨hc, ?_, ?_, ?_⟩
  · intro e he
    rw [down_get, if_neg, hg.done e (by omega), rnd_append hL _ he]
    rintro ⟨-, rfl⟩
    rw [h1] at he
    have := in_epoch hL c.length
    omega
  · intro e he
    rw [down_get, h1]
    by_cases hx : c.length + 1 ≤ e * w.net.epochLength
    · rw [hg.future e (by omega)]; simp
    · have heq : e * w.net.epochLength = c.length := by omega
      rw [if_pos]
      constructor
      · unfold lastInEpoch
        rw [h1, ← heq]
        simp
      · unfold epochOf
        rw [← heq, Nat.mul_div_cancel _ hL]
  · intro e he
    rw [down_get, hg.void e he]; simp

theorem down_parent (k : Cache) (h : Nat) : (down w k h).parent = k.parent := by
  unfold down; split <;> rfl

theorem reach_good (hL : 0 < w.net.epochLength) (hd : 1 ≤ w.net.sealDistance) {g : B} {c : List B} {s : Store} (h : Reach w g c s) : Good w c s.get := by
  induction h with
  | genesis =>
    refine ⟨by simp, ?_, fun _ _ => rfl, fun _ _ => rfl⟩
    intro e he
    have : lastOf w.net e = 0 := by simpa using he
    rw [rnd_void (fun h => h.2 this)]; rfl
  | @connect c s s' b h hb hc ih =>
    unfold connect at hc
    rw [Option.map_eq_some_iff] at hc
    obtain ⟨k, hk, rfl⟩ := hc
    have := good_up hL hd (k := Cache.new s) ih hb hk
    have hp := (up_get hk).2
    have hf : (k.flush s).get = k.get := by
      funext x
      have := get_flush k x
      rw [hp] at this
      exact this
    rw [hf]
    exact this
  | @disconnect c s b h hc ih =>
    have := good_down hL (k := Cache.new s) ih hc
    have hf : (disconnect w s c).get = (down w (Cache.new s) (c.length - 1)).get := by
      funext x
      have := get_flush (down w (Cache.new s) (c.length - 1)) x
      rw [down_parent] at this
      exact this
    rw [hf]
    exact this

theorem good_downMany (hL : 0 < w.net.epochLength) {c : List B} (old : List B) {k : Cache} (hc : c ≠ []) (hg : Good w (c ++ old) k.get) :
    Good w c (downMany w k ((c ++ old).length - 1) old.length).get := by
  induction old using List.reverseRecOn generalizing k with
  | nil => simpa [downMany] using hg
  | append_singleton l b ih =>
    have e1 : (l ++ [b]).length = l.length + 1 := by simp
    have e2 : (c ++ (l ++ [b])).length - 1 - 1 = (c ++ l).length - 1 := by simp
    rw [e1]
    simp only [downMany, e2]
    apply ih
    rw [← List.append_assoc] at hg
    exact good_down hL hg (by simp [hc])

/-- the blocks of a branch have the kind of their height -/
def Fits (w : World B) (h : Nat) (l : List B) : Prop := ∀ i b, l[i]? = some b → w.isPos b = w.posAt (h + i)

theorem Fits.cons {h : Nat} {b : B} {l : List B} (hf : Fits w h (b :: l)) : w.isPos b = w.posAt h ∧ Fits w (h + 1) l := by
  refine ⟨hf 0 b rfl, fun i x hx => ?_⟩
  have := hf (i + 1) x (by simpa using hx)
  rw [this]; congr 1; omega

theorem good_upMany (hL : 0 < w.net.epochLength) (hd : 1 ≤ w.net.sealDistance) {c : List B} (l : List B) {k k' : Cache} (hg : Good w c k.get) (hf : Fits w c.length l)
    (h : upMany w k c l = some k') : Good w (c ++ l) k'.get := by
  induction l generalizing c k with
  | nil => cases h; simpa using hg
  | cons b l ih =>
    simp only [upMany] at h
    split at h
    · rename_i m hm
      have := ih (good_up hL hd hg hf.cons.1 hm) (by simpa using hf.cons.2) h
      simpa using this
    · cases h

/-- the block's own randomness can be computed where it is needed -/
def Cond (w : World B) (c : List B) (b : B) : Prop :=
  lastInEpoch w.net c.length = true → w.isPos b = true → (w.fresh (c ++ [b]) (given w c c.length)).isSome = true

theorem up_iff (hL : 0 < w.net.epochLength) (hd : 1 ≤ w.net.sealDistance) {c : List B} {k : Cache} (hg : Good w c k.get) (b : B) :
    (∃ k', up w k (c ++ [b]) b c.length = some k') ↔ Cond w c b := by
  have hseed := seed_eq hL hd hg
  unfold up Cond
  rw [hseed]
  by_cases h1 : lastInEpoch w.net c.length = true
  · by_cases h2 : w.isPos b = true
    · rw [if_pos h1, if_pos h2]
      cases w.fresh (c ++ [b]) (given w c c.length) with
      | none => simp [h1, h2]
      | some r => simp
    · rw [if_pos h1, if_neg h2]; simp [h2]
  · rw [if_neg h1]; simp [h1]

theorem connect_iff (hL : 0 < w.net.epochLength) (hd : 1 ≤ w.net.sealDistance) {g : B} {c : List B} {s : Store} (h : Reach w g c s) (b : B) :
    (∃ s', connect w s c b = some s') ↔ Cond w c b := by
  rw [← up_iff hL hd (k := Cache.new s) (reach_good hL hd h) b]
  unfold connect
  constructor
  · rintro ⟨s', hs⟩
    rw [Option.map_eq_some_iff] at hs
    obtain ⟨k, hk, -⟩ := hs
    exact ⟨k, hk⟩
  · rintro ⟨k, hk⟩
    exact ⟨k.flush s, by rw [hk]; rfl⟩

/-- every block of a chain a node has been on could be connected there -/
theorem reach_cond (hL : 0 < w.net.epochLength) (hd : 1 ≤ w.net.sealDistance) {g : B} {x : List B} {s : Store} (h : Reach w g x s) :
    ∀ c b l, x = c ++ b :: l → c ≠ [] → w.isPos b = w.posAt c.length ∧ Cond w c b := by
  induction h with
  | genesis =>
    intro c b l hx hc
    cases c with
    | nil => exact absurd rfl hc
    | cons y c => simp at hx
  | @connect x s s' b' h hb hs ih =>
    intro c b l hx hc
    cases l using List.reverseRecOn with
    | nil =>
      obtain ⟨rfl, h2⟩ := List.append_inj' hx rfl
      cases h2
      exact ⟨hb, (connect_iff hL hd h b').1 ⟨s', hs⟩⟩
    | append_singleton l y =>
      have hx' : x ++ [b'] = (c ++ b :: l) ++ [y] := by rw [hx]; simp
      exact ih c b l (List.append_inj' hx' rfl).1 hc
  | @disconnect x s b' h hne ih =>
    intro c b l hx hc
    exact ih c b (l ++ [b']) (by rw [hx]; simp) hc

theorem reach_back {g : B} {c : List B} (l : List B) (hc : c ≠ []) {s : Store} (h : Reach w g (c ++ l) s) : ∃ s', Reach w g c s' := by
  induction l using List.reverseRecOn generalizing s with
  | nil => exact ⟨s, by simpa using h⟩
  | append_singleton l b ih =>
    rw [← List.append_assoc] at h
    exact ih (.disconnect h (by simp [hc]))

theorem upMany_iff (hL : 0 < w.net.epochLength) (hd : 1 ≤ w.net.sealDistance) {g : B} {c : List B} (l : List B) {k : Cache} {s : Store} (hg : Good w c k.get)
    (hr : Reach w g c s) (hf : Fits w c.length l) : (∃ k', upMany w k c l = some k') ↔ ∃ s', Reach w g (c ++ l) s' := by
  induction l generalizing c k s with
  | nil => simp only [upMany, List.append_nil]; exact ⟨fun _ => ⟨s, hr⟩, fun _ => ⟨k, rfl⟩⟩
  | cons b l ih =>
    simp only [upMany]
    by_cases hc : Cond w c b
    · obtain ⟨k1, hk1⟩ := (up_iff hL hd hg b).2 hc
      obtain ⟨s1, hs1⟩ := (connect_iff hL hd hr b).2 hc
      rw [hk1]
      have := ih (good_up hL hd hg hf.cons.1 hk1) (.connect hr hf.cons.1 hs1) (by simpa using hf.cons.2)
      simpa using this
    · have : up w k (c ++ [b]) b c.length = none := by
        cases hu : up w k (c ++ [b]) b c.length with
        | none => rfl
        | some k1 => exact absurd ((up_iff hL hd hg b).1 ⟨k1, hu⟩) hc
      rw [this]
      constructor
      · rintro ⟨k', hk'⟩; cases hk'
      · rintro ⟨s', hs'⟩
        exact absurd (reach_cond hL hd hs' c b l rfl hg.ne).2 hc

end Verif.Epoch.Rnd
