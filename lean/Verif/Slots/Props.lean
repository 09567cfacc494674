import Verif.Slots.Lemmas

/-!
# C89: the search for timestamps at which a pool can stake finds exactly those
-/

set_option maxRecDepth 100000

namespace Verif.Slots
open Verif

/-- **C89.** Asking for the balances of some pools at a range of heights fails exactly if the range is empty or ends above the tip;
otherwise every pool asked for has at each height of the range the balances it had there – stopping early loses nothing –, nothing
else is given, and heights without balances are left out. -/
theorem C89_balances {c : Chain} (hl : Lifetimes c) (pools : List Nat) (lo hi : Nat) :
    ((balancesAtHeights c pools lo hi).isOk = true ↔ lo ≤ hi ∧ hi ≤ c.best) ∧
    ∀ m, balancesAtHeights c pools lo hi = .ok m →
      (∀ h p, ((m.get h).bind fun b => b.get p) =
        if lo ≤ h ∧ h ≤ hi ∧ p ∈ pools then c.bal h p else none) ∧
      ∀ h b, m.get h = some b → ∃ p, (b.get p).isSome := by
  constructor
  · constructor
    · intro h
      obtain ⟨m, hm⟩ := isOk_exists h
      exact (balances_ok hl hm).1
    · intro h
      unfold balancesAtHeights ensure
      rw [if_pos h]
      show (if hi = c.best then _ else _ : Except Err _).isOk = true
      split
      · split <;> rfl
      · rfl
  · intro m hm
    obtain ⟨_, h2, h3⟩ := balances_ok hl hm
    refine ⟨fun h p => ?_, fun h b hb => ?_⟩
    · have := h2 h p
      unfold look at this
      rw [this]
      by_cases hr : lo ≤ h ∧ h ≤ hi
      · rw [if_pos hr]
        by_cases hp : p ∈ pools
        · rw [if_pos hp, if_pos ⟨hr.1, hr.2, hp⟩]
        · rw [if_neg hp, if_neg (fun q => hp q.2.2)]
      · rw [if_neg hr, if_neg (fun q => hr ⟨q.1, q.2.1⟩)]
    · by_contra hc
      refine h3 h b hb ((entries_nil_iff b).2 fun k => ?_)
      cases hk : b.get k with
      | none => rfl
      | some x => exact absurd ⟨k, by rw [hk]; rfl⟩ hc

/-- the last height searched: the one asked for, but not above the next block -/
def lastHeight (c : Chain) (hi : Option Nat) : Nat := min (hi.getD (c.best + 1)) (c.best + 1)

/-- **C89.** If the search succeeds then it gives for every height exactly those times that are to be tried for that height and at
which a block of the pool would meet the target, in ascending order; nothing is given for heights outside the range asked for, and
heights without such a time are left out. -/
theorem C89_search {c : Chain} (hl : Lifetimes c) {decode : Nat → Except Err Nat} {hash : HashInput → Except Err Nat}
    {pool lo secs : Nat} {hi : Option Nat} {all : Bool} {d : Data} {r : BMap Nat (List Nat)}
    (ho : obtain c pool lo hi secs all = .ok d) (hf : find decode hash d = .ok r) (h : Nat) :
    (∀ t, t ∈ (r.get h).getD [] ↔ lo ≤ h ∧ h ≤ lastHeight c hi ∧ InWindow c (lastHeight c hi) secs all h t ∧
      Wins c decode hash pool h t) ∧
    ((r.get h).getD []).Pairwise (· < ·) ∧ r.get h ≠ some [] := by
  have hf' : findAll decode hash none d.supply d.start d.items = .ok r := by
    have := find_cached (decode := decode) (hash := hash) d
    rw [hf] at this
    cases hx : findAll decode hash none d.supply d.start d.items with
    | error e => rw [hx] at this; cases this
    | ok m => rw [hx] at this; cases this; rfl
  have fa := findAll_ok hf' h
  unfold obtain at ho
  obtain ⟨sup, e1, ho⟩ := bind_eq_ok.1 ho
  have e1 := okOr_eq_ok.1 e1
  obtain ⟨_, e2, ho⟩ := bind_eq_ok.1 ho
  have e2 := ensure_eq_ok.1 e2
  obtain ⟨m, e3, ho⟩ := bind_eq_ok.1 ho
  change lo > 0 ∧ lo ≤ lastHeight c hi at e2
  change balancesAtHeights c [pool] (lo - 1) (lastHeight c hi - 1) = .ok m at e3
  have hle : lastHeight c hi ≤ c.best + 1 := Nat.min_le_right _ _
  dsimp only at ho
  change (match poolBalances m pool with
    | [] => pure ⟨lo, [], sup, all⟩
    | (first, _) :: _ => do
      let items ← obtainLoop c (poolBalances m pool) (lastHeight c hi) secs all none
        (List.range' (first + 1) (lastHeight c hi + 1 - (first + 1)))
      pure ⟨first + 1, items, sup, all⟩) = Except.ok d at ho
  generalize lastHeight c hi = top at e2 e3 hle ho ⊢
  have hlook : ∀ k, look m k pool = if lo - 1 ≤ k ∧ k ≤ top - 1 then c.bal k pool else none := by
    intro k; rw [(balances_ok hl e3).2.1]; simp
  -- no winning below the first height of the data
  have hnone : r.get h = none → (lo ≤ h → h ≤ top → c.bal (h - 1) pool = none) →
      (∀ t, t ∈ (r.get h).getD [] ↔ lo ≤ h ∧ h ≤ top ∧ InWindow c top secs all h t ∧ Wins c decode hash pool h t) ∧
      ((r.get h).getD []).Pairwise (· < ·) ∧ r.get h ≠ some [] := by
    intro hr hb
    rw [hr]
    refine ⟨fun t => ⟨fun q => by simp at q, ?_⟩, by simp, by simp⟩
    rintro ⟨q1, q2, _, b, _, _, _, _, _, q3, _⟩
    rw [hb q1 q2] at q3; cases q3
  cases hp : poolBalances m pool with
  | nil =>
    rw [hp] at ho
    have := pure_eq_ok.1 ho; subst this
    refine hnone (fa.2.1 ?_) fun q1 q2 => ?_
    · simp only [List.length_nil]; omega
    · cases hb : c.bal (h - 1) pool with
      | none => rfl
      | some b =>
        have := (mem_poolBalances m pool (h - 1) b).2 (by rw [hlook, if_pos (by omega), hb])
        rw [hp] at this; cases this
  | cons e rest =>
    obtain ⟨first, b₀⟩ := e
    obtain ⟨hfirst, hleast⟩ := poolBalances_head hp
    rw [hlook] at hfirst
    have hrange : lo - 1 ≤ first ∧ first ≤ top - 1 := by
      by_contra hc; rw [if_neg hc] at hfirst; cases hfirst
    rw [hp] at ho
    obtain ⟨items, e4, ho⟩ := bind_eq_ok.1 ho
    have := pure_eq_ok.1 ho; subst this
    change obtainLoop c ((first, b₀) :: rest) top secs all none (List.range' (first + 1) (top + 1 - (first + 1))) = _ at e4
    rw [← hp] at e4
    have good := allGood_get (obtainLoop_good hle _ _ none items (by omega) (by omega)
      (fun k q1 q2 => by rw [hlook, if_pos (by omega)]) rfl e4)
    by_cases hin : first + 1 ≤ h ∧ h ≤ top
    · have hk : h - (first + 1) < items.length := by omega
      obtain ⟨i, hi'⟩ : ∃ i, items[h - (first + 1)]? = some i := ⟨_, List.getElem?_eq_getElem hk⟩
      have gi := good.2 _ i hi'
      have ft := fa.2.2 _ i hi'
      rw [show first + 1 + (h - (first + 1)) = h by omega] at gi
      simp only [show first + 1 + (h - (first + 1)) = h by omega] at ft
      obtain ⟨hs, tg, hd, hmem⟩ := findTimestamps_ok (fun _ _ q => q) ft
      obtain ⟨g1, g2, g3, g4, g5, g6, g7⟩ := gi
      refine ⟨fun t => ?_, hs, fa.1⟩
      rw [hmem, g1, g2, g6, g7]
      constructor
      · rintro ⟨⟨q1, q2⟩, x, q3, q4⟩
        refine ⟨by omega, hin.2, ⟨by omega, ?_⟩, i.bal, i.version, i.target, tg, x, sup, g4, g5, g3, hd, q3, e1, q4⟩
        split
        · rename_i hc; rwa [if_pos hc] at q2
        · rename_i hc; rwa [if_neg hc] at q2
      · rintro ⟨_, _, ⟨q1, q2⟩, b, v, cp, tg', x, s, w1, w2, w3, w4, w5, w6, w7⟩
        rw [g4] at w1; cases w1
        rw [g5] at w2; cases w2
        rw [g3] at w3; cases w3
        rw [hd] at w4; cases w4
        rw [e1] at w6; cases w6
        refine ⟨⟨by omega, ?_⟩, x, w5, w7⟩
        split
        · rename_i hc; rwa [if_pos hc] at q2
        · rename_i hc; rwa [if_neg hc] at q2
    · refine hnone (fa.2.1 ?_) fun q1 q2 => ?_
      · have hlen : first + 1 + items.length = top + 1 := good.1
        show h < first + 1 ∨ first + 1 + items.length ≤ h
        omega
      · cases hb : c.bal (h - 1) pool with
        | none => rfl
        | some b =>
          have := hleast (h - 1) (by rw [hlook, if_pos (by omega), hb]; rfl)
          omega

/-- **C89.** Whether hashes are computed in advance (and shared between heights) does not matter for the outcome: same times, and
failure in the same cases. -/
theorem C89_cache (decode : Nat → Except Err Nat) (hash : HashInput → Except Err Nat) (d : Data) (b : Bool) :
    (find decode hash { d with distinct := b }).toOption = (find decode hash d).toOption := by
  rw [find_cached, find_cached]

/-- **C89.** When all times between blocks are wanted and times rise along the chain, no time is given for two heights: this is what
the hint in the search data promises. -/
theorem C89_distinct {c : Chain} (hl : Lifetimes c) {decode : Nat → Except Err Nat} {hash : HashInput → Except Err Nat}
    {pool lo secs : Nat} {hi : Option Nat} {d : Data} {r : BMap Nat (List Nat)} (ht : ∀ h k, h ≤ k → k ≤ c.best → c.time h ≤ c.time k)
    (ho : obtain c pool lo hi secs true = .ok d) (hf : find decode hash d = .ok r) {h k t : Nat}
    (h1 : t ∈ (r.get h).getD []) (h2 : t ∈ (r.get k).getD []) : h = k := by
  have key : ∀ h k, t ∈ (r.get h).getD [] → t ∈ (r.get k).getD [] → ¬ h < k := by
    intro h k h1 h2 hlt
    obtain ⟨_, _, w1, _⟩ := ((C89_search hl ho hf h).1 t).1 h1
    obtain ⟨_, q, w2, _⟩ := ((C89_search hl ho hf k).1 t).1 h2
    have hle : lastHeight c hi ≤ c.best + 1 := Nat.min_le_right _ _
    have w1 := w1.2
    rw [if_pos ⟨rfl, by omega⟩] at w1
    have := ht h (k - 1) (by omega) (by omega)
    have := w2.1
    omega
  have a := key h k h1 h2
  have b := key k h h2 h1
  omega

/-- **C89.** On a chain where PoS is in force over the whole range, the collection of the data fails for a bad range, and apart
from that *panics* exactly if the pool has balances at some height of the range and none at a later one, that is if it was
decommissioned within the range; otherwise it succeeds. -/
theorem C89_panics {c : Chain} (hl : Lifetimes c) {pool lo secs : Nat} {hi : Option Nat} (all : Bool) {s : Nat}
    (hs : c.supply = some s) (g : Smooth c lo (lastHeight c hi) secs) :
    (¬ (0 < lo ∧ lo ≤ lastHeight c hi) → obtain c pool lo hi secs all = .error .heightRange) ∧
    ((0 < lo ∧ lo ≤ lastHeight c hi) →
      ((∃ h k, lo ≤ h ∧ h < k ∧ k ≤ lastHeight c hi ∧ (c.bal (h - 1) pool).isSome ∧ c.bal (k - 1) pool = none) →
        obtain c pool lo hi secs all = .error .panic) ∧
      ((¬ ∃ h k, lo ≤ h ∧ h < k ∧ k ≤ lastHeight c hi ∧ (c.bal (h - 1) pool).isSome ∧ c.bal (k - 1) pool = none) →
        (obtain c pool lo hi secs all).isOk = true)) := by
  have hle : lastHeight c hi ≤ c.best + 1 := Nat.min_le_right _ _
  have hobt : obtain c pool lo hi secs all = (do
      ensure (lo > 0 ∧ lo ≤ lastHeight c hi) .heightRange
      let m ← balancesAtHeights c [pool] (lo - 1) (lastHeight c hi - 1)
      match poolBalances m pool with
      | [] => pure ⟨lo, [], s, all⟩
      | (first, _) :: _ => do
        let items ← obtainLoop c (poolBalances m pool) (lastHeight c hi) secs all none
          (List.range' (first + 1) (lastHeight c hi + 1 - (first + 1)))
        pure ⟨first + 1, items, s, all⟩) := by
    unfold obtain
    rw [hs]
    rfl
  rw [hobt]
  generalize lastHeight c hi = top at hle g ⊢
  constructor
  · intro hn
    unfold ensure
    rw [if_neg hn]; rfl
  · intro hr
    obtain ⟨m, hm⟩ := isOk_exists ((C89_balances hl [pool] (lo - 1) (top - 1)).1.2 (by omega))
    have hlook : ∀ k, look m k pool = if lo - 1 ≤ k ∧ k ≤ top - 1 then c.bal k pool else none := by
      intro k; rw [(balances_ok hl hm).2.1]; simp
    have hens : ensure (lo > 0 ∧ lo ≤ top) Err.heightRange = .ok () := ensure_eq_ok.2 hr
    rw [hens, hm]
    simp only [bind, Except.bind]
    cases hp : poolBalances m pool with
    | nil =>
      have hno : ∀ h, lo ≤ h → h ≤ top → c.bal (h - 1) pool = none := by
        intro h q1 q2
        cases hb : c.bal (h - 1) pool with
        | none => rfl
        | some b =>
          have := (mem_poolBalances m pool (h - 1) b).2 (by rw [hlook, if_pos (by omega), hb])
          rw [hp] at this; cases this
      refine ⟨?_, fun _ => rfl⟩
      rintro ⟨h, k, q1, q2, q3, q4, _⟩
      rw [hno h q1 (by omega)] at q4; cases q4
    | cons e rest =>
      obtain ⟨first, b₀⟩ := e
      obtain ⟨hfirst, hleast⟩ := poolBalances_head hp
      rw [hlook] at hfirst
      have hrange : lo - 1 ≤ first ∧ first ≤ top - 1 := by
        by_contra hc; rw [if_neg hc] at hfirst; cases hfirst
      rw [if_pos hrange] at hfirst
      have sm := obtainLoop_smooth (m := m) (pool := pool) (all := all) hle g (top + 1 - (first + 1)) (first + 1) none
        (by omega) (by omega) (by omega) (fun k q1 q2 => by rw [hlook, if_pos (by omega)]) rfl
      rw [hp] at sm
      rcases sm with ⟨w1, w2⟩ | ⟨⟨k, w1, w2, w3⟩, w4⟩
      · constructor
        · rintro ⟨h, k, q1, q2, q3, q4, q5⟩
          have := hleast (h - 1) (by rw [hlook, if_pos (by omega)]; exact q4)
          have := w1 k (by omega) q3
          rw [q5] at this; cases this
        · intro _
          obtain ⟨items, hi'⟩ := isOk_exists w2
          dsimp only
          rw [hi']; rfl
      · constructor
        · intro _; dsimp only; rw [w4]
        · intro hno
          refine absurd ⟨first + 1, k, by omega, ?_, w2, by simp [hfirst], w3⟩ hno
          have : k ≠ first + 1 := by
            rintro rfl
            simp only [Nat.add_sub_cancel] at w3
            rw [hfirst] at w3; cases w3
          omega

/-! ### A concrete chain -/

namespace Ex

/-- five blocks; pool 7 is made by block 2, pool 8 by block 1, and block 4 decommissions the latter -/
def chain : Chain where
  best := 5
  time h := 100 * h
  target _ := .ok 3
  next := .ok 2
  rnd h := h / 2
  epoch h := h / 3
  version _ := .ok .v0
  supply := some 1000
  bal h p :=
    if p = 7 ∧ 2 ≤ h ∧ h ≤ 5 then some ⟨50 + h, 40⟩
    else if p = 8 ∧ 1 ≤ h ∧ h < 4 then some ⟨90, 80⟩ else none

def hash (x : HashInput) : Except Err Nat := .ok (x.1 % 7 * 100 + x.2.1 + x.2.2)

theorem lifetimes : Lifetimes chain := by
  intro p h₁ h₂ h₃ q1 q2 q3 w1 w3
  simp only [chain] at *
  by_cases hp : p = 7
  · subst hp
    simp only [true_and, show ¬ (7 = 8) by decide, false_and, if_false] at *
    split at w1
    · split at w3
      · rw [if_pos (by omega)]; rfl
      · cases w3
    · cases w1
  · simp only [hp, false_and, if_false] at *
    split at w1
    · split at w3
      · rw [if_pos (by omega)]; rfl
      · cases w3
    · cases w1

theorem smooth (lo : Nat) (hi : Option Nat) : Smooth chain lo (lastHeight chain hi) 10 where
  version _ _ _ := rfl
  target h _ _ := by unfold targetAt; split <;> rfl
  time h _ _ _ _ := by
    show 100 * (h - 1) < 100 * h
    omega
  small h q := by
    show 100 * h + 1 + 10 < 2 ^ 64
    have : h ≤ 5 := q
    omega

/-- balances of both pools at heights 1 to 5 -/
example : ((balancesAtHeights chain [7, 8] 0 5).toOption.map fun m => m.entries.map fun e => (e.1, e.2.entries)) =
    some [(1, [(8, ⟨90, 80⟩)]), (2, [(7, ⟨52, 40⟩), (8, ⟨90, 80⟩)]), (3, [(7, ⟨53, 40⟩), (8, ⟨90, 80⟩)]), (4, [(7, ⟨54, 40⟩)]),
      (5, [(7, ⟨55, 40⟩)])] := by decide +kernel

/-- times found for pool 7 from height 1 to the next block, 10 seconds each, with hashes computed in advance -/
example : ((obtain chain 7 1 none 10 false).toOption.bind fun d => (find .ok hash d).toOption.map (·.entries)) =
    some [(3, [203, 204, 210, 211]), (4, [301, 302, 308, 309]), (5, [406, 407]), (6, [504, 505, 511])] := by decide +kernel

/-- the same with all times between blocks, which also gives what `C89_distinct` speaks of -/
example : ((obtain chain 7 5 none 10 true).toOption.bind fun d => (find .ok hash d).toOption.map (·.entries)).isSome = true := by
  decide +kernel

/-- pool 8 is gone at height 4: a search over heights 3 to 6 panics, one over 3 to 4 does not -/
example : obtain chain 8 3 none 10 false = .error .panic := by
  refine ((C89_panics lifetimes false rfl (smooth 3 none)).2 (by decide)).1 ⟨3, 5, by decide, by decide, by decide, rfl, rfl⟩
example : (obtain chain 8 3 (some 4) 10 false).isOk = true := by decide +kernel
example : obtain chain 8 0 none 10 false = .error .heightRange :=
  (C89_panics lifetimes false rfl (smooth 0 none)).1 (by decide)

end Ex

end Verif.Slots
