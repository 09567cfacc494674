import Verif.Emission.Lemmas

/-!
# C27: coin emission

For every table the schedule is the sum of what the blocks are paid; on mainnet the supply is bounded by and reaches the
published final supply, and subsidies never increase.
-/

namespace Verif.Emission
open Verif Spec

set_option maxRecDepth 100000

theorem tail_allStarted (t : Table) : AllStarted t (tail t) := fun _ _ h =>
  mem_le_lastStart (srt t) _ (BMap.mem_entries.2 h)

theorem tail_min (t : Table) {h : Nat} (hh : AllStarted t h) : tail t ≤ h := by
  unfold tail
  rw [lastStart_getLast (o := 0)]
  cases he : t.periods.entries.getLast? with
  | none => exact Nat.zero_le _
  | some x =>
    have := List.mem_of_getLast? he
    exact hh x.1 x.2 (BMap.mem_entries.1 this)

/-- **C27** each block has exactly one declared subsidy -/
theorem C27_pays_unique (t : Table) (i : Nat) : ∃! r, Pays t i r :=
  ⟨_, pays_rate t i, fun _ h => pays_unique h (pays_rate t i)⟩

/-- **C27** the supply at every height is the initial supply plus what the blocks up to it are paid, provided this and the
supply at the start of the last period fit in 128 bits; otherwise the computation panics with an overflow -/
theorem C27_supply (t : Table) (hi : t.initialSupply < 2 ^ 128) (pay : Nat → Nat) (hp : ∀ i, 0 < i → Pays t i (pay i))
    (h last : Nat) (hl : AllStarted t last) (hmin : ∀ k, AllStarted t k → last ≤ k) :
    amountAt t h = if supply t pay last < 2 ^ 128 ∧ supply t pay h < 2 ^ 128 then .ok (supply t pay h)
      else .error .subsidyOverflow := by
  have e : last = tail t := le_antisymm (hmin _ (tail_allStarted t)) (tail_min t hl)
  subst e
  rw [← total_eq hp, ← total_eq hp]
  by_cases ht : total t (tail t) < U128
  · rw [amountAt_ok t ht]
    have ht' : total t (tail t) < 2 ^ 128 := ht
    simp only [ht', true_and]
    rfl
  · rw [amountAt_fail t hi ht, if_neg]
    intro h'; exact ht h'.1

/-- **C27** the subsidy of a block is what the table pays it; only genesis has none -/
theorem C27_subsidy (t : Table) (pay : Nat → Nat) (hp : ∀ i, 0 < i → Pays t i (pay i))
    (h last : Nat) (hl : AllStarted t last) (hsl : supply t pay last < 2 ^ 128) (hsh : supply t pay (h+1) < 2 ^ 128) :
    subsidy t (h+1) = .ok (pay (h+1)) ∧ subsidy t 0 = .error .genesisHasNoSubsidy := by
  have ht : total t (tail t) < U128 := by
    have h1 := total_mono t (tail_min t hl)
    rw [← total_eq hp] at hsl
    exact Nat.lt_of_le_of_lt h1 hsl
  have h1 : total t (h+1) < U128 := by rw [total_eq hp]; exact hsh
  have h2 : total t h ≤ total t (h+1) := total_mono t (by omega)
  refine ⟨?_, rfl⟩
  have e1 : Amt.sub (h+1) 1 = some h := by simp [Amt.sub]
  simp only [subsidy, e1, okOr, bind, Except.bind, amountAt_ok t ht, if_pos h1, if_pos (by omega : total t h < U128),
    sub_some h2]
  rw [total_succ, pays_unique (hp (h+1) (by omega)) (pays_rate t (h+1))]
  congr 1; omega

/-- **C27** a final supply is reported exactly when the last declared subsidy is zero (no panic assumed); it bounds the
supply at every height and is the supply from the start of the last period on -/
theorem C27_final (t : Table) (r : Option Nat) (hf : finalSupply t = .ok r) :
    (r.isSome ↔ ∃ last, AllStarted t last ∧ Pays t (last+1) 0) ∧
    (∀ f, r = some f → (∀ h, ∃ a, amountAt t h = .ok a ∧ a ≤ f) ∧ (∀ h, AllStarted t h → amountAt t h = .ok f)) := by
  have hrate : ∀ last, AllStarted t last → rate t.initialSubsidy t.periods.entries (last+1) = (tailEmission t).2 := by
    intro last hl
    have := tail_min t hl
    exact rate_after (st := 0) (srt t) (by unfold tail at this; omega)
  unfold finalSupply at hf
  by_cases h0 : (tailEmission t).2 = 0
  · rw [if_pos h0] at hf
    have etail : (tailEmission t).1 = tail t := by unfold tail tailEmission; rw [lastStart_getLast]
    have ht : total t (tail t) < U128 := by
      by_contra hn
      by_cases hi : t.initialSupply < U128
      · rw [amountAt_fail t hi hn] at hf; cases hf
      · -- the initial supply is a 128-bit number; otherwise the scan or the closure overflows
        rw [etail] at hf
        cases ha : amountAt t (tail t) with
        | error e => rw [ha] at hf; cases hf
        | ok a =>
          cases hl : t.periods.entries with
          | nil =>
            have e0 : tail t = 0 := by unfold tail; rw [hl]; rfl
            rw [e0] at ha
            simp only [amountAt, schedule, hl, scan, bind, Except.bind, pure, Except.pure] at ha
            rw [closure_eq (a := 0) (b := t.initialSupply) (c := t.initialSubsidy) (by simp [pick]) (by omega)] at ha
            rw [if_neg (by omega)] at ha
            cases ha
          | cons x l =>
            obtain ⟨e, n⟩ := x
            have hs := srt t
            rw [hl] at hs
            obtain ⟨h1, -, -⟩ := hs.tail
            simp only [amountAt, schedule, hl, scan, bind, Except.bind, sub_some h1, okOr] at ha
            have e2 : ∀ x, Amt.add t.initialSupply x = none := fun x => add_none (by omega)
            cases hm : Amt.mul t.initialSubsidy (e - 0) with
            | none => simp only [hm] at ha; cases ha
            | some y => simp only [hm, e2] at ha; cases ha
    rw [etail, amountAt_ok t ht, if_pos ht] at hf
    simp only [bind, Except.bind, pure, Except.pure, Except.ok.injEq] at hf
    subst hf
    refine ⟨⟨fun _ => ⟨tail t, tail_allStarted t, ?_⟩, fun _ => rfl⟩, ?_⟩
    · have := pays_rate t (tail t + 1)
      rwa [hrate _ (tail_allStarted t), h0] at this
    · intro f hfe
      cases hfe
      refine ⟨fun h => ⟨total t h, ?_, total_le_tail t h0 h⟩, fun h hh => ?_⟩
      · rw [amountAt_ok t ht, if_pos (Nat.lt_of_le_of_lt (total_le_tail t h0 h) ht)]
      · rw [amountAt_ok t ht, total_after t h0 (tail_min t hh), if_pos ht]
  · rw [if_neg h0] at hf
    simp only [pure, Except.pure, Except.ok.injEq] at hf
    subst hf
    refine ⟨⟨fun h => (by simp at h), ?_⟩, fun f hfe => (by simp at hfe)⟩
    rintro ⟨last, hl, hp⟩
    have := pays_unique hp (pays_rate t (last+1))
    rw [hrate last hl] at this
    exact absurd this.symm h0

/-! ### mainnet -/

theorem rate_le {l : List (Nat × Nat)} : ∀ {o i}, (o :: l.map (·.2)).Pairwise (fun a b => b ≤ a) → rate o l i ≤ o := by
  induction l with
  | nil => intro o i _; exact le_refl _
  | cons x l ih =>
    obtain ⟨e, n⟩ := x
    intro o i h
    rw [List.map_cons, List.pairwise_cons] at h
    simp only [rate]
    split
    · exact le_refl _
    · exact le_trans (ih h.2) (h.1 n (by simp))

theorem rate_antitone {l : List (Nat × Nat)} : ∀ {o}, (o :: l.map (·.2)).Pairwise (fun a b => b ≤ a) → ∀ i, rate o l (i+1) ≤ rate o l i := by
  induction l with
  | nil => intro o _ i; exact le_refl _
  | cons x l ih =>
    obtain ⟨e, n⟩ := x
    intro o h i
    rw [List.map_cons, List.pairwise_cons] at h
    simp only [rate]
    by_cases h1 : i + 1 ≤ e
    · rw [if_pos h1, if_pos (by omega)]
    · rw [if_neg h1]
      split
      · exact le_trans (rate_le h.2) (h.1 n (by simp))
      · exact ih h.2 i

theorem foldl_insert_sorted {l : List (Nat × Nat)} : ∀ {m : BMap Nat Nat}, l.Pairwise (fun a b => a.1 < b.1) →
    (∀ x ∈ m.entries, ∀ y ∈ l, x.1 < y.1) → (l.foldl (fun m kv => m.insert kv.1 kv.2) m).entries = m.entries ++ l := by
  induction l with
  | nil => intro m _ _; simp
  | cons x l ih =>
    intro m hs hm
    rw [List.pairwise_cons] at hs
    have hins : (m.insert x.1 x.2).entries = m.entries ++ [x] := by
      show BMap.insertL x.1 x.2 m.entries = _
      have h1 : ∀ (e : List (Nat × Nat)), (∀ z ∈ e, z.1 < x.1) → BMap.insertL x.1 x.2 e = e ++ [x] := by
        intro e
        induction e with
        | nil => intro _; rfl
        | cons z e ihe =>
          intro hz
          have h2 := hz z (by simp)
          have h3 := ihe (fun w hw => hz w (by simp [hw]))
          obtain ⟨zk, zv⟩ := z
          simp only [] at h2
          rw [BMap.insertL, if_neg (by omega), if_neg (by omega), h3]; rfl
      exact h1 _ (fun z hz => hm z hz x (by simp))
    rw [List.foldl_cons, ih hs.2 (by
      intro z hz y hy
      rw [hins] at hz
      rcases List.mem_append.1 hz with hz | hz
      · exact hm z hz y (by simp [hy])
      · rw [List.mem_singleton] at hz; subst hz; exact hs.1 y hy), hins]
    simp

theorem mainnet_entries {secs : Nat} (h1 : 0 < secs) (h2 : secs ≤ 31536000) :
    0 < 31536000 / secs ∧
    (mainnetTable secs).periods.entries = (mainnetSubsidies.zipIdx 1).map (fun x => (31536000 / secs * x.2, coins x.1)) := by
  have hb : 0 < 31536000 / secs := Nat.div_pos h2 h1
  refine ⟨hb, ?_⟩
  have e : (365 * 24 * 60 * 60) / secs = 31536000 / secs := rfl
  simp only [mainnetTable, BMap.ofList, e]
  generalize 31536000 / secs = B at hb
  rw [foldl_insert_sorted]
  · rfl
  · simp only [mainnetSubsidies, List.zipIdx_cons, List.zipIdx_nil, List.map_cons, List.map_nil, List.pairwise_cons,
      List.mem_cons, List.not_mem_nil, or_false, forall_eq_or_imp, forall_eq, List.Pairwise.nil, and_true, IsEmpty.forall_iff,
      implies_true]
    omega
  · intro x hx; cases hx

/-- **C27** mainnet, for any block interval of at most a year: with `B` blocks per year the supply at every height exists, is
at most 400,000,000 + 761·B coins, equals it exactly from the end of the tenth year, and the block subsidy never increases -/
theorem C27_mainnet {secs : Nat} (h1 : 0 < secs) (h2 : secs ≤ 31536000) :
    finalSupply (mainnetTable secs) = .ok (some (coins (400000000 + 761 * (31536000 / secs)))) ∧
    (∀ h, ∃ a, amountAt (mainnetTable secs) h = .ok a ∧ a ≤ coins (400000000 + 761 * (31536000 / secs)) ∧
      (a = coins (400000000 + 761 * (31536000 / secs)) ↔ 10 * (31536000 / secs) ≤ h)) ∧
    (∀ h k, 0 < h → h ≤ k → ∃ a b, subsidy (mainnetTable secs) h = .ok a ∧ subsidy (mainnetTable secs) k = .ok b ∧ b ≤ a) := by
  obtain ⟨hb, he⟩ := mainnet_entries h1 h2
  have hB : 31536000 / secs ≤ 31536000 := Nat.div_le_self _ _
  generalize hBB : 31536000 / secs = B at hb he hB
  generalize ht : mainnetTable secs = t at he
  have hi : t.initialSupply = coins 400000000 := by rw [← ht]; rfl
  have hs : t.initialSubsidy = coins 202 := by rw [← ht]; rfl
  have hl : t.periods.entries = [(B*1, coins 151), (B*2, coins 113), (B*3, coins 85), (B*4, coins 64), (B*5, coins 48),
    (B*6, coins 36), (B*7, coins 27), (B*8, coins 20), (B*9, coins 15), (B*10, coins 0)] := he
  have htail : tail t = B * 10 := by rw [tail, hl]; rfl
  have hte : (tailEmission t).2 = 0 := by rw [tailEmission, hl]; rfl
  have hte1 : (tailEmission t).1 = B * 10 := by rw [tailEmission, hl]; rfl
  have hfin : total t (tail t) = coins (400000000 + 761 * B) := by
    rw [htail, total, hl, hi, hs]
    simp only [amt]
    rw [if_neg (by omega), if_neg (by omega), if_neg (by omega), if_neg (by omega), if_neg (by omega), if_neg (by omega),
      if_neg (by omega), if_neg (by omega), if_neg (by omega), if_pos (by omega)]
    have e : ∀ k, B * (k+1) - B * k = B := by intro k; rw [Nat.mul_add]; omega
    rw [e 1, e 2, e 3, e 4, e 5, e 6, e 7, e 8, e 9]
    simp only [coins]; omega
  have hlt : total t (tail t) < U128 := by rw [hfin]; unfold coins U128; omega
  have hrate : ∀ i, rate t.initialSubsidy t.periods.entries (i+1) ≤ rate t.initialSubsidy t.periods.entries i := by
    intro i
    refine rate_antitone ?_ i
    rw [hl, hs]
    simp only [coins, List.map_cons, List.map_nil]
    decide
  have hrm : ∀ i k, i ≤ k → rate t.initialSubsidy t.periods.entries k ≤ rate t.initialSubsidy t.periods.entries i := by
    intro i k hik
    induction k with
    | zero => have : i = 0 := by omega
              rw [this]
    | succ k ih =>
      by_cases h : i = k + 1
      · rw [h]
      · exact le_trans (hrate k) (ih (by omega))
  have hpos : ∀ i, i ≤ B * 10 → 0 < rate t.initialSubsidy t.periods.entries i := by
    intro i hi'
    refine Nat.lt_of_lt_of_le ?_ (hrm i (B*10) hi')
    rw [hl, hs]
    simp only [rate]
    rw [if_neg (by omega), if_neg (by omega), if_neg (by omega), if_neg (by omega), if_neg (by omega), if_neg (by omega),
      if_neg (by omega), if_neg (by omega), if_neg (by omega), if_pos (by omega)]
    decide
  have ham : ∀ h, amountAt t h = .ok (total t h) := by
    intro h
    rw [amountAt_ok t hlt, if_pos (Nat.lt_of_le_of_lt (total_le_tail t hte h) hlt)]
  have hsub : ∀ h, 0 < h → subsidy t h = .ok (rate t.initialSubsidy t.periods.entries h) := by
    intro h hh
    obtain ⟨k, rfl⟩ : ∃ k, h = k + 1 := ⟨h - 1, by omega⟩
    have e1 : Amt.sub (k+1) 1 = some k := by simp [Amt.sub]
    simp only [subsidy, e1, okOr, bind, Except.bind, ham, sub_some (total_mono t (by omega : k ≤ k + 1))]
    rw [total_succ]; congr 1; omega
  refine ⟨?_, ?_, ?_⟩
  · rw [finalSupply, if_pos hte, hte1, ham, ← htail, hfin]; rfl
  · intro h
    refine ⟨total t h, ham h, by rw [← hfin]; exact total_le_tail t hte h, ?_⟩
    rw [← hfin]
    constructor
    · intro heq
      by_contra hlt'
      have hh : h + 1 ≤ B * 10 := by omega
      have g1 := total_succ t h
      have g2 := hpos (h+1) hh
      have g3 := total_le_tail t hte (h+1)
      omega
    · intro hh
      exact total_after t hte (by rw [htail]; omega)
  · intro h k hh hhk
    exact ⟨_, _, hsub h hh, hsub k (by omega), hrm h k hhk⟩

/-- mainnet as configured: 120 s between blocks (config/mod.rs 75), final supply 599,990,800 coins -/
theorem C27_mainnet_total :
    finalSupply (mainnetTable 120) = .ok (some (coins 599990800)) ∧
    ∀ h, ∃ a, amountAt (mainnetTable 120) h = .ok a ∧ a ≤ coins 599990800 ∧ (a = coins 599990800 ↔ 2628000 ≤ h) :=
  ⟨(C27_mainnet (by omega) (by omega)).1, (C27_mainnet (secs := 120) (by omega) (by omega)).2.1⟩

/-! ### concrete values -/

/-- the first blocks, and the blocks around the end of the first year: the block at the start height of a period is still
paid the old subsidy -/
example :
    (subsidy (mainnetTable 120) 1).toOption = some (coins 202) ∧
    (subsidy (mainnetTable 120) 262800).toOption = some (coins 202) ∧
    (subsidy (mainnetTable 120) 262801).toOption = some (coins 151) ∧
    (subsidy (mainnetTable 120) 2628001).toOption = some 0 := by
  decide +kernel

/-- a table that satisfies the hypotheses of the general theorems, with its subsidies -/
example : ∃ (t : Table) (pay : Nat → Nat), t.initialSupply < 2 ^ 128 ∧ (∀ i, 0 < i → Pays t i (pay i)) ∧ AllStarted t 20 ∧
    supply t pay 20 = 1000 + 10 * 5 + 10 * 3 ∧ amountAt t 20 = .ok 1080 ∧ amountAt t 21 = .ok 1080 := by
  refine ⟨⟨1000, 5, BMap.ofList [(10, 3), (20, 0)]⟩, fun i => rate 5 [(10, 3), (20, 0)] i, by decide, ?_, ?_, ?_, ?_, ?_⟩
  · intro i _
    exact pays_rate ⟨1000, 5, BMap.ofList [(10, 3), (20, 0)]⟩ i
  · intro s r h
    have := BMap.mem_entries.2 h
    have e : (BMap.ofList [(10, 3), (20, 0)] : BMap Nat Nat).entries = [(10, 3), (20, 0)] := rfl
    rw [e] at this
    simp only [List.mem_cons, Prod.mk.injEq, List.not_mem_nil, or_false] at this
    omega
  · decide +kernel
  · rfl
  · rfl

end Verif.Emission
