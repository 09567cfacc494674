import Verif.FeeRate.Lemmas

/-!
# Fees and fee rates: the property theorems (C33, C47)
-/

set_option maxRecDepth 100000

namespace Verif.FeeRate

/-! ## C33 – fees round in the node's favour -/

/-- The fee asked for is the smallest whole number of atoms that is at least `rate * size / 1000`, and it
is computed exactly as long as the scaled amount fits into 128 bits. -/
theorem C33_minimum_fee (rate size fee : Nat) :
    computeFee rate size = .ok fee ↔
      rate * size + 999 < 2 ^ 128 ∧ rate * size ≤ fee * 1000 ∧ ∀ f, rate * size ≤ f * 1000 → fee ≤ f := by
  rw [computeFee_ok]
  show _ < 2 ^ 128 ∧ _ ↔ _
  constructor
  · rintro ⟨h1, rfl⟩
    exact ⟨h1, by omega, fun f hf => by omega⟩
  · rintro ⟨h1, h2, h3⟩
    refine ⟨h1, ?_⟩
    have := h3 ((rate * size + 999) / 1000) (by omega)
    omega

/-- It fails only by overflow, and exactly then. -/
theorem C33_minimum_fee_overflow (rate size : Nat) (e : Err) :
    computeFee rate size = .error e ↔ 2 ^ 128 ≤ rate * size + 999 ∧ e = .feeOverflow :=
  computeFee_error rate size e

/-- A higher rate or a bigger transaction never costs less, and never turns an overflow into a fee. -/
theorem C33_monotone (r r' s s' f' : Nat) (hr : r ≤ r') (hs : s ≤ s') (h : computeFee r' s' = .ok f') :
    ∃ f, computeFee r s = .ok f ∧ f ≤ f' := by
  obtain ⟨h1, rfl⟩ := (computeFee_ok r' s' f').1 h
  have hm : r * s ≤ r' * s' := Nat.mul_le_mul hr hs
  exact ⟨(r * s + 999) / 1000, (computeFee_ok r s _).2 ⟨by omega, rfl⟩, by omega⟩

/-- Paying the fee asked for a rate and having a computed rate of at least that rate are the same thing:
the two roundings never let a cheaper transaction through and never reject one that pays. -/
theorem C33_pays_iff_rate (rate fee size m r : Nat) (hs : 0 < size)
    (hm : computeFee rate size = .ok m) (hr : fromTotal fee size = .ok r) :
    m ≤ fee ↔ rate ≤ r := by
  obtain ⟨h1, rfl⟩ := (computeFee_ok _ _ _).1 hm
  obtain ⟨h2, rfl⟩ := (fromTotal_ok _ _ _).1 hr
  rw [ceil_le_iff, rate_le_iff _ _ _ hs]

/-- Rate and fee conversions undo each other up to rounding: from a rate to a fee and back never loses
rate, and gains less than 1000 atoms per transaction. -/
theorem C33_round_trip (rate size m r : Nat) (hs : 0 < size)
    (hm : computeFee rate size = .ok m) (hr : fromTotal m size = .ok r) :
    rate ≤ r ∧ r * size < rate * size + 1000 := by
  obtain ⟨h1, rfl⟩ := (computeFee_ok _ _ _).1 hm
  obtain ⟨h2, rfl⟩ := (fromTotal_ok _ _ _).1 hr
  refine ⟨(rate_le_iff _ _ _ hs).2 (by omega), ?_⟩
  have := Nat.div_mul_le_self ((rate * size + 999) / 1000 * 1000) size
  omega

example : computeFee 1001 250 = .ok 251 ∧ fromTotal 251 250 = .ok 1004 ∧ fromTotal 250 250 = .ok 1000 := by
  decide +kernel
example : computeFee (2 ^ 128 / 250) 250 = .error .feeOverflow := by decide +kernel

/-- What an accepted fee means: with both thresholds computable, a transaction passes the two fee checks
exactly when its fee rate reaches the relay minimum and the current mempool minimum. -/
theorem C33_accepts_iff (relay : Nat) (s : Rolling) (decay : Nat → Nat → Nat) (now fee size r : Nat)
    (hs : 0 < size) (hr : fromTotal fee size = .ok r)
    (hv1 : relay * size + 999 < 2 ^ 128) (hv2 : (getUpdateMin s decay now).1 * size + 999 < 2 ^ 128) :
    (∃ s', checkFees relay s decay now fee size = .ok s') ↔
      relay ≤ r ∧ (getUpdateMin s decay now).1 ≤ r := by
  have h1 := (computeFee_ok relay size _).2 ⟨hv1, rfl⟩
  have h2 := (computeFee_ok (getUpdateMin s decay now).1 size _).2 ⟨hv2, rfl⟩
  rw [← C33_pays_iff_rate relay fee size _ r hs h1 hr, ← C33_pays_iff_rate _ fee size _ r hs h2 hr]
  unfold checkFees paysRelay paysMempool
  rw [h1, h2]
  simp only [bind, Except.bind, ensure, pure, Except.pure]
  by_cases c1 : (relay * size + 999) / 1000 ≤ fee
  · by_cases c2 : ((getUpdateMin s decay now).1 * size + 999) / 1000 ≤ fee
    · simp [c1, c2]
    · simp [c1, c2]
  · simp [c1]

/-- The current minimum: exactly the value set by the last eviction until a block arrives; afterwards, as
long as it is not zero, at least the incremental relay rate of 1000 atoms per kilobyte, and zero stays
zero. Holds for whatever the floating point decay computes. -/
theorem C33_rolling_minimum (s : Rolling) (decay : Nat → Nat → Nat) (now : Nat) :
    (s.blockSince = false → getUpdateMin s decay now = (s.rate, s)) ∧
    (s.rate = 0 → getUpdateMin s decay now = (0, s)) ∧
    (s.blockSince = true → (getUpdateMin s decay now).1 = 0 ∨ 1000 ≤ (getUpdateMin s decay now).1) ∧
    (getUpdateMin s decay now).2.rate ≤ (getUpdateMin s decay now).1 := by
  unfold getUpdateMin incrementalRelay incrementalThreshold
  refine ⟨fun h => by simp [h], fun h => by simp [h], fun h => ?_, ?_⟩
  · by_cases h0 : s.rate = 0
    · simp [h0]
    · simp only [h, h0, Bool.not_true, beq_iff_eq, Bool.false_or, if_false]
      split
      · split
        · left; rfl
        · right; simp only; omega
      · right; simp only; omega
  · split
    · exact Nat.le_refl _
    · split
      · simp only []
        split
        · exact Nat.le_refl _
        · simp only; omega
      · simp only; omega

/-- After an eviction the minimum is above the rate of every evicted transaction by the incremental rate,
and it never falls by an eviction. -/
theorem C33_eviction_raises (removed : List Nat) (s s' : Rolling) (h : limitUpdate removed s = .ok s') :
    s.rate ≤ s'.rate ∧ (∀ r ∈ removed, r + 1000 ≤ s'.rate) ∧
    (s'.rate ≠ s.rate → s'.blockSince = false ∧ ∃ r ∈ removed, s'.rate = r + 1000) := by
  unfold limitUpdate at h
  split at h
  · simp only [Except.ok.injEq] at h; subst h; simp
  · rename_i r rs
    obtain ⟨m, hm, h⟩ := bind_eq_ok.1 h
    simp only [pure, Except.pure, Except.ok.injEq] at h
    have hm' : m = rs.foldl max r + 1000 := by
      simp only [okOr_eq_ok, addRate, Amt.add, incrementalRelay] at hm
      by_cases hlt : rs.foldl max r + 1000 < U128
      · simpa [hlt, eq_comm] using hm
      · simp [hlt] at hm
    obtain ⟨g1, g2⟩ := foldl_max_ge rs r
    have hmem := foldl_max_mem rs r
    subst h
    by_cases c : m > s.rate
    · rw [if_pos c]
      simp only [Rolling.update, List.mem_cons, forall_eq_or_imp]
      refine ⟨by omega, ⟨by omega, fun x hx => by have := g2 x hx; omega⟩, fun _ => ?_⟩
      refine ⟨by trivial, ?_⟩
      exact ⟨rs.foldl max r, by rcases hmem with h | h <;> simp [h], hm'⟩
    · rw [if_neg c]
      simp only [List.mem_cons, forall_eq_or_imp]
      exact ⟨by omega, ⟨by omega, fun x hx => by have := g2 x hx; omega⟩, fun h => absurd rfl h⟩

/-- Together: right after an eviction that raised the minimum and before the next block, whatever is
accepted pays at least 1000 atoms per kilobyte more than every transaction that was picked for eviction. -/
theorem C33_eviction_floor (removed : List Nat) (s s' s'' : Rolling) (decay : Nat → Nat → Nat)
    (relay now fee size r : Nat) (hs : 0 < size) (h : limitUpdate removed s = .ok s')
    (hblk : s'.blockSince = false) (hr : fromTotal fee size = .ok r)
    (ha : checkFees relay s' decay now fee size = .ok s'') :
    ∀ x ∈ removed, x + 1000 ≤ r := by
  intro x hx
  have h1 := (C33_eviction_raises removed s s' h).2.1 x hx
  unfold checkFees paysMempool at ha
  obtain ⟨_, -, ha⟩ := bind_eq_ok.1 ha
  obtain ⟨_, hp, ha⟩ := bind_eq_ok.1 ha
  obtain ⟨m, hm, hp⟩ := bind_eq_ok.1 hp
  have hle := (ensure_eq_ok.1 hp)
  rw [(C33_rolling_minimum s' decay now).1 hblk] at hm
  have := (C33_pays_iff_rate s'.rate fee size m r hs hm hr).1 hle
  omega

example : limitUpdate [1500, 2500] (Rolling.new 0) = .ok ⟨false, 3500, 0⟩ ∧
    (checkFees 1000 ⟨false, 3500, 0⟩ (fun r _ => r / 2) 100 350 100).toOption = some ⟨false, 3500, 0⟩ ∧
    (checkFees 1000 ⟨false, 3500, 0⟩ (fun r _ => r / 2) 100 349 100).toOption = none ∧
    getUpdateMin ⟨true, 3500, 0⟩ (fun r _ => r / 2) 100 = (1750, ⟨true, 1750, 100⟩) ∧
    getUpdateMin ⟨true, 900, 0⟩ (fun r _ => r / 2) 100 = (0, ⟨true, 0, 100⟩) := by decide +kernel

/-! ## C47 – fee estimation -/

/-- what the theorems below share: the accumulated map -/
theorem points_cases {num minRate : Nat} {txs res : List (Nat × Nat)} (h : points num minRate txs = .ok res)
    (hsz : ∀ e ∈ txs, 0 < e.2) :
    let m := accumulate 0 (txs ++ [(minRate, 1)])
    Asc m ∧ (res = m.map (fun e => (e.1, max e.2 minRate)) ∨
      (span (m.head?.getD (0, 0)).1 (m.getLast?.getD (0, 0)).1 num).length < m.length ∧
      List.Forall₂ (fun p q => q.1 = p ∧ ∃ v, findInterp m p = some v ∧ q.2 = max v minRate)
        (span (m.head?.getD (0, 0)).1 (m.getLast?.getD (0, 0)).1 num) res) := by
  intro m
  have hsz' : ∀ e ∈ txs ++ [(minRate, 1)], 0 < e.2 := by
    intro e he
    rcases List.mem_append.1 he with h | h
    · exact hsz e h
    · have : e = (minRate, 1) := by simpa using h
      simp [this]
  refine ⟨accumulate_asc _ hsz' 0, ?_⟩
  unfold points at h
  simp only at h
  split at h
  · simp only [Except.ok.injEq] at h
    exact Or.inl h.symm
  · rename_i hlen
    refine Or.inr ⟨by simpa using hlen, ?_⟩
    refine (mapM_ok_forall h).imp (fun p q hq => ?_)
    obtain ⟨v, hv, hq⟩ := bind_eq_ok.1 hq
    rw [okOr_eq_ok] at hv
    simp only [pure, Except.pure, Except.ok.injEq] at hq
    subst hq
    exact ⟨rfl, v, hv, rfl⟩

/-- The reported points: sizes never decrease, rates never increase, and every rate lies between the
current minimum and the best score (or the minimum, if that is higher). `txs` are the pool's (score, size)
pairs from the highest score down. -/
theorem C47_points (num minRate best : Nat) (txs res : List (Nat × Nat))
    (hsz : ∀ e ∈ txs, 0 < e.2) (hsorted : txs.Pairwise (fun a b => b.1 ≤ a.1))
    (hbest : ∀ e ∈ txs, e.1 ≤ best)
    (h : points num minRate txs = .ok res) :
    res.Pairwise (fun a b => a.1 ≤ b.1 ∧ b.2 ≤ a.2) ∧ (∀ p ∈ res, minRate ≤ p.2 ∧ p.2 ≤ max best minRate) := by
  obtain ⟨hasc, hcase⟩ := points_cases h hsz
  have hdesc : Desc minRate (accumulate 0 (txs ++ [(minRate, 1)])) := by
    apply accumulate_desc
    rw [List.pairwise_append]
    refine ⟨hsorted.imp (fun h => by omega), by simp, fun a _ b hb => ?_⟩
    have : b = (minRate, 1) := by simpa using hb
    simp only [this]; omega
  have hub : ∀ e ∈ accumulate 0 (txs ++ [(minRate, 1)]), e.2 ≤ max best minRate := by
    intro e he
    obtain ⟨x, hx, e1⟩ := accumulate_mem he
    rcases List.mem_append.1 hx with h | h
    · have := hbest x h; omega
    · have : x = (minRate, 1) := by simpa using h
      rw [e1, this]; simp only; omega
  have hne := accumulate_length (txs ++ [(minRate, 1)]) 0
  generalize accumulate 0 (txs ++ [(minRate, 1)]) = m at hasc hcase hdesc hub hne
  rcases hcase with rfl | ⟨-, hf⟩
  · constructor
    · rw [List.pairwise_map]
      exact (hasc.and hdesc).imp (fun h => ⟨Nat.le_of_lt h.1, h.2⟩)
    · intro p hp
      obtain ⟨e, he, rfl⟩ := List.mem_map.1 hp
      have := hub e he
      simp only; omega
  · have hne : m ≠ [] := by intro e; rw [e] at hne; simp at hne
    have hhd := List.head?_eq_some_head hne
    have hlt := List.getLast?_eq_some_getLast hne
    have hle : (m.head?.getD (0, 0)).1 ≤ (m.getLast?.getD (0, 0)).1 := by
      rw [hhd, hlt]; exact span_first_le_last hasc hhd hlt
    refine ⟨forall2_antitone hasc hdesc hf (span_sorted _ _ num hle).1, fun p hp => ?_⟩
    obtain ⟨x, -, -, v, hv, e⟩ := forall2_mem_right hf hp
    have hv' : v ≤ max best minRate := by
      rcases findInterp_spec hasc hv with h1 | ⟨l, hl, r, hr, h1, h2, -, h3⟩
      · exact hub _ h1
      · exact (interp_bounds (lo := 0) (by omega : l.1 < r.1) h3 ⟨Nat.zero_le _, hub l hl⟩
          ⟨Nat.zero_le _, hub r hr⟩).2
    omega

/-- Asked for at least two points, the last one sits one past the total size of the pool and shows the
current minimum. -/
theorem C47_last_point (num minRate : Nat) (txs res : List (Nat × Nat)) (hnum : 2 ≤ num)
    (hsz : ∀ e ∈ txs, 0 < e.2) (h : points num minRate txs = .ok res) :
    res.getLast? = some ((txs.map Prod.snd).sum + 1, minRate) := by
  obtain ⟨hasc, hcase⟩ := points_cases h hsz
  have hl := accumulate_last txs (minRate, 1) 0
  simp only [Nat.zero_add] at hl
  generalize accumulate 0 (txs ++ [(minRate, 1)]) = m at hasc hcase hl
  rcases hcase with rfl | ⟨-, hf⟩
  · rw [List.getLast?_map, hl]; simp
  · rw [hl] at hf
    obtain ⟨b, hb, e1, v, hv, e2⟩ := forall2_getLast hf (span_last hnum)
    rw [hb]
    have hv' : v = minRate := by
      rcases findInterp_spec hasc hv with h1 | ⟨l, hl', r, hr, h1, h2, -, h3⟩
      · exact congrArg Prod.snd (asc_inj hasc h1 (List.mem_of_getLast? hl) rfl)
      · exfalso
        have hlast : ∀ e ∈ m, e.1 ≤ (txs.map Prod.snd).sum + 1 := by
          obtain ⟨pre, hp⟩ := List.getLast?_eq_some_iff.1 hl
          intro e he
          rw [hp] at he hasc
          rcases List.mem_append.1 he with h | h
          · exact Nat.le_of_lt ((List.pairwise_append.1 hasc).2.2 e h _ (List.mem_singleton_self _))
          · have := List.mem_singleton.1 h
            rw [this]
        have := hlast r hr
        simp only [Option.getD_some] at h2
        omega
    rw [hv'] at e2
    congr 1
    exact Prod.ext e1 (by simpa using e2)

/-- The points can be computed whenever the best score times the total size fits into 128 bits. -/
theorem C47_no_failure (num minRate best : Nat) (txs : List (Nat × Nat))
    (hsz : ∀ e ∈ txs, 0 < e.2) (hbest : ∀ e ∈ txs, e.1 ≤ best) (hmin : minRate ≤ best)
    (hfit : best * ((txs.map Prod.snd).sum + 1) < 2 ^ 128) :
    ∃ res, points num minRate txs = .ok res := by
  have hsz' : ∀ e ∈ txs ++ [(minRate, 1)], 0 < e.2 := by
    intro e he
    rcases List.mem_append.1 he with h | h
    · exact hsz e h
    · have : e = (minRate, 1) := by simpa using h
      simp [this]
  have hasc := accumulate_asc _ hsz' 0
  have hl := accumulate_last txs (minRate, 1) 0
  have hub : ∀ e ∈ accumulate 0 (txs ++ [(minRate, 1)]), e.2 ≤ best := by
    intro e he
    obtain ⟨x, hx, e1⟩ := accumulate_mem he
    rcases List.mem_append.1 hx with h | h
    · have := hbest x h; omega
    · have : x = (minRate, 1) := by simpa using h
      rw [e1, this]; exact hmin
  unfold points
  simp only
  generalize accumulate 0 (txs ++ [(minRate, 1)]) = m at hasc hl hub
  split
  · exact ⟨_, rfl⟩
  · apply mapM_ok_of_forall
    intro p hp
    have hne : m ≠ [] := by rintro rfl; simp at hl
    have hhd := List.head?_eq_some_head hne
    rw [hhd, hl] at hp
    simp only [Option.getD_some] at hp
    have hle := span_first_le_last hasc hhd hl
    have hin := (span_sorted _ _ num hle).2 p hp
    obtain ⟨v, hv⟩ := findInterp_some (S := best) (T := (txs.map Prod.snd).sum + 1) hasc hhd hl hin.1 hin.2
      hub (by simp) hfit
    rw [hv]
    exact ⟨_, rfl⟩

/-- The single-point estimate never falls below the minimum and never rises when asking for a place
deeper in the queue. -/
theorem C47_rate_at (minRate : Nat) (txs : List (Nat × Nat)) (acc : Nat)
    (hsorted : txs.Pairwise (fun a b => b.1 ≤ a.1)) (mb mb' : Nat) (hmb : mb ≤ mb') :
    minRate ≤ rateAt mb minRate acc txs ∧ rateAt mb' minRate acc txs ≤ rateAt mb minRate acc txs := by
  have hub : ∀ (l : List (Nat × Nat)) (x acc mb : Nat), (∀ e ∈ l, e.1 ≤ x) →
      minRate ≤ rateAt mb minRate acc l ∧ rateAt mb minRate acc l ≤ max x minRate := by
    intro l
    induction l with
    | nil => intro x acc mb _; simp only [rateAt]; omega
    | cons e es ih =>
      intro x acc mb hx
      have h1 := hx e (by simp)
      have h2 := ih x (acc + e.2) mb (fun e he => hx e (by simp [he]))
      simp only [rateAt]
      split <;> omega
  induction txs generalizing acc with
  | nil => simp [rateAt]
  | cons e es ih =>
    obtain ⟨s1, s2⟩ := List.pairwise_cons.1 hsorted
    have h1 := ih (acc + e.2) s2
    have h2 := hub es e.1 (acc + e.2) mb' s1
    simp only [rateAt]
    by_cases c : (acc + e.2) / 1000000 ≥ mb
    · rw [if_pos c]
      by_cases c' : (acc + e.2) / 1000000 ≥ mb'
      · rw [if_pos c']; omega
      · rw [if_neg c']; omega
    · have c' : ¬ (acc + e.2) / 1000000 ≥ mb' := by omega
      rw [if_neg c, if_neg c']
      exact h1

example : points 3 1000 [(9000, 100), (5000, 200), (3000, 50), (3000, 400)]
    = .ok [(100, 9000), (425, 3000), (751, 1000)] := by decide +kernel
example : points 10 4000 [(9000, 100), (3000, 50)] = .ok [(100, 9000), (150, 4000), (151, 4000)] := by
  decide +kernel
example : rateAt 1 1000 0 [(9000, 600000), (5000, 600000), (3000, 600000)] = 5000 := by decide +kernel

end Verif.FeeRate
