import Verif.Target.Lemmas
set_option maxRecDepth 100000

/-!
# C29: proof of stake targets; C41: proof of work targets; C42: upgrades in force
-/

namespace Verif.Target
open Verif Spec
open Verif.BlockTree (getGen getGen_block getGen_genesis)
open Verif.BlockTree.Spec (Up)

/-! ## C29: one adjustment -/

/-- **C29.** The adjusted target exists for all previous targets and block times (no panic), is the compact form of the previous target times
actual over wanted block time (at least one second), kept within the allowed fraction of the previous target and below the limit. -/
theorem C29_value {cfg : PosCfg} (hc : PosWF cfg) {prev actual target : Nat} (hp : prev < 2 ^ 256) (ha : actual < 2 ^ 64) (ht : target ≠ 0) :
    newTarget cfg prev actual target = .ok (Compact.encode (min cfg.targetLimit
      (max (prev - prev * cfg.changeLimit / 1000) (min (prev + prev * cfg.changeLimit / 1000) (prev * max 1 actual / target))))) := by
  simp only [newTarget, newTargetValue_ok hc.limit hc.change hp ha ht, bind, Except.bind, pure, Except.pure]

/-- **C29.** In expanded form the new target is at most the limit, exceeds the previous one by at most the allowed fraction, and is
below it by at most the allowed fraction and a rounding of 2^-15, unless the limit forces it lower. -/
theorem C29_bounds {cfg : PosCfg} (hc : PosWF cfg) {prev actual target c t : Nat} (hp : prev < 2 ^ 256) (ha : actual < 2 ^ 64) (ht : target ≠ 0)
    (h : newTarget cfg prev actual target = .ok c) (hd : Compact.decode c = .ok t) :
    t ≤ cfg.targetLimit ∧ 1000 * t ≤ (1000 + cfg.changeLimit) * prev ∧
    ∃ v, t ≤ v ∧ (v - t) * 2 ^ 15 ≤ t ∧ (v = cfg.targetLimit ∨ (1000 - cfg.changeLimit) * prev ≤ 1000 * v) := by
  rw [C29_value hc hp ha ht] at h
  simp only [Except.ok.injEq] at h
  have hlim := hc.limit
  have hk := hc.change
  have hL : prev * cfg.changeLimit / 1000 * 1000 ≤ prev * cfg.changeLimit := Nat.div_mul_le_self _ _
  have hbig : prev * cfg.changeLimit ≤ prev * 1000 := Nat.mul_le_mul_left _ hk
  have e2 : (1000 + cfg.changeLimit) * prev = 1000 * prev + prev * cfg.changeLimit := by ring
  have e3 : (1000 - cfg.changeLimit) * prev + prev * cfg.changeLimit = 1000 * prev := by
    rw [Nat.mul_comm prev, ← Nat.add_mul]; congr 1; omega
  generalize prev * max 1 actual / target = nt at h
  generalize hg : prev * cfg.changeLimit / 1000 = L at *
  generalize prev * cfg.changeLimit = X at *
  generalize (1000 + cfg.changeLimit) * prev = Y at *
  generalize (1000 - cfg.changeLimit) * prev = Z at *
  generalize hv : min cfg.targetLimit (max (prev - L) (min (prev + L) nt)) = v at *
  have hvl : v ≤ cfg.targetLimit := by omega
  obtain ⟨t', h1, -, h2, -, h3⟩ := Compact.C25_round_down v (lt_of_le_of_lt hvl hlim)
  rw [h, hd] at h1; cases h1
  refine ⟨by omega, by omega, v, h2, h3, ?_⟩
  omega

/-- **C29.** Slower blocks never lead to a lower target. -/
theorem C29_monotone {cfg : PosCfg} (hc : PosWF cfg) {prev a a' target c c' t t' : Nat} (hp : prev < 2 ^ 256) (haa : a ≤ a') (ha : a' < 2 ^ 64)
    (ht : target ≠ 0) (h : newTarget cfg prev a target = .ok c) (h' : newTarget cfg prev a' target = .ok c')
    (hd : Compact.decode c = .ok t) (hd' : Compact.decode c' = .ok t') : t ≤ t' := by
  rw [C29_value hc hp (by omega) ht] at h
  rw [C29_value hc hp ha ht] at h'
  simp only [Except.ok.injEq] at h h'
  have hle : prev * max 1 a / target ≤ prev * max 1 a' / target := Nat.div_le_div_right (Nat.mul_le_mul_left _ (by omega))
  subst h h'
  have hlim := hc.limit
  exact (Compact.C25_monotone _ _ (by omega) (by omega) t t' hd hd').1

/-- **C29.** Blocks faster than wanted never raise the target, blocks slower than wanted never lower it before rounding (except to the limit),
and blocks exactly on time keep it. -/
theorem C29_direction {cfg : PosCfg} (hc : PosWF cfg) {bits prev actual target c t : Nat} (hb : Compact.decode bits = .ok prev)
    (ha : actual < 2 ^ 64) (ht : target ≠ 0) (h : newTarget cfg prev actual target = .ok c) (hd : Compact.decode c = .ok t) :
    (actual ≤ target → t ≤ prev) ∧ (target ≤ actual → prev ≤ cfg.targetLimit → prev ≤ t) := by
  obtain ⟨-, hp, hexp⟩ := Compact.C25_decode_exact bits prev hb
  rw [C29_value hc hp ha ht] at h
  simp only [Except.ok.injEq] at h
  have hlim := hc.limit
  have hL : prev * cfg.changeLimit / 1000 ≤ prev := by
    apply Nat.div_le_of_le_mul
    calc prev * cfg.changeLimit ≤ prev * 1000 := Nat.mul_le_mul_left _ hc.change
      _ = 1000 * prev := Nat.mul_comm _ _
  obtain ⟨t', h1, -, h2, h3, -⟩ := Compact.C25_round_down (min cfg.targetLimit (max (prev - prev * cfg.changeLimit / 1000)
      (min (prev + prev * cfg.changeLimit / 1000) (prev * max 1 actual / target)))) (by omega)
  rw [h, hd] at h1; cases h1
  constructor
  · intro hle
    have : prev * max 1 actual / target ≤ prev := by
      apply Nat.div_le_of_le_mul
      rw [Nat.mul_comm target]
      exact Nat.mul_le_mul_left _ (by omega)
    omega
  · intro hle hpl
    apply h3 prev hexp
    have : prev ≤ prev * max 1 actual / target := by
      rw [Nat.le_div_iff_mul_le (by omega)]
      exact Nat.mul_le_mul_left _ (by omega)
    omega

/-! ## C29: in the chain -/

/-- **C29.** In every tree of blocks the average used is the time between the previous block and its ancestor at the configured distance (or
genesis) divided by the number of blocks between; it fails exactly when this ancestor is dated later. -/
theorem C29_average {p : Params} {s ck} (hr : BlockTree.Spec.Reachable p.tree s ck) {cfg : PosCfg} (hc : PosWF cfg) {id b} (hb : s.get id = some b)
    (hh : b.height < 2 ^ 63) :
    ∃ a x, Up p.tree s id (min b.height (cfg.countToAverage - 1)) a ∧ getGen p.tree s a = some x ∧ b.height ≠ 0 ∧
      (x.timestamp p.tree ≤ b.timestamp →
        averageBlockTime p s cfg b = .ok ((b.timestamp - x.timestamp p.tree) / min b.height (cfg.countToAverage - 1))) ∧
      (b.timestamp < x.timestamp p.tree → averageBlockTime p s cfg b = .error .notMonotonic) := by
  have hi := BlockTree.reachable_inv hr
  obtain ⟨a, h1, h2⟩ := average_ok hi hc.count.1 hb hh
  obtain ⟨x, hx⟩ := BlockTree.known_iff.1 h1.known.2
  obtain ⟨q, -, hq, -⟩ := (hi _ _ hb).parent
  have ht := timestamp_eq hi hx
  refine ⟨a, x, h1, hx, by omega, ?_, ?_⟩
  · intro hle; rw [h2, ht, if_pos (by omega)]
  · intro hlt; rw [h2, if_neg (by omega)]

/-- **C29.** In every tree of accepted blocks, the target required of a new proof of stake block on any known block is computed without panic,
and the only possible failure is a previous block dated before the start of the averaging window. -/
theorem C29_required {p : Params} (hwf : WF p) {s} (ha : Accepted p s) {pid x st c i} (hx : getGen p.tree s pid = some x)
    (hh : x.height < 2 ^ 63) (hs : status p.upgrades (x.height + 1) = .ok st)
    (hst : (st = .posOngoing c ∧ i = none) ∨ st = .posThreshold i c) :
    (∃ t, posTarget p s i c pid = .ok t ∧ Decodable t) ∨
    (posTarget p s i c pid = .error .notMonotonic ∧ ∃ b a, s.get pid = some b ∧ Up p.tree s pid (min b.height (c.countToAverage - 1)) a ∧
      b.timestamp < timeOf p a) := by
  have hi := accepted_tree ha
  have hai := accepted_inv hwf ha
  have hcfg : PosWF c := by
    rcases hst with ⟨rfl, -⟩ | rfl <;> exact (status_pos hwf hs (by rfl)).1
  suffices (∃ t, posTarget p s i c pid = .ok t) ∨
    (posTarget p s i c pid = .error .notMonotonic ∧ ∃ b a, s.get pid = some b ∧ Up p.tree s pid (min b.height (c.countToAverage - 1)) a ∧
      b.timestamp < timeOf p a) by
    rcases this with ⟨t, ht⟩ | h
    · exact Or.inl ⟨t, ht, posTarget_decodable hwf hi hai hx hs hst ht⟩
    · exact Or.inr h
  cases i with
  | some d => exact Or.inl ⟨d, rfl⟩
  | none =>
    simp only [posTarget, posTargetFrom]
    by_cases hg : pid = p.tree.genesisId
    · rw [if_pos hg]; exact Or.inl ⟨_, rfl⟩
    · rw [if_neg hg]
      obtain ⟨b, hb, rfl, hz⟩ := height_parent hi hx hg
      simp only [hb]
      have hprev : ∃ st' c', status p.upgrades b.height = .ok st' ∧ Required.posCfg? st' = some c' := by
        rcases hst with ⟨rfl, -⟩ | rfl
        · obtain ⟨st', h1, h2⟩ := status_prev_ongoing hs; exact ⟨st', _, h1, h2⟩
        · exact hwf.cont _ _ hs hz
      obtain ⟨st', c', h1, h2⟩ := hprev
      rcases posTarget_block hwf hi hai hcfg hb h1 h2 with ⟨d, c'', -, e, -⟩ | ⟨t0, prev, -, -, -, -, ⟨e, hav, he⟩ | ⟨avg, v, -, -, -, -, he⟩⟩
      · exact Or.inl ⟨_, e⟩
      · right
        obtain ⟨a, h3, h4⟩ := average_ok hi hcfg.count.1 hb hh
        rw [hav] at h4
        split at h4
        · cases h4
        · cases h4
          exact ⟨he, b, a, rfl, h3, by omega⟩
      · exact Or.inl ⟨_, he⟩

theorem times_up {p : Params} {s} (hi : BlockTree.Inv p.tree s) (ha : AInv p s) (hall : AllPos p) {x k a} (h : Up p.tree s x k a) :
    timeOf p a ≤ timeOf p x := by
  induction h with
  | here _ => exact le_refl _
  | @step x a k b h1 h2 _ ih =>
    refine le_trans ih ?_
    obtain ⟨q, -, hq, -⟩ := (hi _ _ h2).parent
    obtain ⟨st, c, h3, h4⟩ := hall b.height (by omega)
    obtain ⟨t, -, -, h5⟩ := ha _ _ h2 st c h3 h4
    have : timeOf p x = (p.tree.body x).timestamp := by rw [timeOf, if_neg h1]
    omega

/-- **C29.** If all blocks above genesis are proof of stake (as on the main network), the required target is always computed. -/
theorem C29_required_all_pos {p : Params} (hwf : WF p) (hall : AllPos p) {s} (ha : Accepted p s) {pid x st c i} (hx : getGen p.tree s pid = some x)
    (hh : x.height < 2 ^ 63) (hs : status p.upgrades (x.height + 1) = .ok st)
    (hst : (st = .posOngoing c ∧ i = none) ∨ st = .posThreshold i c) : ∃ t, posTarget p s i c pid = .ok t ∧ Decodable t := by
  have hi := accepted_tree ha
  rcases C29_required hwf ha hx hh hs hst with h | ⟨-, b, a, hb, hu, hlt⟩
  · exact h
  · have h1 := times_up hi (accepted_inv hwf ha) hall hu
    have hg := hi _ _ hb
    rw [hg.time_eq] at hlt
    rw [timeOf, timeOf, if_neg hg.not_genesis] at h1
    rw [timeOf] at hlt
    omega

/-- **C29.** In every tree of accepted blocks, an accepted ongoing proof of stake block on top of a proof of stake block that did not start
an upgrade with a set difficulty carries exactly the adjusted target of its parent: its expanded target is at most the limit, at most the allowed
fraction above the parent's and (up to rounding and the limit) at most the allowed fraction below. -/
theorem C29_step {p : Params} (hwf : WF p) {s} (ha : Accepted p s) {id pb c st'} (hv : validateConsensus p s id = .ok ())
    (hpb : s.get (p.tree.body id).prev = some pb) (hs : status p.upgrades (pb.height + 1) = .ok (.posOngoing c))
    (hs' : status p.upgrades pb.height = .ok st') (hne : ∀ d c', st' ≠ .posThreshold (some d) c') :
    ∃ bits bits' prev t, p.cons pb.id = .pos bits ∧ p.cons id = .pos bits' ∧ Compact.decode bits = .ok prev ∧ Compact.decode bits' = .ok t ∧
      t ≤ c.targetLimit ∧ 1000 * t ≤ (1000 + c.changeLimit) * prev ∧
      ∃ v, t ≤ v ∧ (v - t) * 2 ^ 15 ≤ t ∧ (v = c.targetLimit ∨ (1000 - c.changeLimit) * prev ≤ 1000 * v) := by
  have hi := accepted_tree ha
  have hai := accepted_inv hwf ha
  have hcfg : PosWF c := (status_pos hwf hs (by rfl)).1
  have hg := hi _ _ hpb
  simp only [validateConsensus, bind_eq_ok, okOr_eq_ok] at hv
  obtain ⟨x, hx, st0, hst, hck⟩ := hv
  rw [getGen_block hg.not_genesis hpb] at hx; cases hx
  have e : st0 = .posOngoing c := by
    have h : status p.upgrades (pb.height + 1) = .ok st0 := hst
    rw [hs] at h; cases h; rfl
  subst e
  cases hcons : p.cons id with
  | none => rw [hcons] at hck; simp [checkCons] at hck
  | pow _ => rw [hcons] at hck; simp [checkCons] at hck
  | pos bits' =>
    rw [hcons] at hck
    simp only [checkCons, checkPos, bind_eq_ok, ensure_eq_ok] at hck
    obtain ⟨t0, h1, -, rfl, -⟩ := hck
    simp only [posTarget, posTargetFrom, if_neg hg.not_genesis, hpb] at h1
    obtain ⟨st2, hst2, hc2⟩ := status_prev_ongoing hs
    rw [hs'] at hst2; cases hst2
    rcases posTarget_block hwf hi hai hcfg hpb hs' hc2 with ⟨d, c'', e, -⟩ | ⟨bits, prev, -, hb1, hb2, hb3, ⟨e, -, he⟩ | ⟨avg, v, hav, hlt, hv, hle, he⟩⟩
    · exact (hne d c'' e).elim
    · rw [he] at h1; cases h1
    · rw [he] at h1; cases h1
      obtain ⟨t, ht⟩ := decodable_encode (lt_of_le_of_lt hle hcfg.limit)
      have hnt : newTarget c prev avg p.spacing = .ok (Compact.encode v) := by
        simp only [newTarget, hv, bind, Except.bind, pure, Except.pure]
      rw [hg.id_eq]
      exact ⟨bits, _, prev, t, hb1, rfl, hb2, ht, C29_bounds hcfg hb3 hlt hwf.spacing.1 hnt ht⟩

/-- **C29.** The code has panics for a parent that is not proof of stake; they are reached when an upgrade to proof of stake without
initial difficulty follows blocks of another kind (configurations excluded by `WF.cont`). -/
theorem C29_panics_without_initial {p : Params} {s pid b st c} (hg : pid ≠ p.tree.genesisId) (hb : s.get pid = some b)
    (hs : status p.upgrades b.height = .ok st) (hst : Required.posCfg? st = none) :
    posTarget p s none c pid = .error .panicPrevNotPosStatus := by
  simp only [posTarget, posTargetFrom, if_neg hg, hb, posTargetInternal, hs, bind, Except.bind]
  cases st <;> simp_all [Required.posCfg?, prevThreshold]

/-! ## C41: proof of work -/

/-- **C41.** At a retarget, as long as limit times the longest considered timespan fits 256 bits (it does for all networks that retarget) and
the old target is within the limit, the new target before rounding is the old target times the actual over the wanted timespan, the former kept
between a quarter and four times the latter, and at most the limit. -/
theorem C41_value {limit old actual : Nat} (hl : limit * (timespan * factor) < 2 ^ 256) (ho : old ≤ limit) (ha : actual ≤ timespan * factor) :
    powValue limit old actual = min limit (old * actual / timespan) := by
  have : old * actual < 2 ^ 256 := lt_of_le_of_lt (Nat.mul_le_mul ho ha) hl
  simp only [powValue, mul256, if_pos this, Option.getD_some]
  split <;> omega

/-- **C41.** Hence one retarget changes the target at most by the factor four (up to rounding down and the limit). -/
theorem C41_bounds {limit old prevTime startTime actual : Nat} (hl : limit * (timespan * factor) < 2 ^ 256) (ho : old ≤ limit)
    (ha : actualTimespan prevTime startTime = .ok actual) :
    powValue limit old actual ≤ limit ∧ powValue limit old actual ≤ 4 * old ∧ old / 4 ≤ powValue limit old actual := by
  have hb : timespan / factor ≤ actual ∧ actual ≤ timespan * factor := by
    simp only [actualTimespan] at ha
    split at ha
    · cases ha
    · simp only [Except.ok.injEq] at ha
      subst ha
      have ht : timespan = 1209600 := by decide
      have hf : factor = 4 := rfl
      simp only [clamp, ht, hf]
      split
      · omega
      · split <;> omega
  rw [C41_value hl ho hb.2]
  have h1 : old * actual / timespan ≤ 4 * old := by
    apply Nat.div_le_of_le_mul
    calc old * actual ≤ old * (timespan * factor) := Nat.mul_le_mul_left _ hb.2
      _ = timespan * (4 * old) := by unfold factor; ring
  have h2 : old / 4 ≤ old * actual / timespan := by
    rw [Nat.le_div_iff_mul_le (by decide)]
    calc old / 4 * timespan = old / 4 * 4 * (timespan / factor) := by
          rw [Nat.mul_assoc]; rfl
      _ ≤ old * actual := Nat.mul_le_mul (Nat.div_mul_le_self _ _) hb.1
  omega

/-- **C41.** The limits of the networks that retarget satisfy the condition (main/test network and signet), the regression network's would not. -/
theorem C41_networks : (0x00000000FFFFFFFF * 2 ^ 192 + (2 ^ 192 - 1)) * (timespan * factor) < 2 ^ 256 ∧
    (0x00000377AE000000 * 2 ^ 192) * (timespan * factor) < 2 ^ 256 ∧ ¬ (2 ^ 255 - 1) * (timespan * factor) < 2 ^ 256 := by
  decide +kernel

/-- **C41.** Outside this condition a longer timespan can lower the target: when the product does not fit, the result is the largest 256-bit
number divided by the wanted timespan, which may be far below the old target. -/
theorem C41_overflow_lowers : powValue (2 ^ 255 - 1) (2 ^ 254) (timespan * 4) < 2 ^ 236 ∧ powValue (2 ^ 255 - 1) (2 ^ 254) timespan < 2 ^ 236 ∧
    powValue (2 ^ 255 - 1) (2 ^ 254) 3 = 2 ^ 254 * 3 / timespan := by
  decide +kernel

/-- **C41.** In every tree of blocks, the work required on top of a proof of work block is: unchanged without retargeting or between
retargets (or the limit after a stall where allowed); at a retarget it is computed from the ancestor 2015 steps back, and panics exactly when
that ancestor is dated later than the previous block. -/
theorem C41_retarget {p : Params} {s ck} (hr : BlockTree.Spec.Reachable p.tree s ck) {id b bits old} (hb : s.get id = some b)
    (hc : p.cons id = .pow bits) (hd : Compact.decode bits = .ok old) (hn : p.pow.noRetargeting = false) (hdue : (b.height + 1) % 2016 = 0) (newTime : Nat) :
    ∃ a x, Up p.tree s id 2015 a ∧ getGen p.tree s a = some x ∧
      (b.timestamp < x.timestamp p.tree → workRequired p s b newTime = .error .panicTimespan) ∧
      (x.timestamp p.tree ≤ b.timestamp → workRequired p s b newTime =
        .ok (Compact.encode (powValue p.pow.limit old (max (1209600 / 4) (min (1209600 * 4) (b.timestamp - x.timestamp p.tree)))))) := by
  have hi := BlockTree.reachable_inv hr
  have hg := hi _ _ hb
  have hx := getGen_block hg.not_genesis hb
  have hint : interval = 2016 := by decide
  have hh : 2015 ≤ b.height := by omega
  obtain ⟨y, a, h1, h2, h3, -⟩ := BlockTree.getAncestor_ok hi hx (h := b.height - 2015) (by simp [BlockTree.Gen.height])
  have hm : (BlockTree.Gen.block b).height - (b.height - 2015) = 2015 := by
    simp only [BlockTree.Gen.height]; omega
  rw [hm] at h2
  have hst : startingBlockTime p s b = .ok (y.timestamp p.tree) := by
    simp only [startingBlockTime, hint, ensure, ancestorAt, bind, Except.bind, pure, Except.pure]
    rw [if_pos (by omega), h1]
  have hw : workRequired p s b newTime = retarget p s b bits := by
    simp only [workRequired, hg.id_eq, hc, hn, hint]
    simp [hdue]
  refine ⟨a, y, h2, h3, ?_, ?_⟩
  · intro hlt
    rw [hw]
    simp only [retarget, hst, bind, Except.bind, actualTimespan, if_pos hlt]
  · intro hle
    rw [hw]
    simp only [retarget, hst, bind, Except.bind, actualTimespan, powNewTarget, hd]
    rw [if_neg (by omega)]
    simp only
    refine congrArg Except.ok (congrArg _ (congrArg _ ?_))
    have ht : timespan = 1209600 := by decide
    have hf : factor = 4 := rfl
    simp only [clamp, ht, hf]
    split
    · omega
    · split <;> omega

/-- **C41.** Between retargets the required work is the previous block's, or the limit where minimal difficulty is allowed and the new block
is dated more than twenty minutes after the previous one. -/
theorem C41_between {p : Params} {s : BlockTree.Store} {b : BlockTree.Idx} {bits : Nat} (hc : p.cons b.id = .pow bits) (newTime : Nat)
    (hdue : p.pow.noRetargeting = true ∨ (b.height + 1) % 2016 ≠ 0) (ht : b.timestamp + 1200 < 2 ^ 64) :
    workRequired p s b newTime = .ok (if p.pow.noRetargeting = false ∧ p.pow.allowMinDifficulty = true ∧ b.timestamp + 1200 < newTime then
      Compact.encode p.pow.limit else bits) := by
  have hint : interval = 2016 := by decide
  have hsp : powSpacing * 2 = 1200 := by decide
  have hst : minDifficultyTarget p newTime b bits = .ok (if b.timestamp + 1200 < newTime then Compact.encode p.pow.limit else bits) := by
    simp only [minDifficultyTarget, stalled, hsp, if_pos ht, bind, Except.bind, pure, Except.pure, decide_eq_true_eq, gt_iff_lt]
  simp only [workRequired, hc, hint]
  cases hn : p.pow.noRetargeting with
  | true => simp
  | false =>
    have hdue' : (b.height + 1) % 2016 ≠ 0 := by
      rcases hdue with h | h
      · rw [hn] at h; cases h
      · exact h
    simp only [Bool.false_eq_true, if_false, if_neg hdue']
    cases p.pow.allowMinDifficulty with
    | true => simp [hst]
    | false => simp

/-- **C41.** A proof of work block is accepted only if it carries exactly the required target and its hash, as a number, does not exceed it. -/
theorem C41_accept {p : Params} {s : BlockTree.Store} {i : Option Nat} {id bits : Nat} :
    checkPow p s i id bits = .ok () ↔ powTarget p s i id = .ok bits ∧ ∃ t, Compact.decode bits = .ok t ∧ p.hash id ≤ t := by
  simp only [checkPow, bind_eq_ok, ensure_eq_ok]
  constructor
  · rintro ⟨w, h1, -, rfl, r, h2, h3⟩
    refine ⟨h1, ?_⟩
    simp only [checkHash] at h2
    split at h2
    · cases h2
    · rename_i t ht
      refine ⟨t, ht, ?_⟩
      simp only [Except.ok.injEq] at h2
      subst h2
      simpa using h3
  · rintro ⟨h1, t, h2, h3⟩
    refine ⟨bits, h1, (), rfl, true, ?_, rfl⟩
    simp only [checkHash, h2, h3, decide_true]

/-! ## C42: upgrades -/

/-- **C42.** Upgrades are accepted iff one of them is at height zero. -/
theorem C42_init_iff {α : Type} (l : List (Nat × α)) : (∃ l', netInit l = some l') ↔ ∃ u, (0, u) ∈ l := by
  have hperm := List.perm_insertionSort (fun a b : Nat × α => a.1 ≤ b.1) l
  have hsort := insertionSort_fst l
  simp only [netInit]
  generalize hL : l.insertionSort (fun a b => a.1 ≤ b.1) = L at *
  cases L with
  | nil =>
    simp only [List.head?_nil]
    have : l = [] := by simpa using hperm
    simp [this]
  | cons x r =>
    obtain ⟨h, u⟩ := x
    simp only [List.head?_cons]
    cases h with
    | zero =>
      simp only [Option.some.injEq, exists_eq', true_iff]
      exact ⟨u, hperm.mem_iff.1 (by simp)⟩
    | succ h =>
      simp only [reduceCtorEq, exists_false, false_iff]
      rintro ⟨u', hu'⟩
      have := hperm.mem_iff.2 hu'
      rcases List.mem_cons.1 this with h1 | h1
      · cases h1
      · have := (List.pairwise_cons.1 hsort).1 _ h1
        simp at this

/-- **C42.** For upgrades at distinct heights given in any order, the upgrade in force at a height exists and is the given one with the greatest height not
above it. -/
theorem C42_version_at {α : Type} {l l' : List (Nat × α)} (h : netInit l = some l') (hnd : (l.map Prod.fst).Nodup) (x : Nat) :
    ∃ uh u, versionAt l' x = some (uh, u) ∧ (uh, u) ∈ l ∧ uh ≤ x ∧ ∀ y ∈ l, y.1 ≤ x → y.1 ≤ uh ∧ (y.1 = uh → y = (uh, u)) := by
  obtain ⟨u0, h0⟩ := (C42_init_iff l).1 ⟨l', h⟩
  have hperm := List.perm_insertionSort (fun a b : Nat × α => a.1 ≤ b.1) l
  have hsort := insertionSort_fst l
  have e : l' = l.insertionSort (fun a b => a.1 ≤ b.1) := by
    simp only [netInit] at h
    split at h
    · cases h; rfl
    · cases h
  rw [← e] at hperm hsort
  obtain ⟨⟨uh, u⟩, hx⟩ := versionAt_some (hperm.mem_iff.2 h0) x
  have hm := hperm.mem_iff.1 (versionAt_mem hx)
  obtain ⟨a, b, h1, h2, h3⟩ := versionAt_spec hx
  refine ⟨uh, u, hx, hm, h2, ?_⟩
  intro y hy hyx
  refine ⟨?_, ?_⟩
  · have hy' := hperm.mem_iff.2 hy
    rw [h1] at hy' hsort
    rcases List.mem_append.1 hy' with h4 | h4
    · exact (List.pairwise_append.1 hsort).2.2 y h4 (uh, u) (by simp)
    · rcases List.mem_cons.1 h4 with h5 | h5
      · subst h5; exact le_refl _
      · have := h3 y h5; omega
  · intro he
    exact List.inj_on_of_nodup_map hnd hy hm he

/-- **C42.** An ongoing status is that of the block before: between upgrades nothing changes. -/
theorem C42_ongoing {α : Type} {l : List (Nat × α)} {h uh : Nat} {u : α} (hv : versionAt l (h+1) = some (uh, u)) :
    uh = h + 1 ∨ versionAt l h = some (uh, u) := by
  obtain ⟨-, -, -, hle, -⟩ := versionAt_spec hv
  rcases Nat.lt_or_eq_of_le hle with h' | h'
  · exact Or.inr (versionAt_prev hv h')
  · exact Or.inl h'

/-! ## concrete cases -/

/-- the main network's parameters at 120 seconds -/
def exPos : PosCfg := ⟨(2 ^ 256 - 1) / 120, 100, 1⟩

/-- too slow: one thousandth up; too fast: one thousandth down; at the limit: stays; far beyond: the limit -/
example : PosWF exPos ∧ (newTarget exPos (10 ^ 60) 240 120).toOption = some (Compact.encode (10 ^ 60 + 10 ^ 57)) ∧
    (newTarget exPos (10 ^ 60) 0 120).toOption = some (Compact.encode (10 ^ 60 - 10 ^ 57)) ∧
    (newTarget exPos exPos.targetLimit 200 120).toOption = some (Compact.encode exPos.targetLimit) ∧
    (newTarget exPos (2 ^ 256 - 1) 200 120).toOption = some (Compact.encode exPos.targetLimit) := by
  refine ⟨⟨by decide +kernel, by decide, by decide⟩, ?_⟩
  decide +kernel

/-- a chain of proof of stake blocks 150 seconds apart, all from height one -/
def exP : Params where
  tree := { genesisId := 0, genesisTime := 1000, body := fun n => ⟨n - 1, 1000 + 150 * min n 100, 0, 1⟩ }
  upgrades := [(0, .ignore), (1, .pos (some 0x1b0fffff) { exPos with countToAverage := 3, changeLimit := 10 })]
  cons := fun n => .pos (match n with | 1 => 0x1b0fffff | 2 => 0x1b0fffff | 3 => 0x1b1028f4 | _ => 0x1b105252)
  hash := fun _ => 0
  spacing := 120
  pow := ⟨false, false, 2 ^ 224 - 1⟩

theorem exP_wf : WF exP ∧ AllPos exP := by
  have hst : ∀ h, h ≠ 0 → ∃ st c, status exP.upgrades h = .ok st ∧ Required.posCfg? st = some c := by
    intro h hh
    have h1 : 1 ≤ h := by omega
    simp only [status, versionAt, exP, List.reverse_cons, List.reverse_nil, List.nil_append, List.cons_append, List.find?_cons, h1, decide_true]
    by_cases h2 : 1 < h
    · exact ⟨_, _, rfl, by rw [if_pos h2]; rfl⟩
    · exact ⟨_, _, rfl, by rw [if_neg h2]; rfl⟩
  refine ⟨⟨⟨.ignore, by simp [exP]⟩, ?_, ?_, by decide, ?_⟩, hst⟩
  · intro h i c hm
    simp only [exP, List.mem_cons, Prod.mk.injEq, reduceCtorEq, and_false, false_or, List.not_mem_nil, or_false, Upgrade.pos.injEq] at hm
    obtain ⟨-, rfl, rfl⟩ := hm
    refine ⟨⟨by decide +kernel, by decide, by decide⟩, ?_⟩
    rintro d hd
    cases hd
    exact ⟨0x0fffff * 256 ^ 24, by decide +kernel⟩
  · intro h c _ hz
    exact hst h hz
  · refine ⟨by decide, fun id => ?_⟩
    simp only [exP]
    omega

def exAccept : List Nat → BlockTree.Store → Option BlockTree.Store
  | [], s => some s
  | id :: l, s => if id ≠ exP.tree.genesisId ∧ s.get id = none ∧ (validateConsensus exP s id).toOption = some () then
      match BlockTree.addBlock exP.tree s id with
      | .ok s' => exAccept l s'
      | .error _ => none
    else none

theorem exAccept_accepted : ∀ {l s s'}, Accepted exP s → exAccept l s = some s' → Accepted exP s'
  | [], s, s', hr, h => by simp only [exAccept, Option.some.injEq] at h; exact h ▸ hr
  | id :: l, s, s', hr, h => by
    simp only [exAccept] at h
    split at h
    · rename_i hc
      split at h
      · rename_i s1 h1
        refine exAccept_accepted (.add hr hc.1 hc.2.1 ?_ h1) h
        cases hv : validateConsensus exP s id with
        | ok u => rfl
        | error e => have := hc.2.2; rw [hv] at this; cases this
      · cases h
    · cases h

/-- four accepted proof of stake blocks; the third and fourth raise the target by one percent each; the fifth requires another percent -/
example : WF exP ∧ AllPos exP ∧ ∃ s, Accepted exP s ∧ (s.get 4).isSome = true ∧
    (posTarget exP s none { exPos with countToAverage := 3, changeLimit := 10 } 4).toOption = some 0x1b107c1a :=
  ⟨exP_wf.1, exP_wf.2, _, exAccept_accepted .init (Option.some_get (x := exAccept [1, 2, 3, 4] BMap.empty) (by decide +kernel)).symm, by decide +kernel⟩

end Verif.Target
