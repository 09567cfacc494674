import Verif.Target.Spec
import Verif.BlockTree.Lemmas
import Verif.Compact.Props

namespace Verif.Target
open Verif Spec

/-! ### upgrades -/

theorem find_reverse {α : Type} {q : α → Bool} : ∀ {l : List α} {x : α}, l.reverse.find? q = some x →
    ∃ a b, l = a ++ x :: b ∧ q x = true ∧ ∀ y ∈ b, q y = false := by
  intro l x h
  obtain ⟨h1, as, bs, h2, h3⟩ := List.find?_eq_some_iff_append.1 h
  refine ⟨bs.reverse, as.reverse, ?_, by simpa using h1, ?_⟩
  · have := congrArg List.reverse h2
    simpa using this
  · intro y hy; simpa using h3 y (by simpa using hy)

theorem find_append_cons {α : Type} {q : α → Bool} {a b : List α} {x : α} (hx : q x = true) (hb : ∀ y ∈ b, q y = false) :
    (a ++ x :: b).reverse.find? q = some x := by
  rw [List.find?_eq_some_iff_append]
  exact ⟨by simpa using hx, b.reverse, a.reverse, by simp, fun y hy => by simpa using hb y (by simpa using hy)⟩

theorem insertionSort_fst {α : Type} (l : List (Nat × α)) :
    (l.insertionSort (fun a b => a.1 ≤ b.1)).Pairwise (fun a b => a.1 ≤ b.1) := by
  haveI : Std.Total (fun a b : Nat × α => a.1 ≤ b.1) := ⟨fun a b => Nat.le_total _ _⟩
  haveI : IsTrans (Nat × α) (fun a b : Nat × α => a.1 ≤ b.1) := ⟨fun a b c => Nat.le_trans⟩
  exact List.pairwise_insertionSort _ l

theorem versionAt_spec {α : Type} {l : List (Nat × α)} {h uh : Nat} {u : α} (hv : versionAt l h = some (uh, u)) :
    ∃ a b, l = a ++ (uh, u) :: b ∧ uh ≤ h ∧ ∀ y ∈ b, h < y.1 := by
  obtain ⟨a, b, h1, h2, h3⟩ := find_reverse hv
  exact ⟨a, b, h1, by simpa using h2, fun y hy => by simpa using h3 y hy⟩

theorem versionAt_prev {α : Type} {l : List (Nat × α)} {h uh : Nat} {u : α} (hv : versionAt l (h+1) = some (uh, u)) (hlt : uh < h + 1) :
    versionAt l h = some (uh, u) := by
  obtain ⟨a, b, h1, h2, h3⟩ := versionAt_spec hv
  subst h1
  refine find_append_cons (by simp; omega) ?_
  intro y hy
  have := h3 y hy
  simp; omega

theorem versionAt_mem {α : Type} {l : List (Nat × α)} {h uh : Nat} {u : α} (hv : versionAt l h = some (uh, u)) : (uh, u) ∈ l := by
  obtain ⟨a, b, h1, -⟩ := versionAt_spec hv
  subst h1; simp

theorem versionAt_some {α : Type} {l : List (Nat × α)} {u0 : α} (h0 : (0, u0) ∈ l) (h : Nat) : ∃ x, versionAt l h = some x := by
  rw [← Option.isSome_iff_exists, versionAt, List.find?_isSome]
  exact ⟨(0, u0), by simpa using h0, by simp⟩

theorem status_ok {p : Params} (hwf : WF p) (h : Nat) : ∃ st, status p.upgrades h = .ok st := by
  obtain ⟨u0, h0⟩ := hwf.zero
  obtain ⟨⟨uh, u⟩, hx⟩ := versionAt_some h0 h
  rw [status, hx]
  cases u <;> exact ⟨_, rfl⟩

theorem status_cases {l : List (Nat × Upgrade)} {h : Nat} {st : Required} (hs : status l h = .ok st) :
    (∃ uh d, versionAt l h = some (uh, .pow d) ∧ st = if uh < h then .powOngoing else .powThreshold d) ∨
    (∃ uh d c, versionAt l h = some (uh, .pos d c) ∧ st = if uh < h then .posOngoing c else .posThreshold d c) ∨
    (∃ uh, versionAt l h = some (uh, .ignore) ∧ st = .ignore) := by
  unfold status at hs
  split at hs
  · cases hs
  · rename_i uh d e; cases hs; exact Or.inl ⟨uh, d, e, rfl⟩
  · rename_i uh d c e; cases hs; exact Or.inr (Or.inl ⟨uh, d, c, e, rfl⟩)
  · rename_i uh e; cases hs; exact Or.inr (Or.inr ⟨uh, e, rfl⟩)

theorem status_pos {p : Params} (hwf : WF p) {h : Nat} {st c} (hs : status p.upgrades h = .ok st) (hc : Required.posCfg? st = some c) :
    PosWF c ∧ (∀ d c', st = .posThreshold (some d) c' → Decodable d) := by
  rcases status_cases hs with ⟨uh, d, e, rfl⟩ | ⟨uh, d, c1, e, rfl⟩ | ⟨uh, e, rfl⟩
  · split at hc <;> simp [Required.posCfg?] at hc
  · have hm := hwf.pos _ _ _ (versionAt_mem e)
    split at hc
    · rename_i hlt
      simp only [Required.posCfg?, Option.some.injEq] at hc; subst hc
      exact ⟨hm.1, fun d' c' hh => by rw [if_pos hlt] at hh; cases hh⟩
    · rename_i hlt
      simp only [Required.posCfg?, Option.some.injEq] at hc; subst hc
      exact ⟨hm.1, fun d' c' hh => by rw [if_neg hlt] at hh; cases hh; exact hm.2 _ rfl⟩
  · simp [Required.posCfg?] at hc

/-- before an ongoing proof of stake block there is proof of stake -/
theorem status_prev_ongoing {l : List (Nat × Upgrade)} {h : Nat} {c} (hs : status l (h+1) = .ok (.posOngoing c)) :
    ∃ st, status l h = .ok st ∧ Required.posCfg? st = some c := by
  rcases status_cases hs with ⟨uh, d, e, h1⟩ | ⟨uh, d, c1, e, h1⟩ | ⟨uh, e, h1⟩
  · split at h1 <;> cases h1
  · split at h1
    · rename_i hlt
      cases h1
      have := versionAt_prev e hlt
      refine ⟨_, by rw [status, this], ?_⟩
      split <;> rfl
    · cases h1
  · cases h1

/-! ### the new value -/

theorem newTargetValue_ok {cfg : PosCfg} (hc : cfg.targetLimit < 2 ^ 256) (hk : cfg.changeLimit ≤ 1000) {prev actual target : Nat}
    (hp : prev < 2 ^ 256) (ha : actual < 2 ^ 64) (ht : target ≠ 0) :
    newTargetValue cfg prev actual target =
      .ok (min cfg.targetLimit (max (prev - prev * cfg.changeLimit / 1000) (min (prev + prev * cfg.changeLimit / 1000) (prev * max 1 actual / target)))) := by
  have hb : prev * cfg.changeLimit / 1000 ≤ prev := by
    apply Nat.div_le_of_le_mul
    calc prev * cfg.changeLimit ≤ prev * 1000 := Nat.mul_le_mul_left _ hk
      _ = 1000 * prev := Nat.mul_comm _ _
  have e1 : (if actual = 0 then 1 else actual) = max 1 actual := by
    split <;> omega
  have m1 : prev * max 1 actual < 2 ^ 512 :=
    calc prev * max 1 actual ≤ prev * 2 ^ 64 := Nat.mul_le_mul_left _ (by omega)
      _ < 2 ^ 256 * 2 ^ 64 := Nat.mul_lt_mul_of_pos_right hp (by norm_num)
      _ ≤ 2 ^ 512 := by decide +kernel
  have m2 : prev * cfg.changeLimit < 2 ^ 512 :=
    calc prev * cfg.changeLimit ≤ prev * 1000 := Nat.mul_le_mul_left _ hk
      _ < 2 ^ 256 * 1000 := Nat.mul_lt_mul_of_pos_right hp (by norm_num)
      _ ≤ 2 ^ 512 := by decide +kernel
  simp only [newTargetValue, e1, mul512, if_pos m1, if_pos m2, divU, if_neg ht, okOr, bind, Except.bind, pure, Except.pure]
  rw [if_neg (by norm_num)]
  simp only [sub512, if_pos hb, add512]
  generalize hL : prev * cfg.changeLimit / 1000 = L at *
  have hadd : prev + L < 2 ^ 512 := by
    have : (2:Nat) ^ 256 + 2 ^ 256 ≤ 2 ^ 512 := by decide +kernel
    omega
  rw [if_pos hadd]
  simp only
  generalize prev * max 1 actual / target = nt
  congr 1
  unfold clamp
  generalize cfg.targetLimit = lim at *
  generalize (2:Nat) ^ 256 = M at *
  split <;> split <;> (try split) <;> omega

theorem newTarget_ok {cfg : PosCfg} (hc : cfg.targetLimit < 2 ^ 256) (hk : cfg.changeLimit ≤ 1000) {prev actual target : Nat}
    (hp : prev < 2 ^ 256) (ha : actual < 2 ^ 64) (ht : target ≠ 0) :
    ∃ v, newTargetValue cfg prev actual target = .ok v ∧ v ≤ cfg.targetLimit ∧ newTarget cfg prev actual target = .ok (Compact.encode v) ∧
      Decodable (Compact.encode v) := by
  have h := newTargetValue_ok hc hk hp ha ht
  refine ⟨_, h, Nat.min_le_left _ _, ?_, ?_⟩
  · simp only [newTarget, h, bind, Except.bind, pure, Except.pure]
  · obtain ⟨t, ht, -⟩ := Compact.C25_round_down (min cfg.targetLimit (max (prev - prev * cfg.changeLimit / 1000)
      (min (prev + prev * cfg.changeLimit / 1000) (prev * max 1 actual / target)))) (by omega)
    exact ⟨t, ht⟩

/-! ### the average -/

open Verif.BlockTree (getGen getGen_block getGen_genesis)
open Verif.BlockTree.Spec (Up)

/-- timestamp by id -/
def timeOf (p : Params) (id : Nat) : Nat := if id = p.tree.genesisId then p.tree.genesisTime else (p.tree.body id).timestamp

theorem timestamp_eq {p : Params} {s} (hi : BlockTree.Inv p.tree s) {id x} (h : getGen p.tree s id = some x) : x.timestamp p.tree = timeOf p id := by
  unfold timeOf
  split
  · rename_i hg; subst hg; rw [getGen_genesis] at h; cases h; rfl
  · rename_i hg
    simp only [getGen, if_neg hg, Option.map_eq_some_iff] at h
    obtain ⟨b, hb, rfl⟩ := h
    exact (hi _ _ hb).time_eq

theorem average_ok {p : Params} {s} (hi : BlockTree.Inv p.tree s) {cfg : PosCfg} (hn : 2 ≤ cfg.countToAverage) {id b}
    (hb : s.get id = some b) (hh : b.height < 2 ^ 63) :
    ∃ a, Up p.tree s id (min b.height (cfg.countToAverage - 1)) a ∧
      averageBlockTime p s cfg b = if timeOf p a ≤ b.timestamp then
        .ok ((b.timestamp - timeOf p a) / min b.height (cfg.countToAverage - 1)) else .error .notMonotonic := by
  have hg := hi _ _ hb
  have hx := getGen_block hg.not_genesis hb
  obtain ⟨q, -, hq, -⟩ := hg.parent
  have hstart : (heightSub b.height (cfg.countToAverage - 1)).getD 0 = b.height - (cfg.countToAverage - 1) := by
    unfold heightSub
    rw [if_neg (by omega)]
    split
    · simp; omega
    · rfl
  obtain ⟨y, a, h1, h2, h3, -⟩ := BlockTree.getAncestor_ok hi hx (h := b.height - (cfg.countToAverage - 1)) (by simp [BlockTree.Gen.height])
  have hm : (BlockTree.Gen.block b).height - (b.height - (cfg.countToAverage - 1)) = min b.height (cfg.countToAverage - 1) := by
    simp only [BlockTree.Gen.height]; omega
  rw [hm] at h2
  refine ⟨a, h2, ?_⟩
  have ht := timestamp_eq hi h3
  have hd : heightSub b.height (b.height - (cfg.countToAverage - 1)) = some (min b.height (cfg.countToAverage - 1)) := by
    unfold heightSub
    rw [if_neg (by omega), if_neg (by omega)]
    refine congrArg some ?_
    omega
  have e0 : b.height - (cfg.countToAverage - 1) < b.height := by omega
  simp only [averageBlockTime, ancestorAt, hstart, h1, ht, hd, ensure, e0, if_true, okOr, bind, Except.bind, pure, Except.pure]
  by_cases hle : timeOf p a ≤ b.timestamp
  · simp [hle]
  · simp [hle]

/-! ### accepted trees -/

/-- what is known of an accepted block at a height -/
def Entry (p : Params) (id h : Nat) : Prop :=
  ∀ st c, status p.upgrades h = .ok st → Required.posCfg? st = some c →
    ∃ t, p.cons id = .pos t ∧ Decodable t ∧ timeOf p (p.tree.body id).prev < (p.tree.body id).timestamp

def AInv (p : Params) (s : BlockTree.Store) : Prop := ∀ id b, s.get id = some b → Entry p id b.height

theorem accepted_reachable {p : Params} {s} (h : Accepted p s) :
    ∃ ck, BlockTree.Spec.Reachable p.tree s ck ∧ ∀ id b, s.get id = some b → id ∈ ck := by
  induction h with
  | init => exact ⟨[], .init, fun id b hb => by simp at hb⟩
  | @add s s' id _ h1 h2 _ h3 ih =>
    obtain ⟨ck, hr, hall⟩ := ih
    obtain ⟨idx, m, e1, rfl, -⟩ := BlockTree.addBlock_eq h3
    obtain ⟨x, hx⟩ := BlockTree.createIndex_prev e1
    refine ⟨_, .add hr h1 h2 ?_ h3, ?_⟩
    · rcases BlockTree.known_iff.2 ⟨x, hx⟩ with h | ⟨b, hb⟩
      · exact .inl h
      · exact .inr (hall _ b hb)
    · intro k b hb
      rw [BMap.get_insert] at hb
      split at hb
      · rename_i hk; subst hk; exact List.mem_cons_self ..
      · exact List.mem_cons_of_mem _ (hall _ b hb)
  | @del s id _ h1 ih =>
    obtain ⟨ck, hr, hall⟩ := ih
    refine ⟨_, .del hr h1, ?_⟩
    intro k b hb
    refine List.mem_filter.2 ⟨hall k b (BlockTree.delBlock_sub s id k b hb), ?_⟩
    rw [BlockTree.delBlock, BMap.get_erase] at hb
    split at hb
    · cases hb
    · simpa using ‹¬ _›

theorem accepted_tree {p : Params} {s} (h : Accepted p s) : BlockTree.Inv p.tree s := by
  obtain ⟨ck, hr, -⟩ := accepted_reachable h
  exact BlockTree.reachable_inv hr

theorem decodable_encode {v : Nat} (h : v < 2 ^ 256) : Decodable (Compact.encode v) := by
  obtain ⟨t, ht, -⟩ := Compact.C25_round_down v h; exact ⟨t, ht⟩

/-- the average block time fits 64 bits -/
theorem average_lt {p : Params} (hwf : WF p) {s} (hi : BlockTree.Inv p.tree s) {cfg : PosCfg} {id b}
    (hb : s.get id = some b) {avg} (h : averageBlockTime p s cfg b = .ok avg) : avg < 2 ^ 64 := by
  simp only [averageBlockTime, bind_eq_ok, ensure_eq_ok, okOr_eq_ok, pure_eq_ok] at h
  obtain ⟨-, -, a, -, -, -, d, -, he⟩ := h
  have h1 := (hi _ _ hb).time_eq
  have h2 := hwf.times.2 id
  have h3 : (b.timestamp - a.timestamp p.tree) / d ≤ b.timestamp - a.timestamp p.tree := Nat.div_le_self _ _
  omega

/-- the target required of a block whose parent is a proof of stake block -/
theorem posTarget_block {p : Params} (hwf : WF p) {s} (hi : BlockTree.Inv p.tree s) (ha : AInv p s) {cfg : PosCfg} (hcfg : PosWF cfg) {id b st' c'}
    (hb : s.get id = some b) (hs : status p.upgrades b.height = .ok st') (hc : Required.posCfg? st' = some c') :
    (∃ d c'', st' = .posThreshold (some d) c'' ∧ posTargetInternal p s cfg b = .ok d ∧ Decodable d) ∨
    (∃ t prev, (∀ d c'', st' ≠ .posThreshold (some d) c'') ∧ p.cons id = .pos t ∧ Compact.decode t = .ok prev ∧ prev < 2 ^ 256 ∧
      ((∃ e, averageBlockTime p s cfg b = .error e ∧ posTargetInternal p s cfg b = .error e) ∨
       (∃ avg v, averageBlockTime p s cfg b = .ok avg ∧ avg < 2 ^ 64 ∧ newTargetValue cfg prev avg p.spacing = .ok v ∧ v ≤ cfg.targetLimit ∧
        posTargetInternal p s cfg b = .ok (Compact.encode v)))) := by
  obtain ⟨t, h1, ⟨prev, h2⟩, -⟩ := ha id b hb st' c' hs hc
  have hid := (hi _ _ hb).id_eq
  by_cases hd : ∃ d c'', st' = .posThreshold (some d) c''
  · obtain ⟨d, c'', rfl⟩ := hd
    left
    refine ⟨d, c'', rfl, ?_, (status_pos hwf hs hc).2 _ _ rfl⟩
    simp only [posTargetInternal, hs, prevThreshold, bind, Except.bind, pure, Except.pure]
  · right
    have hp : prev < 2 ^ 256 := (Compact.C25_decode_exact t prev h2).2.1
    refine ⟨t, prev, fun d c'' e => hd ⟨d, c'', e⟩, h1, h2, hp, ?_⟩
    have hth : prevThreshold st' = .ok none := by
      cases st' with
      | posOngoing _ => rfl
      | posThreshold i c'' => cases i with
        | none => rfl
        | some d => exact (hd ⟨d, c'', rfl⟩).elim
      | powOngoing => simp [Required.posCfg?] at hc
      | powThreshold _ => simp [Required.posCfg?] at hc
      | ignore => simp [Required.posCfg?] at hc
    have hpp : prevPosTarget p b = .ok prev := by simp only [prevPosTarget, hid, h1, h2]
    cases hav : averageBlockTime p s cfg b with
    | error e =>
      left
      refine ⟨e, rfl, ?_⟩
      simp only [posTargetInternal, hs, hth, adjusted, hpp, hav, bind, Except.bind]
    | ok avg =>
      right
      have hlt := average_lt hwf hi hb hav
      obtain ⟨v, hv, hle, hnt, -⟩ := newTarget_ok hcfg.limit hcfg.change hp hlt hwf.spacing.1
      refine ⟨avg, v, rfl, hlt, hv, hle, ?_⟩
      simp only [posTargetInternal, hs, hth, adjusted, hpp, hav, bind, Except.bind, ensure, hnt]
      rw [if_pos hwf.spacing.1]

theorem height_parent {p : Params} {s} (hi : BlockTree.Inv p.tree s) {id x} (h : getGen p.tree s id = some x) (hz : id ≠ p.tree.genesisId) :
    ∃ b, s.get id = some b ∧ x = .block b ∧ b.height ≠ 0 := by
  simp only [getGen, if_neg hz, Option.map_eq_some_iff] at h
  obtain ⟨b, hb, rfl⟩ := h
  obtain ⟨q, -, hq, -⟩ := (hi _ _ hb).parent
  exact ⟨b, hb, rfl, by omega⟩

/-- all targets required by proof of stake can be expanded -/
theorem posTarget_decodable {p : Params} (hwf : WF p) {s} (hi : BlockTree.Inv p.tree s) (ha : AInv p s) {pid x st c i}
    (hx : getGen p.tree s pid = some x) (hs : status p.upgrades (x.height + 1) = .ok st)
    (hst : (st = .posOngoing c ∧ i = none) ∨ st = .posThreshold i c) {t} (ht : posTarget p s i c pid = .ok t) : Decodable t := by
  have hcfg : PosWF c := by
    rcases hst with ⟨rfl, -⟩ | rfl <;> exact (status_pos hwf hs (by rfl)).1
  cases i with
  | some d =>
    rcases hst with ⟨-, h⟩ | rfl
    · cases h
    · simp only [posTarget, Except.ok.injEq] at ht
      subst ht
      exact (status_pos hwf hs (by rfl)).2 _ _ rfl
  | none =>
    simp only [posTarget, posTargetFrom] at ht
    split at ht
    · cases ht; exact decodable_encode hcfg.limit
    · rename_i hg
      obtain ⟨b, hb, rfl, hz⟩ := height_parent hi hx hg
      simp only [hb] at ht
      have hprev : ∃ st' c', status p.upgrades b.height = .ok st' ∧ Required.posCfg? st' = some c' := by
        rcases hst with ⟨rfl, -⟩ | rfl
        · obtain ⟨st', h1, h2⟩ := status_prev_ongoing hs; exact ⟨st', _, h1, h2⟩
        · exact hwf.cont _ _ hs hz
      obtain ⟨st', c', h1, h2⟩ := hprev
      rcases posTarget_block hwf hi ha hcfg hb h1 h2 with ⟨d, c'', -, e, hd⟩ | ⟨t0, prev, -, -, -, -, ⟨e, -, he⟩ | ⟨avg, v, -, -, -, hv, he⟩⟩
      · rw [e] at ht; cases ht; exact hd
      · rw [he] at ht; cases ht
      · rw [he] at ht; cases ht; exact decodable_encode (lt_of_le_of_lt hv hcfg.limit)

theorem validate_entry {p : Params} (hwf : WF p) {s} (hi : BlockTree.Inv p.tree s) (ha : AInv p s) {id} (h : validateConsensus p s id = .ok ()) :
    ∃ x, getGen p.tree s (p.tree.body id).prev = some x ∧ Entry p id (x.height + 1) := by
  simp only [validateConsensus, bind_eq_ok, okOr_eq_ok] at h
  obtain ⟨x, hx, st0, hst, hck⟩ := h
  refine ⟨x, hx, ?_⟩
  intro st c hs hc
  rw [hst] at hs; cases hs
  have key : ∀ i t, checkPos p s i c id t = .ok () → ((st0 = .posOngoing c ∧ i = none) ∨ st0 = .posThreshold i c) → p.cons id = .pos t →
      ∃ t, p.cons id = .pos t ∧ Decodable t ∧ timeOf p (p.tree.body id).prev < (p.tree.body id).timestamp := by
    intro i t hck hh ht
    simp only [checkPos, strictOrder, bind_eq_ok, ensure_eq_ok, okOr_eq_ok] at hck
    obtain ⟨t', h1, -, h2, x', h3, h4⟩ := hck
    subst h2
    refine ⟨t', ht, posTarget_decodable hwf hi ha hx hst hh h1, ?_⟩
    rw [timestamp_eq hi h3] at h4
    exact h4
  cases st0 with
  | powOngoing => simp [Required.posCfg?] at hc
  | powThreshold _ => simp [Required.posCfg?] at hc
  | ignore => simp [Required.posCfg?] at hc
  | posOngoing c0 =>
    simp only [Required.posCfg?, Option.some.injEq] at hc; subst hc
    cases hcons : p.cons id with
    | none => rw [hcons] at hck; simp [checkCons] at hck
    | pow _ => rw [hcons] at hck; simp [checkCons] at hck
    | pos t => rw [hcons] at hck; rw [← hcons]; exact key none t hck (Or.inl ⟨rfl, rfl⟩) hcons
  | posThreshold i c0 =>
    simp only [Required.posCfg?, Option.some.injEq] at hc; subst hc
    cases hcons : p.cons id with
    | none => rw [hcons] at hck; simp [checkCons] at hck
    | pow _ => rw [hcons] at hck; simp [checkCons] at hck
    | pos t => rw [hcons] at hck; rw [← hcons]; exact key i t hck (Or.inr rfl) hcons

theorem accepted_inv {p : Params} (hwf : WF p) {s} (h : Accepted p s) : AInv p s := by
  induction h with
  | init => intro id b hb; simp at hb
  | @add s s' id hacc h1 h2 h3 h4 ih =>
    have hi := accepted_tree hacc
    obtain ⟨x, hx, he⟩ := validate_entry hwf hi ih h3
    unfold BlockTree.addBlock at h4
    simp only [bind_eq_ok, ensure_eq_ok, pure_eq_ok] at h4
    obtain ⟨idx, h5, m, -, -, -, h6⟩ := h4
    obtain ⟨y, a, -, -, h7⟩ := BlockTree.createIndex_ok hi hx
    rw [h5] at h7; cases h7
    intro k b hk
    rw [← h6] at hk
    by_cases hkk : k = id
    · subst hkk
      rw [BMap.get_insert_self] at hk; cases hk
      exact he
    · rw [BMap.get_insert_ne _ _ hkk] at hk
      exact ih k b hk
  | @del s id _ _ ih =>
    intro k b hk
    rw [BlockTree.delBlock, BMap.get_erase] at hk
    split at hk
    · cases hk
    · exact ih k b hk

end Verif.Target
