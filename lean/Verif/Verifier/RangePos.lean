import Verif.Verifier.ValueTx
import Verif.Pos.Shares

/-!
# Staking operations stay in range

`Coh`: the tables of the staking state agree with each other.  As long as they do, no operation takes a balance below zero, and
none takes it above what there is in total – apart from the balance of a decommissioned pool, which only grows.
-/

namespace Verif.Pos
open Verif Verif.Accounting

/-- what an operation does, as long as no balance leaves its range -/
inductive Takes (s : Sv) : Op → Sv → Prop
  | createPool {p : PoolId} {d : PoolData} (h1 : s.poolData p = none) (h2 : s.poolBal p = 0) : Takes s (.createPool p d)
      { s with poolData := Function.update s.poolData p (some d), poolBal := Function.update s.poolBal p d.pledge }
  | decommissionPool {p : PoolId} {d : PoolData} (h1 : s.poolData p = some d) : Takes s (.decommissionPool p)
      { s with poolData := Function.update s.poolData p none, poolBal := Function.update s.poolBal p 0 }
  | increaseStakerRewards {p : PoolId} {a : Nat} {d : PoolData} (h1 : s.poolData p = some d) :
      Takes s (.increaseStakerRewards p a)
        { s with poolData := Function.update s.poolData p (some { d with rewards := d.rewards + a })
                 poolBal := Function.update s.poolBal p (s.poolBal p + a) }
  | createDelegationId {t : PoolId} {d k : Nat} {x : PoolData} (h1 : s.poolData t = some x) (h2 : s.delData d = none) :
      Takes s (.createDelegationId t d k) { s with delData := Function.update s.delData d (some ⟨k, t⟩) }
  | delegateStaking {d a : Nat} {x : DelegationData} (h1 : s.delData d = some x) : Takes s (.delegateStaking d a)
      { s with delBal := Function.update s.delBal d (s.delBal d + a)
               poolBal := Function.update s.poolBal x.sourcePool (s.poolBal x.sourcePool + a)
               share := Function.update s.share (key x.sourcePool d) (s.share (key x.sourcePool d) + a) }
  | spendShare {d a : Nat} {x : DelegationData} (h1 : s.delData d = some x) (h2 : a ≤ s.delBal d)
      (h3 : a ≤ s.share (key x.sourcePool d)) (h4 : (s.poolData x.sourcePool).isSome → a ≤ s.poolBal x.sourcePool) :
      Takes s (.spendShare d a)
        { s with delBal := Function.update s.delBal d (s.delBal d - a)
                 poolBal := afterSpend s x.sourcePool a
                 share := Function.update s.share (key x.sourcePool d) (s.share (key x.sourcePool d) - a) }

/-- no balance leaves its range -/
def Room (s : Sv) : Op → Prop
  | .delegateStaking d a => ∀ x, s.delData d = some x → (s.delBal d : Int) + a < I128 ∧
      (s.poolBal x.sourcePool : Int) + a < I128 ∧ (s.share (key x.sourcePool d) : Int) + a < I128
  | .spendShare d a => ∀ x, s.delData d = some x → a ≤ s.delBal d ∧ a ≤ s.share (key x.sourcePool d) ∧
      ((s.poolData x.sourcePool).isSome → a ≤ s.poolBal x.sourcePool)
  | .increaseStakerRewards p a => (s.poolBal p : Int) + a < I128
  | .deleteDelegationId _ => False
  | _ => True

theorem step_takes {c c' : Cache} {op : Op} {u : Undo} {s : Sv} (h : Rep c s) (hs : step c op = .ok (c', u)) (hr : Room s op) :
    ∃ s', Rep c' s' ∧ Takes s op s' := by
  suffices H : ∃ u' s', Move s op u' s' ∧ Takes s op s' by
    obtain ⟨u', s', hm, ht⟩ := H
    obtain ⟨t', h1, h2⟩ := hm.fwd c h
    rw [hs] at h1; cases h1
    exact ⟨s', h2, ht⟩
  cases op with
  | createPool p d =>
    obtain ⟨bs, pd, du, h1, h2, h3, h4, rfl, rfl⟩ := createPool_ok.1 hs
    rw [h.vPoolData] at h1
    rw [h.vPoolBal] at h2
    have h1 := Except.ok.inj h1
    have h2 := Except.ok.inj h2
    exact ⟨_, _, move_createPool h1 h2 (addUnsigned_ok.1 h3).1, .createPool h1 h2⟩
  | decommissionPool p =>
    obtain ⟨d, b, bs, pd, du, h1, h2, h3, h4, rfl, rfl⟩ := decommissionPool_ok.1 hs
    rw [h.vPoolData] at h1
    have h1 := Except.ok.inj h1
    exact ⟨_, _, move_decommissionPool h1 (h.poolBal.lt p), .decommissionPool h1⟩
  | increaseStakerRewards p a =>
    obtain ⟨d, bs, pd, du, h1, h2, h3, h4, rfl, rfl⟩ := increaseStakerRewards_ok.1 hs
    rw [h.vPoolData] at h1
    have h1 := Except.ok.inj h1
    exact ⟨_, _, move_increaseStakerRewards h1 h3 hr, .increaseStakerRewards h1⟩
  | createDelegationId t d k =>
    obtain ⟨x, dd, du, h1, h2, h3, rfl, rfl⟩ := createDelegationId_ok.1 hs
    rw [h.vPoolData] at h1
    rw [h.vDelData] at h2
    have h1 := Except.ok.inj h1
    have h2 := Except.ok.inj h2
    exact ⟨_, _, move_createDelegationId h1 h2, .createDelegationId h1 h2⟩
  | deleteDelegationId d => exact hr.elim
  | delegateStaking d a =>
    obtain ⟨data, db, pb, sh, h1, h2, h3, h4, rfl, rfl⟩ := delegateStaking_ok.1 hs
    rw [h.vDelData] at h1
    have h1 := Except.ok.inj h1
    obtain ⟨r1, r2, r3⟩ := hr _ h1
    exact ⟨_, _, move_delegateStaking h1 r1 r2 r3, .delegateStaking h1⟩
  | spendShare d a =>
    obtain ⟨data, o, db, pb, sh, h1, h2, h3, h4, h5, rfl, rfl⟩ := spendShare_ok.1 hs
    rw [h.vDelData] at h1
    have h1 := Except.ok.inj h1
    obtain ⟨r1, r2, r3⟩ := hr _ h1
    exact ⟨_, _, move_spendShare h1 r1 (h.delBal.lt d) r3 (h.poolBal.lt _) r2 (h.share.lt _), .spendShare h1 r1 r2 r3⟩

/-! ### Agreement of the tables -/

/-- the tables agree: the share of a delegation in its pool is the balance of the delegation, and there are no others; a pool
that exists has the coins of its owner and of its delegations -/
structure Coh (s : Sv) : Prop where
  shareIn : ∀ d x, s.delData d = some x → s.share (key x.sourcePool d) = s.delBal d
  shareOut : ∀ p d, (∀ x, s.delData d = some x → x.sourcePool ≠ p) → s.share (key p d) = 0
  idle : ∀ d, s.delData d = none → s.delBal d = 0
  pool : ∀ p x, s.poolData p = some x → ∃ F : Finset Nat, (∀ d, d ∉ F → s.share (key p d) = 0) ∧
    s.poolBal p = x.pledge + x.rewards + ∑ d ∈ F, s.share (key p d)

/-- nobody ever delegated to `p` -/
def Blank (s : Sv) (p : PoolId) : Prop := ∀ d x, s.delData d = some x → x.sourcePool ≠ p

theorem Coh.share_le {s : Sv} (h : Coh s) (p d : Nat) : s.share (key p d) ≤ s.delBal d := by
  cases hd : s.delData d with
  | none => rw [h.shareOut p d (by simp [hd])]; omega
  | some x =>
    by_cases e : x.sourcePool = p
    · subst e; rw [h.shareIn d x hd]
    · rw [h.shareOut p d (by rintro y hy; rw [hd] at hy; cases hy; exact e)]; omega

/-- a pool has at least the share of each of its delegations -/
theorem Coh.share_le_pool {s : Sv} (h : Coh s) {p d : Nat} {x : PoolData} (hp : s.poolData p = some x) :
    s.share (key p d) ≤ s.poolBal p := by
  obtain ⟨F, h1, h2⟩ := h.pool p x hp
  by_cases hd : d ∈ F
  · rw [h2, ← Finset.add_sum_erase F _ hd]; omega
  · rw [h1 d hd]; omega

theorem sum_point {F : Finset Nat} {f g : Nat → Nat} {d : Nat} (hd : d ∈ F) (h : ∀ k, k ≠ d → g k = f k) :
    ∑ k ∈ F, g k + f d = ∑ k ∈ F, f k + g d := by
  rw [← Finset.add_sum_erase F g hd, ← Finset.add_sum_erase F f hd]
  have : ∑ k ∈ F.erase d, g k = ∑ k ∈ F.erase d, f k := Finset.sum_congr rfl fun k hk => h k (Finset.ne_of_mem_erase hk)
  omega

/-- the operations keep the tables in agreement -/
theorem Takes.coh {s s' : Sv} {op : Op} (h : Takes s op s') (hc : Coh s)
    (hb : ∀ p d, op = .createPool p d → Blank s p ∧ d.rewards = 0) : Coh s' := by
  cases h with
  | @createPool p d h1 h2 =>
    obtain ⟨b1, b2⟩ := hb p d rfl
    refine ⟨hc.shareIn, hc.shareOut, hc.idle, fun q x hx => ?_⟩
    dsimp only at hx ⊢
    by_cases e : q = p
    · subst e
      rw [Function.update_self] at hx ⊢
      cases hx
      exact ⟨∅, fun k _ => hc.shareOut q k (fun y hy => b1 k y hy), by simp [b2]⟩
    · rw [Function.update_of_ne e] at hx ⊢
      exact hc.pool q x hx
  | @decommissionPool p d h1 =>
    refine ⟨hc.shareIn, hc.shareOut, hc.idle, fun q x hx => ?_⟩
    dsimp only at hx ⊢
    by_cases e : q = p
    · subst e
      rw [Function.update_self] at hx
      cases hx
    · rw [Function.update_of_ne e] at hx ⊢
      exact hc.pool q x hx
  | @increaseStakerRewards p a d h1 =>
    refine ⟨hc.shareIn, hc.shareOut, hc.idle, fun q x hx => ?_⟩
    dsimp only at hx ⊢
    by_cases e : q = p
    · subst e
      rw [Function.update_self] at hx ⊢
      cases hx
      obtain ⟨F, f1, f2⟩ := hc.pool q d h1
      exact ⟨F, f1, by dsimp only; omega⟩
    · rw [Function.update_of_ne e] at hx ⊢
      exact hc.pool q x hx
  | @createDelegationId t d k x h1 h2 =>
    refine ⟨fun i y hy => ?_, fun p i hi => ?_, fun i hi => ?_, hc.pool⟩
    · dsimp only at hy ⊢
      by_cases e : i = d
      · subst e
        rw [hc.idle i h2]
        exact hc.shareOut _ i (by simp [h2])
      · rw [Function.update_of_ne e] at hy
        exact hc.shareIn i y hy
    · dsimp only at hi ⊢
      by_cases e : i = d
      · subst e
        exact hc.shareOut _ i (by simp [h2])
      · rw [Function.update_of_ne e] at hi
        exact hc.shareOut p i hi
    · dsimp only at hi ⊢
      by_cases e : i = d
      · subst e; exact hc.idle i h2
      · rw [Function.update_of_ne e] at hi
        exact hc.idle i hi
  | @delegateStaking d a x h1 =>
    have hne : ∀ {p i}, i ≠ d → key p i ≠ key x.sourcePool d := fun hi e => hi (key_inj.1 e).2
    refine ⟨fun i y hy => ?_, fun p i hi => ?_, fun i hi => ?_, fun q y hy => ?_⟩
    · dsimp only at hy ⊢
      by_cases e : i = d
      · subst e
        rw [h1] at hy; cases hy
        rw [Function.update_self, Function.update_self, hc.shareIn i x h1]
      · rw [Function.update_of_ne e, Function.update_of_ne (hne e)]
        exact hc.shareIn i y hy
    · dsimp only at hi ⊢
      have : key p i ≠ key x.sourcePool d := by
        intro e
        obtain ⟨e1, rfl⟩ := key_inj.1 e
        exact hi x h1 e1.symm
      rw [Function.update_of_ne this]
      exact hc.shareOut p i hi
    · dsimp only at hi ⊢
      have : i ≠ d := by rintro rfl; rw [h1] at hi; cases hi
      rw [Function.update_of_ne this]
      exact hc.idle i hi
    · dsimp only at hy ⊢
      obtain ⟨F, f1, f2⟩ := hc.pool q y hy
      by_cases e : q = x.sourcePool
      · subst e
        refine ⟨insert d F, fun i hi => ?_, ?_⟩
        · rw [Finset.mem_insert, not_or] at hi
          rw [Function.update_of_ne (hne hi.1)]
          exact f1 i hi.2
        · rw [Function.update_self, f2]
          have e1 : ∑ i ∈ insert d F, s.share (key x.sourcePool i) = ∑ i ∈ F, s.share (key x.sourcePool i) := by
            by_cases hd : d ∈ F
            · rw [Finset.insert_eq_of_mem hd]
            · rw [Finset.sum_insert hd, f1 d hd]; omega
          have e2 := sum_point (F := insert d F) (f := fun i => s.share (key x.sourcePool i))
            (g := fun i => Function.update s.share (key x.sourcePool d) (s.share (key x.sourcePool d) + a) (key x.sourcePool i))
            (Finset.mem_insert_self d F) (fun k hk => Function.update_of_ne (hne hk) ..)
          rw [Function.update_self] at e2
          omega
      · rw [Function.update_of_ne e]
        have hk : ∀ i, key q i ≠ key x.sourcePool d := fun i h => e (key_inj.1 h).1
        refine ⟨F, fun i hi => ?_, ?_⟩
        · rw [Function.update_of_ne (hk i)]; exact f1 i hi
        · rw [f2]
          congr 1
          exact Finset.sum_congr rfl fun i _ => by rw [Function.update_of_ne (hk i)]
  | @spendShare d a x h1 h2 h3 h4 =>
    have hne : ∀ {p i}, i ≠ d → key p i ≠ key x.sourcePool d := fun hi e => hi (key_inj.1 e).2
    refine ⟨fun i y hy => ?_, fun p i hi => ?_, fun i hi => ?_, fun q y hy => ?_⟩
    · dsimp only at hy ⊢
      by_cases e : i = d
      · subst e
        rw [h1] at hy; cases hy
        rw [Function.update_self, Function.update_self, hc.shareIn i x h1]
      · rw [Function.update_of_ne e, Function.update_of_ne (hne e)]
        exact hc.shareIn i y hy
    · dsimp only at hi ⊢
      have : key p i ≠ key x.sourcePool d := by
        intro e
        obtain ⟨e1, rfl⟩ := key_inj.1 e
        exact hi x h1 e1.symm
      rw [Function.update_of_ne this]
      exact hc.shareOut p i hi
    · dsimp only at hi ⊢
      have : i ≠ d := by rintro rfl; rw [h1] at hi; cases hi
      rw [Function.update_of_ne this]
      exact hc.idle i hi
    · dsimp only at hy ⊢
      obtain ⟨F, f1, f2⟩ := hc.pool q y hy
      by_cases e : q = x.sourcePool
      · subst e
        have hsome : (s.poolData x.sourcePool).isSome := by rw [hy]; rfl
        have h4 := h4 hsome
        refine ⟨insert d F, fun i hi => ?_, ?_⟩
        · rw [Finset.mem_insert, not_or] at hi
          rw [Function.update_of_ne (hne hi.1)]
          exact f1 i hi.2
        · unfold afterSpend
          rw [if_pos hsome, Function.update_self]
          have e1 : ∑ i ∈ insert d F, s.share (key x.sourcePool i) = ∑ i ∈ F, s.share (key x.sourcePool i) := by
            by_cases hd : d ∈ F
            · rw [Finset.insert_eq_of_mem hd]
            · rw [Finset.sum_insert hd, f1 d hd]; omega
          have e2 := sum_point (F := insert d F) (f := fun i => s.share (key x.sourcePool i))
            (g := fun i => Function.update s.share (key x.sourcePool d) (s.share (key x.sourcePool d) - a) (key x.sourcePool i))
            (Finset.mem_insert_self d F) (fun k hk => Function.update_of_ne (hne hk) ..)
          rw [Function.update_self] at e2
          omega
      · have hk : ∀ i, key q i ≠ key x.sourcePool d := fun i h => e (key_inj.1 h).1
        refine ⟨F, fun i hi => ?_, ?_⟩
        · rw [Function.update_of_ne (hk i)]; exact f1 i hi
        · have : afterSpend s x.sourcePool a q = s.poolBal q := by
            unfold afterSpend
            split
            · rw [Function.update_of_ne e]
            · rfl
          rw [this, f2]
          congr 1
          exact Finset.sum_congr rfl fun i _ => by rw [Function.update_of_ne (hk i)]

/-- pools that do not exist and were never delegated to stay that way, unless they are created -/
theorem Takes.blank {s s' : Sv} {op : Op} (h : Takes s op s') {p : PoolId} (hb : Blank s p) (hp : s.poolData p = none)
    (hne : ∀ d, op ≠ .createPool p d) : Blank s' p ∧ s'.poolData p = none := by
  cases h with
  | @createPool q d h1 h2 =>
    have : p ≠ q := by rintro rfl; exact hne d rfl
    exact ⟨hb, by dsimp only; rw [Function.update_of_ne this]; exact hp⟩
  | @decommissionPool q d h1 =>
    refine ⟨hb, ?_⟩
    dsimp only
    by_cases e : p = q
    · subst e; rw [Function.update_self]
    · rw [Function.update_of_ne e]; exact hp
  | @increaseStakerRewards q a d h1 =>
    have : p ≠ q := by rintro rfl; rw [hp] at h1; cases h1
    exact ⟨hb, by dsimp only; rw [Function.update_of_ne this]; exact hp⟩
  | @createDelegationId t d k x h1 h2 =>
    refine ⟨fun i y hy => ?_, hp⟩
    dsimp only at hy
    by_cases e : i = d
    · subst e
      rw [Function.update_self] at hy
      cases hy
      rintro rfl
      rw [hp] at h1; cases h1
    · rw [Function.update_of_ne e] at hy
      exact hb i y hy
  | delegateStaking h1 => exact ⟨hb, hp⟩
  | spendShare h1 h2 h3 h4 => exact ⟨hb, hp⟩

end Verif.Pos
