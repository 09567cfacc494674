import Verif.Verifier.RangeBack
import Verif.Pos.Props
import Mathlib.Algebra.Order.BigOperators.Group.Finset
import Mathlib.Algebra.BigOperators.Ring.Finset

/-!
# The operations of a transaction stay in range
-/

namespace Verif.Verifier
open Verif Verif.Accounting
open Verif.Utxo (OutPoint Coin Output txOut rewardOut LInv)
open Verif.Accumulator (Cur TxOutput val)

theorem vrep_readable {v : TxVerifier} {s : St} (h : VRep v s) : Readable v :=
  ⟨h.pos.readable, h.tokens.readable, h.orders.readable⟩

/-! ### Totals -/

/-- the coins of pools and delegations, whichever of them are counted, are at most `X` -/
def Under (s : Pos.Sv) (X : Int) : Prop :=
  ∀ F G : Finset Nat, ∑ p ∈ F, ownPart s.poolData p + ∑ d ∈ G, delPart s.delBal d ≤ X

theorem ownPart_nonneg (f : Nat → Option Pos.PoolData) (p : Nat) : 0 ≤ ownPart f p := by
  unfold ownPart
  cases f p
  · exact le_refl _
  · exact Int.natCast_nonneg _

theorem delPart_nonneg (f : Nat → Nat) (p : Nat) : 0 ≤ delPart f p := Int.natCast_nonneg _

theorem Shift.le {K : Type} [DecidableEq K] {f g : K → Int} {δ : Int} (h : Shift f g δ) (hg : ∀ k, 0 ≤ g k) (F : Finset K) :
    ∃ G, ∑ k ∈ F, g k ≤ ∑ k ∈ G, f k + δ := by
  obtain ⟨F0, e, d⟩ := h
  refine ⟨F ∪ F0, ?_⟩
  have h1 := Shift.on e d (F ∪ F0) Finset.subset_union_right
  have h2 : ∑ k ∈ F, g k ≤ ∑ k ∈ F ∪ F0, g k :=
    Finset.sum_le_sum_of_subset_of_nonneg Finset.subset_union_left fun k _ _ => hg k
  omega

/-- what was taken away was there -/
theorem Shift.taken {K : Type} [DecidableEq K] {f g : K → Int} {δ : Int} (h : Shift f g δ) (hg : ∀ k, 0 ≤ g k) :
    ∃ G, -δ ≤ ∑ k ∈ G, f k := by
  obtain ⟨G, hG⟩ := h.le hg ∅
  exact ⟨G, by rw [Finset.sum_empty] at hG; omega⟩

theorem Under.shift {s s' : Pos.Sv} {X p d : Int} (h : Under s X) (hp : Shift (ownPart s.poolData) (ownPart s'.poolData) p)
    (hd : Shift (delPart s.delBal) (delPart s'.delBal) d) : Under s' (X + (p + d)) := by
  intro F G
  obtain ⟨F', h1⟩ := hp.le (ownPart_nonneg _) F
  obtain ⟨G', h2⟩ := hd.le (delPart_nonneg _) G
  have := h F' G'
  omega

theorem Under.mono {s : Pos.Sv} {X Y : Int} (h : Under s X) (hXY : X ≤ Y) : Under s Y := fun F G => (h F G).trans hXY

theorem Under.del {s : Pos.Sv} {X : Int} (h : Under s X) (d : Nat) : (s.delBal d : Int) ≤ X := by
  have := h ∅ {d}
  simpa [delPart] using this

/-- an existing pool has no more than the total -/
theorem Under.pool {s : Pos.Sv} {X : Int} (h : Under s X) (hc : Pos.Coh s) {p : Nat} {x : Pos.PoolData}
    (hp : s.poolData p = some x) : (s.poolBal p : Int) ≤ X := by
  obtain ⟨F, -, h2⟩ := hc.pool p x hp
  have h3 := h {p} F
  have h4 : ∑ d ∈ F, (s.share (Pos.key p d) : Int) ≤ ∑ d ∈ F, delPart s.delBal d :=
    Finset.sum_le_sum fun d _ => by unfold delPart; exact_mod_cast hc.share_le p d
  rw [Finset.sum_singleton] at h3
  unfold ownPart at h3
  rw [hp] at h3
  dsimp only [Option.map_some, Option.getD_some] at h3
  rw [h2]
  push_cast at h3 ⊢
  omega

theorem Takes.shift {s s' : Pos.Sv} {op : Pos.Op} (h : Pos.Takes s op s') :
    Shift (ownPart s.poolData) (ownPart s'.poolData) (poolGain s.poolData op) ∧
      Shift (delPart s.delBal) (delPart s'.delBal) (delGain op) := by
  cases h with
  | @createPool p d h1 h2 =>
    exact ⟨(own_point rfl).cast (by simp [poolGain, ownPart, h1]), (Shift.refl _).cast (by simp [delGain])⟩
  | @decommissionPool p d h1 =>
    exact ⟨(own_point rfl).cast (by simp [poolGain, ownPart, h1]), (Shift.refl _).cast (by simp [delGain])⟩
  | @increaseStakerRewards p a d h1 =>
    refine ⟨(own_point rfl).cast ?_, (Shift.refl _).cast (by simp [delGain])⟩
    simp only [poolGain, ownPart, h1, Function.update_self, Option.map_some, Option.getD_some]
    push_cast
    ring
  | createDelegationId h1 h2 => exact ⟨(Shift.refl _).cast (by simp [poolGain]), (Shift.refl _).cast (by simp [delGain])⟩
  | delegateStaking h1 =>
    refine ⟨(Shift.refl _).cast (by simp [poolGain]), (del_point rfl).cast ?_⟩
    simp only [delGain]; push_cast; omega
  | @spendShare d a x h1 h2 h3 h4 =>
    refine ⟨(Shift.refl _).cast (by simp [poolGain]), (del_point rfl).cast ?_⟩
    simp only [delGain]; omega

/-- coins an operation moves into staking -/
def gain (op : Pos.Op) : Int := poolGain (fun _ => none) op + delGain op

theorem gain_nonneg {op : Pos.Op} (h : isPosOut op = true) : 0 ≤ gain op := by
  cases op <;> simp only [isPosOut, Bool.false_eq_true] at h <;> simp [gain, poolGain, delGain] <;> omega

theorem gain_eq {op : Pos.Op} (h : isPosOut op = true) (f) : poolGain f op + delGain op = gain op := by
  cases op <;> simp only [isPosOut, Bool.false_eq_true] at h <;> rfl

theorem gains_nonneg {ops : List Pos.Op} (h : ∀ op ∈ ops, isPosOut op = true) : 0 ≤ (ops.map gain).sum := by
  induction ops with
  | nil => simp
  | cons op ops ih =>
    have h1 := gain_nonneg (h op (by simp))
    have h2 := ih fun o ho => h o (by simp [ho])
    rw [List.map_cons, List.sum_cons]; omega

/-! ### New pools -/

/-- the pools of a list are different from each other, do not exist, and were never delegated to -/
def NewPools (s : Pos.Sv) (ps : List Nat) : Prop := ps.Nodup ∧ ∀ p ∈ ps, Pos.Blank s p ∧ s.poolData p = none

def opPools : Pos.Op → List Nat
  | .createPool p _ => [p]
  | _ => []

theorem NewPools.takes {s s' : Pos.Sv} {op : Pos.Op} {ps : List Nat} (h : Pos.Takes s op s') (hn : NewPools s (opPools op ++ ps)) :
    NewPools s' ps := by
  obtain ⟨h1, h2⟩ := hn
  rw [List.nodup_append] at h1
  refine ⟨h1.2.1, fun p hp => ?_⟩
  obtain ⟨b1, b2⟩ := h2 p (by simp [hp])
  refine Pos.Takes.blank h b1 b2 fun d e => ?_
  subst e
  exact h1.2.2 p (by simp [opPools]) p hp rfl

/-! ### Steps -/

theorem posStep_takes {v v' : TxVerifier} {op : Pos.Op} {o : Option Pos.Undo} {s : St}
    (h : posStep v op = .ok (v', o)) (hV : VRep v s) (hr : Pos.Room s.pos op) :
    ∃ p s1, v' = { v with pos := p } ∧ VRep v' { s with pos := s1 } ∧ Pos.Takes s.pos op s1 := by
  simp only [posStep, bind_eq_ok, mapErr_ok, pure_eq_ok, Prod.exists, Prod.mk.injEq] at h
  obtain ⟨c, u, h1, d, du, h2, rfl, rfl⟩ := h
  obtain ⟨s1, r1, t1⟩ := Pos.step_takes hV.pos.child h1 hr
  obtain ⟨r, w, h3, r2⟩ := hV.pos.layer (Pos.step_parent h1) r1
  rw [h2] at h3
  cases h3
  exact ⟨_, s1, rfl, hV.withPos rfl r2, t1⟩

/-- the operations of outputs and rewards have room -/
theorem out_room {v v' : TxVerifier} {op : Pos.Op} {o : Option Pos.Undo} {s : St} {X : Int}
    (h : posStep v op = .ok (v', o)) (hV : VRep v s) (hc : Pos.Coh s.pos) (hu : Under s.pos X) (hX : X + gain op < I128)
    (hop : isPosOut op = true) (hup : Up v') : Pos.Room s.pos op := by
  simp only [posStep, bind_eq_ok, mapErr_ok, pure_eq_ok, Prod.exists, Prod.mk.injEq] at h
  obtain ⟨c, u, h1, d, du, h2, rfl, rfl⟩ := h
  cases op <;> simp only [isPosOut, Bool.false_eq_true] at hop
  case createPool => trivial
  case createDelegationId => trivial
  case increaseStakerRewards p a =>
    obtain ⟨x, bs, pd, du, k1, k2, k3, k4, rfl, rfl⟩ := Pos.increaseStakerRewards_ok.1 h1
    rw [hV.pos.child.vPoolData] at k1
    have := hu.pool hc (Except.ok.inj k1)
    simp only [gain, poolGain, delGain] at hX
    show (s.pos.poolBal p : Int) + a < I128
    omega
  case delegateStaking i a =>
    intro x hx
    obtain ⟨data, db, pb, sh, k1, k2, k3, k4, rfl, rfl⟩ := Pos.delegateStaking_ok.1 h1
    rw [hV.pos.child.vDelData, hx] at k1
    cases k1
    have hb := hu.del i
    have hs := hc.share_le x.sourcePool i
    simp only [gain, poolGain, delGain] at hX
    refine ⟨by omega, ?_, by omega⟩
    cases hl : s.pos.poolData x.sourcePool with
    | some y =>
      have := hu.pool hc hl
      omega
    | none =>
      simp only [Pos.Delta.mergeWithDelta, bind_eq_ok, Pos.lift_ok, pure_eq_ok, Prod.mk.injEq] at h2
      obtain ⟨pb', e1, sh', e2, db', e3, ⟨pd, pdu⟩, e4, ⟨dd, ddu⟩, e5, rfl, -⟩ := h2
      obtain ⟨b, hb1, hb2, hb3, -⟩ := hV.pos.poolBal.bal x.sourcePool
      have hv : getVal (getVal v.pos.parent.poolData v.pos.delta.poolData) (Pos.Cache.new v.pos.view).delta.poolData x.sourcePool = .ok none := by
        have := hV.pos.child.vPoolData x.sourcePool
        rw [hl] at this
        exact this
      rw [getVal_merge e4] at hv
      have hcap := hup.pos x.sourcePool b hv hb1
      dsimp only at hcap
      rw [Pos.dval_merged e1, dval_add k3, if_pos rfl] at hcap
      have h7 : dval ((Pos.Cache.new v.pos.view).delta.poolBalances.get x.sourcePool) = 0 := by
        simp [Pos.Cache.new, Pos.Delta.empty]
      omega

/-- one operation of an output or a reward -/
theorem out_step {v v' : TxVerifier} {op : Pos.Op} {o : Option Pos.Undo} {s : St} {X : Int} {ps : List Nat}
    (h : posStep v op = .ok (v', o)) (hV : VRep v s) (hc : Pos.Coh s.pos) (hu : Under s.pos X) (hX : X + gain op < I128)
    (hop : isPosOut op = true) (hup : Up v') (hn : NewPools s.pos (opPools op ++ ps))
    (h0 : ∀ p d, op = .createPool p d → d.rewards = 0) :
    ∃ p s1, v' = { v with pos := p } ∧ VRep v' { s with pos := s1 } ∧ Pos.Coh s1 ∧ Under s1 (X + gain op) ∧ NewPools s1 ps := by
  obtain ⟨p, s1, rfl, r1, t1⟩ := posStep_takes h hV (out_room h hV hc hu hX hop hup)
  obtain ⟨a1, a2⟩ := Takes.shift t1
  refine ⟨p, s1, rfl, r1, t1.coh hc fun q d e => ?_, ?_, hn.takes t1⟩
  · subst e; exact ⟨(hn.2 q (by simp [opPools])).1, h0 q d rfl⟩
  · have := hu.shift a1 a2
    rw [gain_eq hop] at this
    exact this

/-- a list of such operations -/
theorem out_steps : ∀ {ops : List Pos.Op} {v v' : TxVerifier} {us : List Pos.Undo} {s : St} {X : Int} {ps : List Nat},
    collect posStep v ops = .ok (v', us) → VRep v s → Pos.Coh s.pos → Under s.pos X → X + (ops.map gain).sum < I128 →
    (∀ op ∈ ops, isPosOut op = true) → Up v' → SupplyOk v → NewPools s.pos (ops.flatMap opPools ++ ps) →
    (∀ p d, Pos.Op.createPool p d ∈ ops → d.rewards = 0) →
    (∀ w ∈ visited posStep v ops, Readable w) ∧
      ∃ p s1, v' = { v with pos := p } ∧ VRep v' { s with pos := s1 } ∧ Pos.Coh s1 ∧ NewPools s1 ps
  | [], v, v', us, s, X, ps, h, hV, hc, hu, _, _, _, _, hn, _ => by
    cases h
    exact ⟨by simp [visited], v.pos, s.pos, rfl, hV, hc, hn⟩
  | op :: ops, v, v', us, s, X, ps, h, hV, hc, hu, hX, hop, hup, hso, hn, h0 => by
    simp only [collect, bind_eq_ok, pure_eq_ok, Prod.exists, Prod.mk.injEq] at h
    obtain ⟨v1, u, h1, v2, us', h2, rfl, rfl⟩ := h
    rw [List.map_cons, List.sum_cons] at hX
    have hop' : ∀ o ∈ ops, isPosOut o = true := fun o ho => hop o (by simp [ho])
    have hg := gains_nonneg hop'
    have b1 := posStep_back h1
    have b2 := back_collect (fun _ _ _ _ => posStep_back) h2
    have hso1 : SupplyOk v1 := by unfold SupplyOk; rw [b1.parent]; exact hso
    rw [List.flatMap_cons, List.append_assoc] at hn
    obtain ⟨p, s1, rfl, r1, c1, u1, n1⟩ := out_step h1 hV hc hu (by omega) (hop op (by simp)) (b2.up hso1 hup) hn
      fun p d e => h0 p d (by simp [e])
    obtain ⟨w1, p', s2, rfl, r2, c2, n2⟩ := out_steps (ps := ps) h2 r1 c1 u1 (by omega) hop' hup hso1 n1
      fun p d e => h0 p d (by simp [e])
    refine ⟨?_, p', s2, rfl, r2, c2, n2⟩
    simp only [visited, h1, List.mem_cons]
    rintro w (rfl | hw)
    · exact vrep_readable r1
    · exact w1 w hw

/-- the outputs of a transaction -/
theorem out_outputs {env : Env} {tx : Tx} : ∀ {os : List Out} {v v' : TxVerifier} {us : List Pos.Undo} {s : St} {X : Int}
    {ps : List Nat}, collect (posOutput env tx) v os = .ok (v', us) → VRep v s → Pos.Coh s.pos → Under s.pos X →
    X + ((os.flatMap posOutOps).map gain).sum < I128 → Up v' → SupplyOk v →
    NewPools s.pos ((os.flatMap posOutOps).flatMap opPools ++ ps) →
    (∀ p d, Pos.Op.createPool p d ∈ os.flatMap posOutOps → d.rewards = 0) →
    (∀ w ∈ visited (posOutput env tx) v os, Readable w) ∧
      ∃ p s1, v' = { v with pos := p } ∧ VRep v' { s with pos := s1 } ∧ Pos.Coh s1 ∧ NewPools s1 ps
  | [], v, v', us, s, X, ps, h, hV, hc, hu, _, _, _, hn, _ => by
    cases h
    exact ⟨by simp [visited], v.pos, s.pos, rfl, hV, hc, hn⟩
  | o :: os, v, v', us, s, X, ps, h, hV, hc, hu, hX, hup, hso, hn, h0 => by
    simp only [collect, bind_eq_ok, pure_eq_ok, Prod.exists, Prod.mk.injEq] at h
    obtain ⟨v1, u, h1, v2, us', h2, rfl, rfl⟩ := h
    have hg := gains_nonneg (posOut_isOut os)
    have b1 := back_posOutput h1
    have b2 := back_collect (fun _ _ _ _ => back_posOutput) h2
    have hso1 : SupplyOk v1 := by unfold SupplyOk; rw [b1.parent]; exact hso
    have hup1 := b2.up hso1 hup
    rw [List.flatMap_cons] at hX hn h0
    have hout := posOut_isOut [o]
    rw [List.flatMap_cons, List.flatMap_nil, List.append_nil] at hout
    -- the step of `o`
    have H : ∃ p s1 Y, v1 = { v with pos := p } ∧ VRep v1 { s with pos := s1 } ∧ Pos.Coh s1 ∧ Under s1 Y ∧
        Y + ((os.flatMap posOutOps).map gain).sum < I128 ∧ NewPools s1 ((os.flatMap posOutOps).flatMap opPools ++ ps) := by
      have step : ∀ op, posOutOps o = [op] → posStep v op = .ok (v1, u) →
          ∃ p s1 Y, v1 = { v with pos := p } ∧ VRep v1 { s with pos := s1 } ∧ Pos.Coh s1 ∧ Under s1 Y ∧
          Y + ((os.flatMap posOutOps).map gain).sum < I128 ∧ NewPools s1 ((os.flatMap posOutOps).flatMap opPools ++ ps) := by
        intro op he hs
        rw [he] at hX hn h0 hout
        simp only [List.cons_append, List.nil_append, List.map_cons, List.sum_cons, List.flatMap_cons, List.append_assoc] at hX hn h0
        obtain ⟨p, s1, e1, r1, c1, u1, n1⟩ := out_step hs hV hc hu (by omega) (hout op (by simp)) hup1 hn
          fun p d e => h0 p d (by simp [e])
        exact ⟨p, s1, _, e1, r1, c1, u1, by omega, n1⟩
      have same : posOutOps o = [] → v1 = v →
          ∃ p s1 Y, v1 = { v with pos := p } ∧ VRep v1 { s with pos := s1 } ∧ Pos.Coh s1 ∧ Under s1 Y ∧
          Y + ((os.flatMap posOutOps).map gain).sum < I128 ∧ NewPools s1 ((os.flatMap posOutOps).flatMap opPools ++ ps) := by
        intro he hs
        subst hs
        rw [he] at hX hn
        exact ⟨v1.pos, s.pos, X, rfl, hV, hc, hu, hX, hn⟩
      unfold posOutput at h1
      cases he : o.effect <;> simp only [he] at h1
      case createPool p d =>
        split at h1
        · exact step (.createPool p d) (by simp [posOutOps, he]) h1
        · cases h1
      case createDelegation p d k => exact step (.createDelegationId p d k) (by simp [posOutOps, he]) h1
      case delegate d a => exact step (.delegateStaking d a) (by simp [posOutOps, he]) h1
      all_goals (cases h1; exact same (by simp [posOutOps, he]) rfl)
    obtain ⟨p, s1, Y, rfl, r1, c1, u1, y1, n1⟩ := H
    obtain ⟨w1, p', s2, rfl, r2, c2, n2⟩ := out_outputs (ps := ps) h2 r1 c1 u1 y1 hup hso1 n1
      fun p d e => h0 p d (by simp [e])
    refine ⟨?_, p', s2, rfl, r2, c2, n2⟩
    simp only [visited, h1, List.mem_cons]
    rintro w (rfl | hw)
    · exact vrep_readable r1
    · exact w1 w hw

/-! ### Inputs -/

/-- what an input withdraws from a delegation -/
def Input.withdraws : Input → Option (Nat × Nat)
  | .account _ d a => some (d, a)
  | _ => none

theorem in_step {v v' : TxVerifier} {op : Pos.Op} {o : Option Pos.Undo} {s : St} {X : Int} {ps : List Nat}
    (h : posStep v op = .ok (v', o)) (hV : VRep v s) (hc : Pos.Coh s.pos) (hu : Under s.pos X) (hop : isPosIn op = true)
    (ha : ∀ d a, op = .spendShare d a → a ≤ s.pos.delBal d) (hn : NewPools s.pos ps) :
    ∃ p s1, v' = { v with pos := p } ∧ VRep v' { s with pos := s1 } ∧ Pos.Takes s.pos op s1 ∧ Pos.Coh s1 ∧ Under s1 X ∧
      NewPools s1 ps := by
  have hr : Pos.Room s.pos op := by
    cases op <;> simp only [isPosIn, Bool.false_eq_true] at hop
    case decommissionPool => trivial
    case spendShare d a =>
      intro x hx
      have h1 := ha d a rfl
      have h2 := hc.shareIn d x hx
      refine ⟨h1, by omega, fun hl => ?_⟩
      obtain ⟨y, hy⟩ := Option.isSome_iff_exists.1 hl
      have := hc.share_le_pool (d := d) hy
      omega
  obtain ⟨p, s1, rfl, r1, t1⟩ := posStep_takes h hV hr
  obtain ⟨a1, a2⟩ := Takes.shift t1
  refine ⟨p, s1, rfl, r1, t1, t1.coh hc fun q d e => ?_, (hu.shift a1 a2).mono ?_, NewPools.takes (op := op) t1 ?_⟩
  · subst e; cases hop
  · cases op <;> simp only [isPosIn, Bool.false_eq_true] at hop <;> simp only [poolGain, delGain]
    · have := ownPart_nonneg s.pos.poolData
      rename_i p; have := this p; omega
    · omega
  · cases op <;> simp only [isPosIn, Bool.false_eq_true] at hop <;> exact hn

theorem in_inputs {env : Env} : ∀ {is : List Input} {v v' : TxVerifier} {us : List Pos.Undo} {s : St} {X : Int} {ps : List Nat},
    collect (posInput env) v is = .ok (v', us) → VRep v s → Pos.Coh s.pos → Under s.pos X → NewPools s.pos ps →
    (∀ d, Pos.withdrawn d (is.filterMap Input.withdraws) ≤ s.pos.delBal d) →
    (∀ w ∈ visited (posInput env) v is, Readable w) ∧
      ∃ p n s1 nx, v' = { v with pos := p, nonces := n } ∧ VRep v' { s with pos := s1, next := nx } ∧ Pos.Coh s1 ∧ Under s1 X ∧
        NewPools s1 ps
  | [], v, v', us, s, X, ps, h, hV, hc, hu, hn, _ => by
    cases h
    exact ⟨by simp [visited], v.pos, v.nonces, s.pos, s.next, rfl, hV, hc, hu, hn⟩
  | i :: is, v, v', us, s, X, ps, h, hV, hc, hu, hn, hw => by
    simp only [collect, bind_eq_ok, pure_eq_ok, Prod.exists, Prod.mk.injEq] at h
    obtain ⟨v1, o, h1, v2, us', h2, rfl, rfl⟩ := h
    have H : ∃ p n s1 nx, v1 = { v with pos := p, nonces := n } ∧ VRep v1 { s with pos := s1, next := nx } ∧ Pos.Coh s1 ∧
        Under s1 X ∧ NewPools s1 ps ∧ ∀ d, Pos.withdrawn d (is.filterMap Input.withdraws) ≤ s1.delBal d := by
      cases i with
      | utxo k =>
        rw [List.filterMap_cons_none (by rfl)] at hw
        simp only [posInput, posUtxo, bind_eq_ok, okOr_eq_ok] at h1
        obtain ⟨coin, -, h1⟩ := h1
        split at h1
        · rename_i q he
          obtain ⟨p, s1, rfl, r1, t1, c1, u1, n1⟩ := in_step h1 hV hc hu rfl (by intro d a e; cases e) hn
          refine ⟨p, v.nonces, s1, s.next, rfl, r1, c1, u1, n1, ?_⟩
          cases t1
          exact hw
        · cases h1
          exact ⟨v.pos, v.nonces, s.pos, s.next, rfl, hV, hc, hu, hn, hw⟩
      | account nonce d a =>
        rw [List.filterMap_cons_some (b := (d, a)) (by rfl)] at hw
        simp only [Pos.withdrawn_cons] at hw
        simp only [posInput, bind_eq_ok] at h1
        obtain ⟨v0, h0, h1⟩ := h1
        obtain ⟨ns, rfl, r0⟩ := hV.spendNonce h0
        have hd := hw d
        rw [if_pos rfl] at hd
        obtain ⟨p, s1, rfl, r1, t1, c1, u1, n1⟩ := in_step h1 r0 hc hu rfl
          (by intro d' a' e; cases e; dsimp only; omega) hn
        refine ⟨p, ns, s1, _, rfl, r1, c1, u1, n1, fun d' => ?_⟩
        have hd' := hw d'
        cases t1
        dsimp only
        by_cases e : d' = d
        · subst e
          rw [Function.update_self]; omega
        · rw [Function.update_of_ne e]
          rw [if_neg e] at hd'; omega
      | token n c =>
        rw [List.filterMap_cons_none (by rfl)] at hw
        cases h1; exact ⟨v.pos, v.nonces, s.pos, s.next, rfl, hV, hc, hu, hn, hw⟩
      | orderV0 n c =>
        rw [List.filterMap_cons_none (by rfl)] at hw
        cases h1; exact ⟨v.pos, v.nonces, s.pos, s.next, rfl, hV, hc, hu, hn, hw⟩
      | order c =>
        rw [List.filterMap_cons_none (by rfl)] at hw
        cases h1; exact ⟨v.pos, v.nonces, s.pos, s.next, rfl, hV, hc, hu, hn, hw⟩
    obtain ⟨p, n, s1, nx, rfl, r1, c1, u1, n1, w1⟩ := H
    obtain ⟨g, p', n', s2, nx', rfl, r2, c2, u2, n2⟩ := in_inputs h2 r1 c1 u1 n1 w1
    refine ⟨?_, p', n', s2, nx', rfl, r2, c2, u2, n2⟩
    simp only [visited, h1, List.mem_cons]
    rintro w (rfl | hw)
    · exact vrep_readable r1
    · exact g w hw

/-! ### Tokens and orders -/

theorem tok_readable {c c' : Tokens.Cache} {s : Tokens.Sv} {op : Tokens.Op} {u : Tokens.Undo} (h : Tokens.Rep c s)
    (hs : Tokens.step c op = .ok (c', u)) (hcap : Tokens.Cap c') : Tokens.Readable c' := by
  rcases Tokens.step_cases hs with ⟨i, cur, new, data, du, ht, h1, h2, rfl, h3, h3', h4⟩ |
    ⟨i, a, d, supply, rfl, rfl, h1, h2, h3, h4, rfl⟩ | ⟨i, a, d, x, supply, rfl, rfl, h1, h2, h3, h4, h5, h6, rfl⟩
  · intro k; exact ⟨_, h.vSupply k⟩
  · obtain ⟨p, k1, k2, k3, k4⟩ := h.supply.bal i
    have := hcap i p k1
    dsimp only at this
    rw [dval_add h4, if_pos rfl] at this
    obtain ⟨m, e1, e2⟩ := h.supply.add (k := i) (a := a) (by omega)
    rw [h4] at e1; cases e1
    intro k; exact ⟨_, e2.read k⟩
  · rw [h.vSupply] at h4
    cases h4
    obtain ⟨m, e1, e2⟩ := h.supply.sub (k := i) (a := a) h5
    rw [h6] at e1; cases e1
    intro k; exact ⟨_, e2.read k⟩

theorem tokStep_readable {v v' : TxVerifier} {op : Tokens.Op} {o : Option Tokens.Undo} {s : St}
    (h : tokStep v op = .ok (v', o)) (hV : VRep v s) (hup : Up v') : Readable v' := by
  simp only [tokStep, bind_eq_ok, mapErr_ok, pure_eq_ok, Prod.exists, Prod.mk.injEq] at h
  obtain ⟨c, u, h1, rfl, rfl⟩ := h
  exact ⟨hV.pos.readable, tok_readable hV.tokens h1 hup.tok, hV.orders.readable⟩

theorem sound_view {c : Orders.Cache} {s : Orders.Sv} (h : Orders.Rep c s) (hs : s.Sound) : Orders.SoundView c.view := fun id =>
  ⟨_, _, _, h.vData id, h.vAsk id, h.vGive id, hs id⟩

theorem ordStep_readable {v v' : TxVerifier} {op : Orders.Op} {o : Option Orders.Undo} {s : St}
    (h : ordStep v op = .ok (v', o)) (hV : VRep v s) (hb : Orders.SoundView v.base.orders) : Readable v' := by
  simp only [ordStep, bind_eq_ok, mapErr_ok, pure_eq_ok, Prod.exists, Prod.mk.injEq] at h
  obtain ⟨c, u, h1, rfl, rfl⟩ := h
  have := Orders.step_sound (by rw [hV.ordp]; exact hb) (sound_view hV.orders hV.sound) h1
  refine ⟨hV.pos.readable, hV.tokens.readable, ⟨fun k => ?_, fun k => ?_⟩⟩
  · obtain ⟨_, a, g, _, e, _, _⟩ := this k; exact ⟨a, e⟩
  · obtain ⟨_, a, g, _, _, e, _⟩ := this k; exact ⟨g, e⟩

/-- stages that work item by item -/
theorem collect_readable {A U : Type} {f : TxVerifier → A → Except Err (TxVerifier × Option U)} (P : TxVerifier → Prop)
    (hstep : ∀ v x v' o s, f v x = .ok (v', o) → VRep v s → P v → Up v' → Readable v' ∧ P v' ∧ ∃ s', VRep v' s')
    (hback : ∀ v x v' o, f v x = .ok (v', o) → Back v v') :
    ∀ {xs : List A} {v v' : TxVerifier} {us : List U} {s : St}, collect f v xs = .ok (v', us) → VRep v s → P v → Up v' →
      SupplyOk v → (∀ w ∈ visited f v xs, Readable w) ∧ P v' ∧ ∃ s', VRep v' s'
  | [], v, v', us, s, h, hV, hP, _, _ => by cases h; exact ⟨by simp [visited], hP, s, hV⟩
  | x :: xs, v, v', us, s, h, hV, hP, hup, hso => by
    simp only [collect, bind_eq_ok, pure_eq_ok, Prod.exists, Prod.mk.injEq] at h
    obtain ⟨v1, o, h1, v2, us', h2, rfl, rfl⟩ := h
    have b1 := hback _ _ _ _ h1
    have b2 := back_collect hback h2
    have hso1 : SupplyOk v1 := by unfold SupplyOk; rw [b1.parent]; exact hso
    obtain ⟨g1, p1, s1, r1⟩ := hstep _ _ _ _ _ h1 hV hP (b2.up hso1 hup)
    obtain ⟨g2, p2, s2, r2⟩ := collect_readable P hstep hback h2 r1 p1 hup hso1
    refine ⟨?_, p2, s2, r2⟩
    simp only [visited, h1, List.mem_cons]
    rintro w (rfl | hw)
    · exact g1
    · exact g2 w hw

theorem tok_stage {tx : Tx} {env : Env} {src : Src} {v v' : TxVerifier} {s : St} (h : connectTokens env src v tx = .ok v')
    (hV : VRep v s) (hup : Up v') (hso : SupplyOk v) : ∀ w ∈ tokTrace v tx, Readable w := by
  simp only [connectTokens, bind_eq_ok, Prod.exists] at h
  obtain ⟨_, -, v1, us1, h1, v2, us2, h2, h3⟩ := h
  have b1 := back_collect (fun _ _ _ _ => back_tokInput) h1
  have b2 := back_collect (fun _ _ _ _ => back_tokOutput) h2
  have b3 := back_storeTok h3
  have hso1 : SupplyOk v1 := by unfold SupplyOk; rw [b1.parent]; exact hso
  have hso2 : SupplyOk v2 := by unfold SupplyOk; rw [b2.parent]; exact hso1
  have up2 := b3.up hso2 hup
  have up1 := b2.up hso1 up2
  have t1 : ∀ (v : TxVerifier) (x : Input) (v' : TxVerifier) (o) (s : St), tokInput tx v x = .ok (v', o) → VRep v s → True →
      Up v' → Readable v' ∧ True ∧ ∃ s', VRep v' s' := by
    intro v x v' o s hx hV _ hup
    have hr : Readable v' := by
      cases x with
      | token nonce cmd =>
        simp only [tokInput, bind_eq_ok] at hx
        obtain ⟨v1, h1, op, h0, h2⟩ := hx
        obtain ⟨ns, rfl, r1⟩ := hV.spendNonce h1
        cases op with
        | none => cases h2; exact vrep_readable r1
        | some op => exact tokStep_readable h2 r1 hup
      | utxo op => cases hx; exact vrep_readable hV
      | account nonce d a => cases hx; exact vrep_readable hV
      | orderV0 n c => cases hx; exact vrep_readable hV
      | order c => cases hx; exact vrep_readable hV
    obtain ⟨_, _, s1, _, _, -, r, -⟩ := tokInput_run hx hr hV
    exact ⟨hr, trivial, _, r⟩
  have t2 : ∀ (v : TxVerifier) (x : Out) (v' : TxVerifier) (o) (s : St), tokOutput v x = .ok (v', o) → VRep v s → True →
      Up v' → Readable v' ∧ True ∧ ∃ s', VRep v' s' := by
    intro v x v' o s hx hV _ hup
    have hr : Readable v' := by
      have hx' := hx
      unfold tokOutput at hx'
      split at hx'
      · exact tokStep_readable hx' hV hup
      · cases hx'; exact vrep_readable hV
    obtain ⟨_, s1, -, r, -⟩ := tokOutput_run hx hr hV
    exact ⟨hr, trivial, _, r⟩
  obtain ⟨g1, -, s1, r1⟩ := collect_readable (fun _ => True) t1 (fun _ _ _ _ => back_tokInput) h1 hV trivial up1 hso
  obtain ⟨g2, -, s2, r2⟩ := collect_readable (fun _ => True) t2 (fun _ _ _ _ => back_tokOutput) h2 r1 trivial up2 hso1
  intro w hw
  simp only [tokTrace, h1, after, List.mem_append] at hw
  rcases hw with hw | hw
  · exact g1 w hw
  · exact g2 w hw

theorem ord_stage {tx : Tx} {src : Src} {v v' : TxVerifier} {s : St} (h : connectOrders src v tx = .ok v')
    (hV : VRep v s) (hup : Up v') (hso : SupplyOk v) (hb : Orders.SoundView v.base.orders) : ∀ w ∈ ordTrace v tx, Readable w := by
  simp only [connectOrders, bind_eq_ok, Prod.exists] at h
  obtain ⟨v1, us1, h1, v2, us2, h2, h3⟩ := h
  have b1 := back_collect (fun _ _ _ _ => back_ordInput) h1
  have b2 := back_collect (fun _ _ _ _ => back_ordOutput) h2
  have b3 := back_storeOrd h3
  have hso1 : SupplyOk v1 := by unfold SupplyOk; rw [b1.parent]; exact hso
  have hso2 : SupplyOk v2 := by unfold SupplyOk; rw [b2.parent]; exact hso1
  have up2 := b3.up hso2 hup
  have up1 := b2.up hso1 up2
  have t1 : ∀ (v : TxVerifier) (x : Input) (v' : TxVerifier) (o) (s : St), ordInput v x = .ok (v', o) → VRep v s →
      Orders.SoundView v.base.orders → Up v' → Readable v' ∧ Orders.SoundView v'.base.orders ∧ ∃ s', VRep v' s' := by
    intro v x v' o s hx hV hb hup
    have hr : Readable v' := by
      cases x with
      | orderV0 nonce cmd =>
        simp only [ordInput, bind_eq_ok] at hx
        obtain ⟨v1, h1, h2⟩ := hx
        obtain ⟨ns, rfl, r1⟩ := hV.spendNonce h1
        exact ordStep_readable h2 r1 hb
      | order c => exact ordStep_readable hx hV hb
      | utxo op => cases hx; exact vrep_readable hV
      | account nonce d a => cases hx; exact vrep_readable hV
      | token n c => cases hx; exact vrep_readable hV
    obtain ⟨_, _, s1, _, e, r, -⟩ := ordInput_run hx hr hV
    refine ⟨hr, ?_, _, r⟩
    rw [e]; exact hb
  have t2 : ∀ (v : TxVerifier) (x : Out) (v' : TxVerifier) (o) (s : St), ordOutput v x = .ok (v', o) → VRep v s →
      Orders.SoundView v.base.orders → Up v' → Readable v' ∧ Orders.SoundView v'.base.orders ∧ ∃ s', VRep v' s' := by
    intro v x v' o s hx hV hb hup
    have hr : Readable v' := by
      have hx' := hx
      unfold ordOutput at hx'
      split at hx'
      · exact ordStep_readable hx' hV hb
      · cases hx'; exact vrep_readable hV
    obtain ⟨_, s1, e, r, -⟩ := ordOutput_run hx hr hV
    refine ⟨hr, ?_, _, r⟩
    rw [e]; exact hb
  obtain ⟨g1, hb1, s1, r1⟩ := collect_readable (fun v => Orders.SoundView v.base.orders) t1 (fun _ _ _ _ => back_ordInput) h1 hV hb
    up1 hso
  obtain ⟨g2, -, s2, r2⟩ := collect_readable (fun v => Orders.SoundView v.base.orders) t2 (fun _ _ _ _ => back_ordOutput) h2 r1
    hb1 up2 hso1
  intro w hw
  simp only [ordTrace, h1, after, List.mem_append] at hw
  rcases hw with hw | hw
  · exact g1 w hw
  · exact g2 w hw

end Verif.Verifier
