import Verif.Verifier.ValueRuns
import Verif.Verifier.Value
import Verif.Base.BMapSum

/-!
# Changes of totals

Two functions that differ at finitely many places only: by how much their totals differ.
-/

namespace Verif.Verifier
open Verif
open Verif.Utxo (OutPoint Coin Output txOut rewardOut setAll remAll outPairs)
open Verif.Accumulator (Cur TxOutput val)

/-- `g` differs from `f` at finitely many places, by `δ` in total -/
def Shift {K : Type} (f g : K → Int) (δ : Int) : Prop :=
  ∃ F : Finset K, (∀ k, k ∉ F → f k = g k) ∧ ∑ k ∈ F, g k - ∑ k ∈ F, f k = δ

section
variable {K : Type} [DecidableEq K]

theorem Shift.on {f g : K → Int} {δ : Int} {F : Finset K} (h : ∀ k, k ∉ F → f k = g k)
    (hd : ∑ k ∈ F, g k - ∑ k ∈ F, f k = δ) (G : Finset K) (hG : F ⊆ G) : ∑ k ∈ G, g k - ∑ k ∈ G, f k = δ := by
  rw [← Finset.sum_sdiff hG, ← Finset.sum_sdiff (f := f) hG]
  have : ∑ x ∈ G \ F, g x = ∑ x ∈ G \ F, f x := Finset.sum_congr rfl fun k hk => (h k (Finset.mem_sdiff.1 hk).2).symm
  omega

theorem Shift.refl (f : K → Int) : Shift f f 0 := ⟨∅, fun _ _ => rfl, by simp⟩

theorem Shift.of_eq {f g : K → Int} (h : ∀ k, f k = g k) : Shift f g 0 := ⟨∅, fun k _ => h k, by simp⟩

theorem Shift.trans {f g h : K → Int} {a b : Int} (h1 : Shift f g a) (h2 : Shift g h b) : Shift f h (a + b) := by
  obtain ⟨F, e1, d1⟩ := h1
  obtain ⟨G, e2, d2⟩ := h2
  refine ⟨F ∪ G, ?_, ?_⟩
  · intro k hk
    rw [Finset.mem_union, not_or] at hk
    rw [e1 k hk.1, e2 k hk.2]
  · have a1 := Shift.on e1 d1 (F ∪ G) Finset.subset_union_left
    have a2 := Shift.on e2 d2 (F ∪ G) Finset.subset_union_right
    omega

theorem Shift.point {f g : K → Int} (k : K) (h : ∀ x, x ≠ k → f x = g x) : Shift f g (g k - f k) :=
  ⟨{k}, fun x hx => h x (by simpa using hx), by simp⟩

theorem Shift.cast {f g : K → Int} {a b : Int} (h : Shift f g a) (e : a = b) : Shift f g b := e ▸ h

/-- changes inside a given set -/
theorem Shift.inside {f g : K → Int} (F : Finset K) (h : ∀ k, k ∉ F → f k = g k) :
    Shift f g (∑ k ∈ F, g k - ∑ k ∈ F, f k) := ⟨F, h, rfl⟩

end

/-- totals over stored maps -/
theorem sumV_keyed {K V : Type} [LinearOrder K] (g : K → V → Int) (m : BMap K V) (S : Finset K) (hS : m.keys ⊆ S) :
    m.sumV g = ∑ k ∈ S, ((m.get k).map (g k)).getD 0 := by
  have hnd : (m.entries.map (·.1)).Nodup := by
    have := m.sorted
    rw [List.Nodup, List.pairwise_map]
    exact this.imp (fun h => ne_of_lt h)
  have h1 : m.sumV g = ∑ k ∈ m.keys, ((m.get k).map (g k)).getD 0 := by
    unfold BMap.keys
    rw [List.sum_toFinset _ hnd, List.map_map]
    unfold BMap.sumV
    congr 1
    apply List.map_congr_left
    rintro ⟨a, b⟩ h
    simp [BMap.mem_entries.1 h]
  rw [h1]
  apply Finset.sum_subset hS
  intro k _ hk
  rw [BMap.mem_keys] at hk
  cases h : m.get k with
  | none => rfl
  | some v => simp [h] at hk

theorem Shift.sumV {K V : Type} [LinearOrder K] {g g' : K → V → Int} {m m' : BMap K V} {δ : Int}
    (h : Shift (fun k => ((m.get k).map (g k)).getD 0) (fun k => ((m'.get k).map (g' k)).getD 0) δ) :
    m'.sumV g' = m.sumV g + δ := by
  obtain ⟨F, e, d⟩ := h
  have := Shift.on e d (F ∪ m.keys ∪ m'.keys) (by intro x hx; simp [hx])
  rw [sumV_keyed g m (F ∪ m.keys ∪ m'.keys) (by intro x hx; simp [hx]),
    sumV_keyed g' m' (F ∪ m.keys ∪ m'.keys) (by intro x hx; simp [hx])]
  omega

/-! ### Parts of what a state holds -/

def utxoPart (read : Nat → TxOutput) (c : Cur) (U : OutPoint → Option Coin) (k : OutPoint) : Int :=
  ((U k).map fun x => (worth c (read x.output.content) : Int)).getD 0

def ownPart (f : Nat → Option Pos.PoolData) (p : Nat) : Int :=
  ((f p).map fun d => ((d.pledge + d.rewards : Nat) : Int)).getD 0

def delPart (f : Nat → Nat) (d : Nat) : Int := (f d : Int)

def ordPart (c : Cur) (s : Orders.Sv) (id : Nat) : Int :=
  ((s.data id).map fun d => orderHolds c d (s.ask id) (s.give id)).getD 0

/-! ### Staking -/

/-- coins an operation moves into a pool; `f` are the pools before -/
def poolGain (f : Nat → Option Pos.PoolData) : Pos.Op → Int
  | .createPool _ d => ((d.pledge + d.rewards : Nat) : Int)
  | .decommissionPool p => - ownPart f p
  | .increaseStakerRewards _ a => (a : Int)
  | _ => 0

/-- coins an operation moves into a delegation -/
def delGain : Pos.Op → Int
  | .delegateStaking _ a => (a : Int)
  | .spendShare _ a => - (a : Int)
  | _ => 0

/-- the operations of inputs -/
def isPosIn : Pos.Op → Bool
  | .decommissionPool _ => true
  | .spendShare _ _ => true
  | _ => false

/-- the operations of outputs and rewards -/
def isPosOut : Pos.Op → Bool
  | .createPool _ _ => true
  | .createDelegationId _ _ _ => true
  | .delegateStaking _ _ => true
  | .increaseStakerRewards _ _ => true
  | _ => false

theorem posM_rep {s s' : Pos.Sv} {op : Pos.Op} (h : posM s op s') (ht : ∃ t, Pos.Rep t s) : ∃ t, Pos.Rep t s' := by
  obtain ⟨u, m⟩ := h
  obtain ⟨t, ht⟩ := ht
  obtain ⟨t', -, h2⟩ := m.fwd t ht
  exact ⟨t', h2⟩

theorem posM_did {s s' : Pos.Sv} {op : Pos.Op} (h : posM s op s') (ht : ∃ t, Pos.Rep t s) : Pos.Did s s' op := by
  obtain ⟨u, m⟩ := h
  obtain ⟨t, ht⟩ := ht
  exact m.did ht

theorem own_point {f g : Nat → Option Pos.PoolData} {p : Nat} {x : Option Pos.PoolData} (h : g = Function.update f p x) :
    Shift (ownPart f) (ownPart g) (ownPart g p - ownPart f p) := by
  refine Shift.point p fun k hk => ?_
  unfold ownPart
  rw [h, Function.update_of_ne hk]

theorem del_point {f g : Nat → Nat} {d x : Nat} (h : g = Function.update f d x) :
    Shift (delPart f) (delPart g) (x - f d : Int) := by
  refine (Shift.point d fun k hk => ?_).cast ?_
  · unfold delPart
    rw [h, Function.update_of_ne hk]
  · simp [delPart, h]

theorem pos_in {f : Nat → Option Pos.PoolData} {s s' : Pos.Sv} {ops : List Pos.Op} (h : Chain posM s ops s')
    (ht : ∃ t, Pos.Rep t s) (hops : ∀ op ∈ ops, isPosIn op = true)
    (hf : ∀ p, s.poolData p = f p ∨ s.poolData p = none) :
    Shift (ownPart s.poolData) (ownPart s'.poolData) (ops.map (poolGain f)).sum ∧
      Shift (delPart s.delBal) (delPart s'.delBal) (ops.map delGain).sum := by
  induction h with
  | nil => exact ⟨Shift.refl _, Shift.refl _⟩
  | @cons s s1 s2 op ops hm _ ih =>
    have hd := posM_did hm ht
    have hop := hops op (by simp)
    cases op <;> simp only [isPosIn, Bool.false_eq_true] at hop
    case decommissionPool p =>
      obtain ⟨⟨d, h1⟩, h2, h3⟩ := hd
      obtain ⟨i1, i2⟩ := ih (posM_rep hm ht) (fun o ho => hops o (by simp [ho])) (by
        intro q
        rw [h2]
        by_cases hq : q = p
        · subst hq; right; simp
        · rw [Function.update_of_ne hq]; exact hf q)
      have e : f p = some d := by
        rcases hf p with e | e
        · rw [← e]; exact h1
        · rw [h1] at e; cases e
      refine ⟨((own_point h2).trans i1).cast ?_, (Shift.trans (Shift.of_eq fun k => by rw [h3]) i2).cast ?_⟩
      · simp [poolGain, ownPart, h2, h1, e]
      · simp [delGain]
    case spendShare d a =>
      obtain ⟨h1, h2, h3⟩ := hd
      obtain ⟨i1, i2⟩ := ih (posM_rep hm ht) (fun o ho => hops o (by simp [ho])) (by rw [h2]; exact hf)
      refine ⟨(Shift.trans (Shift.of_eq fun k => by rw [h2]) i1).cast ?_, ((del_point h3).trans i2).cast ?_⟩
      · simp [poolGain]
      · simp only [delGain, List.map_cons, List.sum_cons]
        omega

theorem pos_out {s s' : Pos.Sv} {ops : List Pos.Op} (h : Chain posM s ops s') (ht : ∃ t, Pos.Rep t s)
    (hops : ∀ op ∈ ops, isPosOut op = true) :
    Shift (ownPart s.poolData) (ownPart s'.poolData) (ops.map (poolGain fun _ => none)).sum ∧
      Shift (delPart s.delBal) (delPart s'.delBal) (ops.map delGain).sum := by
  induction h with
  | nil => exact ⟨Shift.refl _, Shift.refl _⟩
  | @cons s s1 s2 op ops hm _ ih =>
    have hd := posM_did hm ht
    have hop := hops op (by simp)
    obtain ⟨i1, i2⟩ := ih (posM_rep hm ht) (fun o ho => hops o (by simp [ho]))
    cases op <;> simp only [isPosOut, Bool.false_eq_true] at hop
    case createPool p d =>
      obtain ⟨h1, h2, h3⟩ := hd
      refine ⟨((own_point h2).trans i1).cast ?_, (Shift.trans (Shift.of_eq fun k => by rw [h3]) i2).cast ?_⟩
      · simp [poolGain, ownPart, h2, h1]
      · simp [delGain]
    case increaseStakerRewards p a =>
      obtain ⟨d, h1, h2, h3⟩ := hd
      refine ⟨((own_point h2).trans i1).cast ?_, (Shift.trans (Shift.of_eq fun k => by rw [h3]) i2).cast ?_⟩
      · simp only [poolGain, ownPart, h2, h1, Function.update_self, Option.map_some, Option.getD_some, List.map_cons,
          List.sum_cons]
        push_cast
        ring
      · simp [delGain]
    case createDelegationId =>
      obtain ⟨h2, h3⟩ := hd
      refine ⟨(Shift.trans (Shift.of_eq fun k => by rw [h2]) i1).cast ?_,
        (Shift.trans (Shift.of_eq fun k => by rw [h3]) i2).cast ?_⟩
      · simp [poolGain]
      · simp [delGain]
    case delegateStaking d a =>
      obtain ⟨h2, h3⟩ := hd
      refine ⟨(Shift.trans (Shift.of_eq fun k => by rw [h2]) i1).cast ?_, ((del_point h3).trans i2).cast ?_⟩
      · simp [poolGain]
      · simp only [delGain, List.map_cons, List.sum_cons]
        push_cast
        omega

/-! ### Unspent outputs -/

theorem utxo_rem (read : Nat → TxOutput) (c : Cur) : ∀ (ks : List OutPoint) (U : OutPoint → Option Coin), ks.Nodup →
    Shift (utxoPart read c U) (utxoPart read c (remAll U ks)) (- (ks.map (utxoPart read c U)).sum)
  | [], U, _ => (Shift.refl _).cast (by simp)
  | k :: ks, U, hn => by
    obtain ⟨hk, hn⟩ := List.nodup_cons.1 hn
    have ih := utxo_rem read c ks (remAll U [k]) hn
    have h1 : Shift (utxoPart read c U) (utxoPart read c (remAll U [k])) (- utxoPart read c U k) := by
      refine (Shift.point k fun x hx => ?_).cast ?_
      · simp [utxoPart, Utxo.remAll_apply, hx]
      · simp [utxoPart, Utxo.remAll_apply]
    have e : remAll U (k :: ks) = remAll (remAll U [k]) ks := by
      funext x
      simp only [Utxo.remAll_apply, List.mem_cons, List.not_mem_nil, or_false]
      by_cases h1 : x ∈ ks <;> by_cases h2 : x = k <;> simp [h1, h2]
    rw [e]
    refine (h1.trans ih).cast ?_
    have : (ks.map (utxoPart read c (remAll U [k]))) = ks.map (utxoPart read c U) := by
      apply List.map_congr_left
      intro x hx
      have : x ≠ k := fun e => hk (e ▸ hx)
      simp [utxoPart, Utxo.remAll_apply, this]
    rw [this]
    simp only [List.map_cons, List.sum_cons]
    omega

theorem utxo_set (read : Nat → TxOutput) (c : Cur) : ∀ (kvs : List (OutPoint × Coin)) (U : OutPoint → Option Coin),
    (kvs.map Prod.fst).Nodup → (∀ p ∈ kvs, U p.1 = none) →
    Shift (utxoPart read c U) (utxoPart read c (setAll U kvs))
      (kvs.map fun p => (worth c (read p.2.output.content) : Int)).sum
  | [], U, _, _ => (Shift.refl _).cast (by simp)
  | p :: kvs, U, hn, hno => by
    rw [List.map_cons] at hn
    obtain ⟨hk, hn⟩ := List.nodup_cons.1 hn
    have h1 : Shift (utxoPart read c U) (utxoPart read c (setAll U [p])) (worth c (read p.2.output.content) : Int) := by
      refine (Shift.point p.1 fun x hx => ?_).cast ?_
      · unfold utxoPart
        rw [Utxo.setAll_notMem [p] U x (by simpa using hx)]
      · unfold utxoPart
        rw [Utxo.setAll_mem [p] U (by simp) p (by simp), hno p (by simp)]
        simp
    have ih := utxo_set read c kvs (setAll U [p]) hn (by
      intro q hq
      rw [Utxo.setAll_notMem [p] U q.1 (by
        simp only [List.map_cons, List.map_nil, List.mem_singleton]
        intro e
        exact hk (e ▸ List.mem_map_of_mem hq))]
      exact hno q (by simp [hq]))
    exact (h1.trans ih).cast (by simp)

/-- the worth of the outputs that enter the UTXO set -/
def outWorth (read : Nat → TxOutput) (c : Cur) (o : Output) : Int :=
  if o.inUtxoSet then (worth c (read o.content) : Int) else 0

theorem outPairs_worth (read : Nat → TxOutput) (c : Cur) (mk : Nat → OutPoint) (source : Nat) :
    ∀ (os : List Output) (i : Nat),
      ((outPairs mk source i os).map fun p => (worth c (read p.2.output.content) : Int)).sum =
        (os.map (outWorth read c)).sum
  | [], _ => rfl
  | o :: os, i => by
    unfold outPairs
    have := outPairs_worth read c mk source os (i + 1)
    cases ho : o.inUtxoSet
    · simp [outWorth, ho, this]
    · simp [outWorth, ho, this]

end Verif.Verifier
