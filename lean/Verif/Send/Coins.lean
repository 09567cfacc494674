import Verif.Send.Tokens

/-!
# Lemmas: the coins and the end
-/

namespace Verif.Send
open Verif Verif.Accumulator

/-- the transaction is complete: `fees` are the fees to be paid, as far as they do not belong to coins selected, `value` is what coins bring -/
structure Final (ctx : Ctx) (us : List Utxo) (pre : List PreIn) (st : St) (p a : Nat) (b : Built) : Prop where
  sel : ∃ cs : List Utxo, b.sel = cs ++ (st.sel.flatMap fun y => y.2.outputs) ∧ cs.Subperm (ofCur us coin) ∧ ∀ k, k ≠ coin → valueOf k cs = 0
  outs : b.outs = st.outs ∨ ∃ o, b.outs = st.outs ++ [o] ∧ ChangeOk ctx coin o
  real : Sized ctx → ctx.rate * realSize ctx pre b ≤ 1000 * b.fee
  /-- the usual case: the fee is paid, and with change it is exactly the fee told; otherwise there is change of inputs of the request only, and the fee paid is too low -/
  paid : (∃ x, valueOf coin b.sel + p + paidOut ctx st.outs coin = a + x + paidOut ctx b.outs coin ∧ b.fee ≤ x ∧ (b.outs ≠ st.outs → x = b.fee)) ∨
    (valueOf coin b.sel = 0 ∧ a < p ∧ b.outs ≠ st.outs ∧ ∃ x d cost, valueOf coin b.sel + p + paidOut ctx st.outs coin = a + x + paidOut ctx b.outs coin ∧
      ctx.dest coin = some d ∧ fee ctx.rate (ctx.outSize (changeOut coin (U128 - 1) d)) = .ok cost ∧ x + cost = b.fee)

theorem le_of_scaled {r s f n : Nat} (h : fee r s = .ok f) (hn : r * s ≤ 1000 * n) : f ≤ n := by
  rw [fee_ok h]; omega

theorem fee_mono {r s t f g : Nat} (h1 : fee r s = .ok f) (h2 : fee r t = .ok g) (h : s ≤ t) : f ≤ g := by
  rw [fee_ok h1, fee_ok h2]
  have := Nat.mul_le_mul_left r h
  omega

theorem finish_ok {ctx : Ctx} {us : List Utxo} {pre : List PreIn} {st st0 : St} {r : Select.Result Utxo} {oldSize size cost d n p a F0 : Nat} {b : Built} {extra maxIns : Nat}
    (hpick : Picked ctx us coin r) (hlen : numSelected st0.sel = (st0.sel.flatMap fun y => y.2.outputs).length) (hcoin : valueOf coin (st0.sel.flatMap fun y => y.2.outputs) = 0)
    (hsize : ((st0.sel.flatMap fun y => y.2.outputs).map ctx.inWeight).sum ≤ st0.size) (hd : ctx.dest coin = some d)
    (hcost : changeCost ctx coin d = .ok (size, cost)) (hn : txSize ctx (st0.outs.length + numChange st0.sel + 1) maxIns = .ok n)
    (hmax : numSelected st0.sel + pre.length + r.outputs.length ≤ maxIns) (hold : oldSize = n + outsSize ctx st0.outs)
    (hext : extra = (pre.map (·.weight)).sum) (hst : st.sel = st0.sel ∧ st.outs = st0.outs ∧ st.size = st0.size + (oldSize + extra) + r.weight ∧ st.fees = F0 + r.fees)
    (hF : ctx.rate * (st0.size + oldSize + extra) ≤ 1000 * F0) (hch : r.change < U128)
    (hval : (r.change = 0 ∧ a + F0 + r.fees ≤ valueOf coin r.outputs + p) ∨ (0 < r.change ∧ valueOf coin r.outputs + p = a + F0 + r.fees + cost + r.change) ∨
      (0 < r.change ∧ r.outputs = [] ∧ p = a + F0 + r.change ∧ r.fees = 0))
    (h : finish ctx st r pre.length oldSize size cost d = .ok b) : Final ctx us pre st0 p a b := by
  obtain ⟨t1, t2, t3, t4⟩ := hst
  have hc1 := (changeCost_ok hcost).1
  have hc2 := (changeCost_ok hcost).2
  dsimp only at hc1 hc2
  have hcf := fee_ge hc2
  have en := txSize_ok hn
  have hw := hpick.weight
  have hpf := hpick.fees
  unfold finish at h
  rw [bind_eq_ok] at h
  obtain ⟨n', h1, h2⟩ := h
  have en' := txSize_ok h1
  rw [t1, t2] at en' h2
  have hreal0 : (pre.map (·.weight)).sum + ((r.outputs ++ st0.sel.flatMap fun y => y.2.outputs).map ctx.inWeight).sum ≤ extra + r.weight + st0.size := by
    rw [List.map_append, List.sum_append]
    omega
  have hlen2 : pre.length + (r.outputs ++ st0.sel.flatMap fun y => y.2.outputs).length = numSelected st0.sel + pre.length + r.outputs.length := by
    rw [List.length_append]
    omega
  have hfit : n' ≤ n := by
    have q1 : lenOf (st0.outs.length + (numChange st0.sel + if 0 < r.change then 1 else 0)) ≤ lenOf (st0.outs.length + numChange st0.sel + 1) :=
      lenOf_mono (by split <;> omega)
    have q2 : lenOf (numSelected st0.sel + pre.length + r.outputs.length) ≤ lenOf maxIns := lenOf_mono hmax
    omega
  have htot : st.size - oldSize + (n' + outsSize ctx st0.outs) = st0.size + extra + r.weight + (n' + outsSize ctx st0.outs) := by omega
  have hrate : ctx.rate * (st0.size + extra + r.weight + (n' + outsSize ctx st0.outs)) ≤ 1000 * (F0 + r.fees) := by
    have e1 : ctx.rate * (st0.size + extra + r.weight + (n' + outsSize ctx st0.outs)) ≤ ctx.rate * (st0.size + oldSize + extra + r.weight) := Nat.mul_le_mul_left _ (by omega)
    have e2 : ctx.rate * (st0.size + oldSize + extra + r.weight) = ctx.rate * (st0.size + oldSize + extra) + ctx.rate * r.weight := Nat.mul_add _ _ _
    omega
  have hv0 : valueOf coin (r.outputs ++ st0.sel.flatMap fun y => y.2.outputs) = valueOf coin r.outputs := by rw [valueOf_append, hcoin, Nat.add_zero]
  have hselect : ∃ cs : List Utxo, (r.outputs ++ st0.sel.flatMap fun y => y.2.outputs) = cs ++ (st0.sel.flatMap fun y => y.2.outputs) ∧ cs.Subperm (ofCur us coin) ∧
      ∀ k, k ≠ coin → valueOf k cs = 0 := ⟨r.outputs, rfl, hpick.sub, hpick.other⟩
  dsimp only at h2
  rw [htot] at h2
  generalize hT : st0.size + extra + r.weight + (n' + outsSize ctx st0.outs) = T at h2 hrate
  by_cases hpos : 0 < r.change
  · rw [if_pos hpos, bind_eq_ok] at h2
    obtain ⟨f, h3, h4⟩ := h2
    rw [bind_eq_ok] at h4
    obtain ⟨new, h5, h6⟩ := h4
    rw [bind_eq_ok] at h6
    obtain ⟨r', h7, h8⟩ := h6
    rw [pure_eq_ok] at h8
    subst h8
    obtain ⟨rfl, hu⟩ := addChange_ok h7
    have ef := add_ok h3
    rw [t4] at ef
    have hle : new ≤ f := by
      refine le_of_scaled h5 ?_
      rw [Nat.mul_add, ef]
      omega
    have hcn : cost ≤ new := fee_mono hc2 h5 (by omega)
    have hne : st0.outs ++ [changeOut coin (r.change + (f - new)) d] ≠ st0.outs := fun e => by simp at e
    refine ⟨hselect, .inr ⟨changeOut coin (r.change + (f - new)) d, rfl, r.change + (f - new), d, rfl, Nat.lt_of_lt_of_le hpos (Nat.le_add_right _ _), hu, hd⟩, fun hS => ?_, ?_⟩
    · refine Nat.le_trans (Nat.mul_le_mul_left _ ?_) (fee_ge h5)
      unfold realSize
      have s1 := hS coin (r.change + (f - new)) d hu
      dsimp only
      rw [hlen2, List.map_append (f := ctx.outSize), List.sum_append, List.length_append]
      have e1 : (List.map ctx.outSize [changeOut coin (r.change + (f - new)) d]).sum = ctx.outSize (changeOut coin (r.change + (f - new)) d) := by simp
      have e2 : lenOf (st0.outs.length + [changeOut coin (r.change + (f - new)) d].length) ≤ lenOf (st0.outs.length + (numChange st0.sel + if 0 < r.change then 1 else 0)) :=
        lenOf_mono (by rw [if_pos hpos]; simp only [List.length_singleton]; omega)
      rw [e1]
      unfold outsSize at *
      omega
    · dsimp only
      rw [hv0, paidOut_append, paidOut_change, if_pos rfl]
      rcases hval with ⟨q1, -⟩ | ⟨-, q2⟩ | ⟨-, q2, q3, q4⟩
      · omega
      · exact .inl ⟨new, by omega, Nat.le_refl _, fun _ => rfl⟩
      · right
        rw [q2, valueOf_nil]
        refine ⟨rfl, by omega, hne, new - cost, d, cost, by omega, hd, ?_, by omega⟩
        rw [hc1] at hc2
        exact hc2
  · rw [if_neg hpos, bind_eq_ok] at h2
    obtain ⟨new, h5, h6⟩ := h2
    rw [pure_eq_ok] at h6
    subst h6
    refine ⟨hselect, .inl rfl, fun hS => ?_, ?_⟩
    · refine Nat.le_trans (Nat.mul_le_mul_left _ ?_) (fee_ge h5)
      unfold realSize
      dsimp only
      rw [hlen2]
      have e2 : lenOf st0.outs.length ≤ lenOf (st0.outs.length + (numChange st0.sel + if 0 < r.change then 1 else 0)) := lenOf_mono (by omega)
      unfold outsSize at *
      omega
    · dsimp only
      rw [hv0]
      have := le_of_scaled h5 hrate
      rcases hval with ⟨-, q1⟩ | ⟨q1, -⟩ | ⟨q1, -⟩
      · refine .inl ⟨valueOf coin r.outputs + p - a, by omega, by omega, fun h => absurd rfl h⟩
      · omega
      · omega

theorem coinPart_ok {ctx : Ctx} {us : List Utxo} {gs : List (Cur × Select.Group Utxo)} {pre : List PreIn} {pres : Pres} {outs : List Out} {seen : List (Cur × Nat)} {a : Nat} {st : St} {b : Built}
    (hf : ctx.Fair) (hl : List.Forall₂ (GroupOk ctx) us gs) (hp : PresOk ctx pre pres) (hi : TokInv ctx us pres outs seen st) (hs : coin ∉ seen.map (·.1))
    (h : coinPart ctx gs pres pre.length a st = .ok b) : Final ctx us pre st (preAmount pres coin) a b := by
  unfold coinPart at h
  rw [bind_eq_ok] at h
  obtain ⟨n, h1, h⟩ := h
  rw [bind_eq_ok] at h
  obtain ⟨f, h2, h⟩ := h
  rw [bind_eq_ok] at h
  obtain ⟨F1, h3, h⟩ := h
  rw [bind_eq_ok] at h
  obtain ⟨F0, h4, h⟩ := h
  rw [bind_eq_ok] at h
  obtain ⟨am, h5, h⟩ := h
  rw [bind_eq_ok] at h
  obtain ⟨d, h6, h⟩ := h
  rw [bind_eq_ok] at h
  obtain ⟨⟨size, cost⟩, h7, h⟩ := h
  rw [bind_eq_ok] at h
  obtain ⟨r, h8, h⟩ := h
  rw [bind_eq_ok] at h
  obtain ⟨r', h9, h⟩ := h
  rw [bind_eq_ok] at h
  obtain ⟨F2, h10, h⟩ := h
  rw [okOr_eq_ok] at h6
  have e3 := add_ok h3
  have e4 := add_ok h4
  have e5 := add_ok h5
  have e10 := add_ok h10
  obtain ⟨e9, hu⟩ := addChange_ok h9
  obtain ⟨s1, s2, s3, s4⟩ := select_ok hf hl h8
  have hz := (hi.unseen coin hs).1
  have hpf := hp.fees
  have hif := hi.fees
  have hff := fee_ge h2
  refine finish_ok (st := { st with fees := F2, size := st.size + (n + outsSize ctx st.outs + pres.sizes) + r'.weight }) (F0 := F0) (n := n) (extra := pres.sizes)
    (maxIns := numSelected st.sel + pre.length + ((groupsOf gs coin).map fun g => g.outputs.length).sum) (r := r') (cost := cost) (size := size) (d := d) (us := us) ?_ hi.len hz hi.size h6 h7 h1 ?_ rfl
    hp.sizes ⟨rfl, rfl, rfl, ?_⟩ ?_ ?_ ?_ h
  · rw [e9]; exact ⟨s1.sub, s1.other, s1.weight, s1.fees⟩
  · rw [e9]; dsimp only; omega
  · rw [e10]
  · rw [e4, e3]
    have q1 : ctx.rate * (st.size + (n + outsSize ctx st.outs) + pres.sizes) = ctx.rate * st.size + ctx.rate * (n + outsSize ctx st.outs) + ctx.rate * pres.sizes := by
      rw [Nat.mul_add, Nat.mul_add]
    omega
  · rw [e9]; exact hu
  · rw [e9]
    dsimp only
    by_cases ht : am - preAmount pres coin = 0
    · obtain ⟨z1, z2, z3⟩ := s3 ht
      rw [z1, z2, z3, valueOf_nil]
      by_cases hq : preAmount pres coin = am
      · left; omega
      · exact .inr (.inr ⟨by omega, rfl, by omega, rfl⟩)
    · have q := s4 ht
      simp only [if_true] at q
      by_cases hr : r.change = 0
      · left; omega
      · right; left; omega

end Verif.Send
