import Verif.Send.Pick

/-!
# Lemmas: the loop over tokens
-/

namespace Verif.Send
open Verif Verif.Accumulator

theorem placed_change (cfg : Config) (k c n d : Nat) : placed cfg k (changeOut c n d).1 = if k = c then n else 0 := by
  unfold changeOut
  cases c <;> rfl

theorem paidOut_append (ctx : Ctx) (a b : List Out) (k : Cur) : paidOut ctx (a ++ b) k = paidOut ctx a k + paidOut ctx b k := by simp [paidOut]

theorem paidOut_change (ctx : Ctx) (k c n d : Nat) : paidOut ctx [changeOut c n d] k = if k = c then n else 0 := by
  simp [paidOut, placed_change]

theorem addChange_ok {r r' : Select.Result Utxo} {n : Nat} (h : addChange r n = .ok r') :
    r' = { r with change := r.change + n } ∧ r.change + n < U128 := by
  simp only [addChange, bind_eq_ok, pure_eq_ok] at h
  obtain ⟨c, h1, rfl⟩ := h
  exact ⟨by rw [add_ok h1], add_lt h1⟩

theorem changeCost_ok {ctx : Ctx} {c d : Nat} {x : Nat × Nat} (h : changeCost ctx c d = .ok x) :
    x.1 = ctx.outSize (changeOut (min c 1) (U128 - 1) d) ∧ fee ctx.rate x.1 = .ok x.2 := by
  simp only [changeCost, bind_eq_ok, pure_eq_ok] at h
  obtain ⟨f, h1, rfl⟩ := h
  exact ⟨rfl, h1⟩

/-- what is known in the loop over tokens -/
structure TokInv (ctx : Ctx) (us : List Utxo) (p : Pres) (outs : List Out) (seen : List (Cur × Nat)) (st : St) : Prop where
  changes : ∃ chs : List (Cur × Out), st.outs = outs ++ chs.map (·.2) ∧ (chs.map (·.1)).Sublist (seen.map (·.1)) ∧ (∀ x ∈ chs, ChangeOk ctx x.1 x.2)
  keys : st.sel.map (·.1) = seen.map (·.1)
  sub : ∀ x ∈ st.sel, x.2.outputs.Subperm (ofCur us x.1)
  done : ∀ x ∈ seen, valueOf x.1 (st.sel.flatMap fun y => y.2.outputs) + preAmount p x.1 + paidOut ctx outs x.1 = x.2 + paidOut ctx st.outs x.1
  unseen : ∀ k, k ∉ seen.map (·.1) → valueOf k (st.sel.flatMap fun y => y.2.outputs) = 0 ∧ paidOut ctx st.outs k = paidOut ctx outs k
  size : ((st.sel.flatMap fun y => y.2.outputs).map ctx.inWeight).sum ≤ st.size
  fees : ctx.rate * st.size ≤ 1000 * st.fees
  len : numSelected st.sel = (st.sel.flatMap fun y => y.2.outputs).length

theorem tokenChange_ok {ctx : Ctx} {st st' : St} {c change size cost d : Nat} (hd : ctx.dest c = some d) (hu : change < U128) (hc : ctx.rate * size ≤ 1000 * cost)
    (hfee : ctx.rate * st.size ≤ 1000 * st.fees) (h : tokenChange st c change size cost d = .ok st') :
    st'.sel = st.sel ∧ st.size ≤ st'.size ∧ ctx.rate * st'.size ≤ 1000 * st'.fees ∧
    (∃ l, st'.outs = st.outs ++ l ∧ (l = [] ∨ ∃ o, l = [o] ∧ ChangeOk ctx c o)) ∧
    ∀ k, paidOut ctx st'.outs k = paidOut ctx st.outs k + if k = c then change else 0 := by
  unfold tokenChange at h
  split at h
  · next hpos =>
    rw [bind_eq_ok] at h
    obtain ⟨f, h1, h2⟩ := h
    rw [pure_eq_ok] at h2
    subst h2
    have e := add_ok h1
    refine ⟨rfl, by dsimp only; omega, ?_, ⟨[changeOut c change d], rfl, .inr ⟨_, rfl, change, d, rfl, hpos, hu, hd⟩⟩, fun k => ?_⟩
    · dsimp only; rw [e, Nat.mul_add]; omega
    · dsimp only; rw [paidOut_append, paidOut_change]
  · next hpos =>
    cases h
    refine ⟨rfl, Nat.le_refl _, hfee, ⟨[], by simp, .inl rfl⟩, fun k => ?_⟩
    have : change = 0 := by omega
    simp [this]

theorem tokenStep_ok {ctx : Ctx} {us : List Utxo} {gs : List (Cur × Select.Group Utxo)} {p : Pres} {outs : List Out} {seen : List (Cur × Nat)} {st st' : St} {x : Cur × Nat}
    (hf : ctx.Fair) (hl : List.Forall₂ (GroupOk ctx) us gs) (hx : x.1 ≠ coin) (hnew : x.1 ∉ seen.map (·.1)) (hi : TokInv ctx us p outs seen st)
    (h : tokenStep ctx gs p st x = .ok st') : TokInv ctx us p outs (seen ++ [x]) st' := by
  obtain ⟨c, a⟩ := x
  dsimp only at hx hnew
  simp only [tokenStep, bind_eq_ok, pure_eq_ok, okOr_eq_ok] at h
  obtain ⟨d, h1, ⟨size, cost⟩, h2, r, h3, f, h4, r', h5, st1, h6, rfl⟩ := h
  have hcost := fee_ge (changeCost_ok h2).2
  obtain ⟨hp, -, -⟩ := select_ok hf hl h3
  have hv := select_token hf hl hx h3
  obtain ⟨rfl, hu⟩ := addChange_ok h5
  have ef := add_ok (e := .outputOverflow) (okOr_eq_ok.2 h4)
  subst ef
  dsimp only at h6 hu hcost
  have hpf := hp.fees
  have hif := hi.fees
  obtain ⟨s1, s2, s3, ⟨l, s4, s5⟩, s6⟩ := tokenChange_ok h1 hu hcost (by dsimp only; rw [Nat.mul_add]; omega) h6
  dsimp only at s1 s2 s3 s4 s6
  obtain ⟨chs, c1, c2, c3⟩ := hi.changes
  have eflat : ({ st1 with sel := st1.sel ++ [(c, { r with change := r.change + (preAmount p c - a) })] } : St).sel.flatMap (fun y => y.2.outputs) =
      st.sel.flatMap (fun y => y.2.outputs) ++ r.outputs := by
    dsimp only; rw [s1, List.flatMap_append]; simp
  refine ⟨?_, ?_, ?_, ?_, ?_, ?_, s3, ?_⟩
  · dsimp only
    rcases s5 with rfl | ⟨o, rfl, s5⟩
    · refine ⟨chs, by rw [s4, c1]; simp, ?_, c3⟩
      rw [List.map_append]
      exact c2.trans (List.sublist_append_left _ _)
    · refine ⟨chs ++ [(c, o)], by rw [s4, c1]; simp, ?_, ?_⟩
      · rw [List.map_append, List.map_append]
        exact c2.append (List.Sublist.refl _)
      · intro x hx
        rw [List.mem_append, List.mem_singleton] at hx
        rcases hx with hx | rfl
        · exact c3 x hx
        · exact s5
  · dsimp only; rw [s1, List.map_append, List.map_append, hi.keys]; rfl
  · dsimp only
    intro x hx
    rw [s1, List.mem_append, List.mem_singleton] at hx
    rcases hx with hx | rfl
    · exact hi.sub x hx
    · exact hp.sub
  · intro x hx
    rw [eflat, valueOf_append]
    dsimp only
    rw [s6]
    rw [List.mem_append, List.mem_singleton] at hx
    rcases hx with hx | rfl
    · have hne : x.1 ≠ c := fun e => hnew (e ▸ List.mem_map.2 ⟨x, hx, rfl⟩)
      rw [hp.other _ hne, if_neg hne]
      have := hi.done x hx
      omega
    · obtain ⟨u1, u2⟩ := hi.unseen c hnew
      dsimp only
      rw [u1, hv, u2, if_pos rfl]
      omega
  · intro k hk
    rw [List.map_append, List.mem_append, not_or] at hk
    obtain ⟨k1, k2⟩ := hk
    have hne : k ≠ c := by simpa using k2
    obtain ⟨u1, u2⟩ := hi.unseen k k1
    rw [eflat, valueOf_append, u1, hp.other k hne]
    dsimp only
    rw [s6, u2, if_neg hne]
    exact ⟨rfl, rfl⟩
  · rw [eflat, List.map_append, List.sum_append]
    have := hi.size
    have e := hp.weight
    dsimp only
    omega
  · skip
    rw [eflat, List.length_append, ← hi.len]
    dsimp only
    rw [s1]
    simp [numSelected]

theorem tokenFold_ok {ctx : Ctx} {us : List Utxo} {gs : List (Cur × Select.Group Utxo)} {p : Pres} {outs : List Out} (hf : ctx.Fair)
    (hl : List.Forall₂ (GroupOk ctx) us gs) : ∀ {l seen : List (Cur × Nat)} {st st' : St}, (∀ x ∈ l, x.1 ≠ coin) → ((seen ++ l).map (·.1)).Nodup →
      TokInv ctx us p outs seen st → l.foldlM (tokenStep ctx gs p) st = .ok st' → TokInv ctx us p outs (seen ++ l) st'
  | [], seen, st, st', _, _, hi, h => by
    rw [List.foldlM_nil, pure_eq_ok] at h
    subst h
    simpa using hi
  | x :: l, seen, st, st', hc, hn, hi, h => by
    rw [List.foldlM_cons, bind_eq_ok] at h
    obtain ⟨q, h1, h2⟩ := h
    have hnew : x.1 ∉ seen.map (·.1) := by
      rw [List.map_append, List.nodup_append] at hn
      intro hm
      exact hn.2.2 _ hm _ (by simp) rfl
    have := tokenFold_ok hf hl (fun y hy => hc y (List.mem_cons_of_mem _ hy)) (by simpa using hn) (tokenStep_ok hf hl (hc x List.mem_cons_self) hnew hi h1) h2
    simpa using this

end Verif.Send
