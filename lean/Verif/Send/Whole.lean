import Verif.Send.Coins

/-!
# Everything that is known about a transaction that was built
-/

namespace Verif.Send
open Verif Verif.Accumulator

structure BuiltOk (ctx : Ctx) (pre : List PreIn) (outs : List Out) (us : List Utxo) (b : Built) : Prop where
  changes : ∃ chs : List (Cur × Out), b.outs = outs ++ chs.map (·.2) ∧ (chs.map (·.1)).Nodup ∧ ∀ x ∈ chs, ChangeOk ctx x.1 x.2 ∧ (x.1 = coin ∨ Requested ctx pre outs x.1)
  sub : b.sel.Subperm us
  spend : ∀ u ∈ us, ∃ x, spendable u.2 = .ok x
  pres : ∀ x ∈ pre, ∃ m m', inputPre ctx m x = .ok m'
  token : ∀ pv c, c ≠ coin → Requested ctx pre outs c → valueOf c b.sel + given ctx pv pre c = paidOut ctx b.outs c + taken ctx pre c
  other : ∀ c, c ≠ coin → ¬ Requested ctx pre outs c → valueOf c b.sel = 0 ∧ paidOut ctx b.outs c = 0 ∧ taken ctx pre c = 0
  rate : Sized ctx → ctx.rate * realSize ctx pre b ≤ 1000 * b.fee
  coins : ∀ pv, (∃ x, valueOf coin b.sel + given ctx pv pre coin = paidOut ctx b.outs coin + taken ctx pre coin + x ∧ b.fee ≤ x ∧ (paidOut ctx b.outs coin ≠ paidOut ctx outs coin → x = b.fee)) ∨
    (valueOf coin b.sel = 0 ∧ paidOut ctx outs coin + taken ctx pre coin < given ctx pv pre coin ∧
      ∃ x d cost, given ctx pv pre coin = paidOut ctx b.outs coin + taken ctx pre coin + x ∧
        ctx.dest coin = some d ∧ fee ctx.rate (ctx.outSize (changeOut coin (U128 - 1) d)) = .ok cost ∧ x + cost = b.fee)

theorem paidOut_sub {ctx : Ctx} {outs : List Out} {c : Cur} (h : ∀ o ∈ outs, placed ctx.cfg c o.1 = 0) : paidOut ctx outs c = 0 := by
  unfold paidOut
  refine List.sum_eq_zero fun x hx => ?_
  obtain ⟨o, ho, rfl⟩ := List.mem_map.1 hx
  exact h o ho

theorem spendable_all {ctx : Ctx} : ∀ {us : List Utxo} {gs : List (Cur × Select.Group Utxo)}, List.Forall₂ (GroupOk ctx) us gs → ∀ u ∈ us, ∃ x, spendable u.2 = .ok x
  | _, _, .nil, u, hu => by cases hu
  | _, _, .cons hg hl, u, hu => by
    rcases List.mem_cons.1 hu with rfl | hu
    · obtain ⟨n, hn⟩ := hg.spend
      exact ⟨_, hn⟩
    · exact spendable_all hl u hu

/-- tokens are only in outputs that are denominated in them -/
theorem placed_cur {cfg : Config} {c : Cur} {o : TxOutput} (hc : c ≠ coin) (h : outCur o ≠ some c) : placed cfg c o = 0 := by
  have key : ∀ v, curOf v ≠ some c → val c v = 0 := by
    intro v hv
    cases v with
    | coin n => exact if_neg hc
    | tokenV0 => rfl
    | tokenV1 id n => exact if_neg fun e => hv (by rw [e]; rfl)
  have hc' : c ≠ 0 := hc
  cases o <;> simp only [placed, outCur] at h ⊢ <;> first | exact key _ h | exact if_neg hc' | rfl

theorem pres_each {ctx : Ctx} : ∀ {l : List PreIn} {p p' : Pres}, l.foldlM (presStep ctx) p = .ok p' → ∀ x ∈ l, ∃ m m', inputPre ctx m x = .ok m'
  | [], _, _, _, x, hx => by cases hx
  | y :: l, p, p', h, x, hx => by
    rw [List.foldlM_cons, bind_eq_ok] at h
    obtain ⟨q, h1, h2⟩ := h
    rcases List.mem_cons.1 hx with rfl | hx
    · simp only [presStep, bind_eq_ok, pure_eq_ok] at h1
      obtain ⟨f, _, fs, _, m, h3, _⟩ := h1
      exact ⟨_, _, h3⟩
    · exact pres_each h2 x hx

theorem build_ok {ctx : Ctx} {pre : List PreIn} {outs : List Out} {us : List Utxo} {b : Built} (hf : ctx.Fair) (h : build ctx pre outs us = .ok b) : BuiltOk ctx pre outs us b := by
  unfold build at h
  rw [bind_eq_ok] at h
  obtain ⟨pres, h1, h⟩ := h
  rw [bind_eq_ok] at h
  obtain ⟨m, h2, h⟩ := h
  rw [bind_eq_ok] at h
  obtain ⟨am, h3, h⟩ := h
  rw [bind_eq_ok] at h
  obtain ⟨gs, h4, h⟩ := h
  rw [bind_eq_ok] at h
  obtain ⟨st, h5, h⟩ := h
  have hp := groupPres_ok h1
  have ha := amounts_ok hp h2 h3
  have hl := groupsAll_ok h4
  have hkeys : ((am.erase coin).entries.map (·.1)).Nodup := by
    have := (am.erase coin).sorted
    rw [List.Nodup, List.pairwise_map]
    exact this.imp fun hlt => Nat.ne_of_lt hlt
  have hmem : ∀ k, k ∈ (am.erase coin).entries.map (·.1) ↔ k ≠ coin ∧ am.get k ≠ none := by
    intro k
    rw [List.mem_map]
    constructor
    · rintro ⟨⟨k', v⟩, hx, rfl⟩
      have := BMap.mem_entries.1 hx
      rw [BMap.get_erase] at this
      split at this
      · cases this
      · next hne => exact ⟨hne, by dsimp only; rw [this]; nofun⟩
    · rintro ⟨hk, hg⟩
      obtain ⟨v, hv⟩ := Option.ne_none_iff_exists'.1 hg
      exact ⟨(k, v), BMap.mem_entries.2 (by rw [BMap.get_erase_ne _ hk]; exact hv), rfl⟩
  have hnc : ∀ x ∈ (am.erase coin).entries, x.1 ≠ coin := fun x hx => ((hmem x.1).1 (List.mem_map_of_mem hx)).1
  have hi : TokInv ctx us pres outs ([] ++ (am.erase coin).entries) st := tokenFold_ok (seen := []) hf hl hnc (by simpa using hkeys)
    (st := { outs := outs }) ⟨⟨[], by simp, by simp, by simp⟩, rfl, by simp, by simp, fun k _ => ⟨rfl, rfl⟩, by simp, by simp, rfl⟩ h5
  rw [List.nil_append] at hi
  have hcoin : coin ∉ (am.erase coin).entries.map (·.1) := fun hm => ((hmem _).1 hm).1 rfl
  have hfin := coinPart_ok hf hl hp hi hcoin h
  obtain ⟨cs, f1, f2, f3⟩ := hfin.sel
  obtain ⟨chs, c1, c2, c3⟩ := hi.changes
  have hreq : ∀ k ∈ (am.erase coin).entries.map (·.1), Requested ctx pre outs k := fun k hk => (ha.key k ((hmem k).1 hk).1).1 ((hmem k).1 hk).2
  have outsTok : ∀ k, k ≠ coin → paidOut ctx b.outs k = paidOut ctx st.outs k := by
    intro k hk
    rcases hfin.outs with e | ⟨o, e, n, d, rfl, -⟩
    · rw [e]
    · rw [e, paidOut_append, paidOut_change, if_neg hk, Nat.add_zero]
  have selTok : ∀ k, k ≠ coin → valueOf k b.sel = valueOf k (st.sel.flatMap fun y => y.2.outputs) := by
    intro k hk
    rw [f1, valueOf_append, f3 k hk, Nat.zero_add]
  have hpa : ∀ pv k, preAmount pres k = given ctx pv pre k := hp.amount
  refine ⟨?_, ?_, ?_, pres_each h1, ?_, ?_, hfin.real, ?_⟩
  · rcases hfin.outs with e | ⟨o, e, ho⟩
    · exact ⟨chs, by rw [e, c1], c2.nodup hkeys, fun x hx => ⟨c3 x hx, .inr (hreq _ (c2.subset (List.mem_map_of_mem hx)))⟩⟩
    · refine ⟨chs ++ [(coin, o)], by rw [e, c1]; simp, ?_, ?_⟩
      · rw [List.map_append, List.nodup_append]
        refine ⟨c2.nodup hkeys, by simp, ?_⟩
        rintro k hk k' hk' rfl
        simp only [List.map_cons, List.map_nil, List.mem_singleton] at hk'
        subst hk'
        exact hcoin (c2.subset hk)
      · intro x hx
        rcases List.mem_append.1 hx with hx | hx
        · exact ⟨c3 x hx, .inr (hreq _ (c2.subset (List.mem_map_of_mem hx)))⟩
        · rw [List.mem_singleton] at hx
          subst hx
          exact ⟨ho, .inl rfl⟩
  · have := picks_sub (us := us) (l := (coin, cs) :: st.sel.map fun y => (y.1, y.2.outputs)) (by
      rw [List.map_cons, List.map_map, List.nodup_cons]
      have e : ((fun x : Cur × List Utxo => x.1) ∘ fun y : Cur × Select.Result Utxo => (y.1, y.2.outputs)) = fun y => y.1 := rfl
      rw [e, hi.keys]
      exact ⟨hcoin, hkeys⟩) (by
      intro x hx
      rcases List.mem_cons.1 hx with rfl | hx
      · exact f2
      · obtain ⟨y, hy, rfl⟩ := List.mem_map.1 hx
        exact hi.sub y hy)
    rw [f1]
    rw [List.flatMap_cons, List.flatMap_map] at this
    exact this.trans List.filter_sublist.subperm
  · exact spendable_all hl
  · intro pv c hc hr
    have hget := (ha.key c hc).2 hr
    obtain ⟨x, hx, rfl⟩ := List.mem_map.1 ((hmem c).2 ⟨hc, hget⟩)
    have hd := hi.done x hx
    have hx2 : x.2 = amtOf am x.1 := by
      have := BMap.mem_entries.1 (show (x.1, x.2) ∈ (am.erase coin).entries from hx)
      rw [BMap.get_erase_ne _ hc] at this
      unfold amtOf
      rw [this]
      rfl
    rw [hpa pv, hx2, ha.amount] at hd
    rw [selTok _ hc, outsTok _ hc]
    omega
  · intro c hc hr
    have hk : c ∉ (am.erase coin).entries.map (·.1) := fun hk => hr (hreq c hk)
    obtain ⟨u1, u2⟩ := hi.unseen c hk
    rw [selTok _ hc, outsTok _ hc, u2]
    refine ⟨u1, paidOut_sub fun o ho => placed_cur hc fun e => hr (.inl ⟨o, ho, e⟩), ?_⟩
    by_contra hne
    exact hr (.inr (Nat.pos_of_ne_zero hne))
  · intro pv
    have u2 := (hi.unseen coin hcoin).2
    have ea := ha.amount coin
    unfold amtOf at ea
    have hpd := hfin.paid
    rw [hpa pv, ea, u2] at hpd
    rcases hpd with ⟨x, e1, e2, e3⟩ | ⟨v, lt, ne, x, d, cost, e1, e2, e3, e4⟩
    · exact .inl ⟨x, by omega, e2, fun hne => e3 fun e => hne (by rw [e, u2])⟩
    · exact .inr ⟨v, lt, x, d, cost, by omega, e2, e3, e4⟩

end Verif.Send
