import Verif.TxPool.Blocks

/-!
# Where a survivor stood, it still stands

In front of a survivor the ledger of the rebuilt pool agrees, on all the survivor touches, with the ledger it
was connected on before.
-/

namespace Verif.TxPool

open Verif.Mempool

theorem link_dep {a b : Tx} (ha : noncesOk a = true) (hb : noncesOk b = true) {x y : Act} (hx : x ∈ acts a)
    (hy : y ∈ acts b) (hc : x.cell = y.cell) (hcnt : x.cell.counts = true) (hlink : y.old = x.old + 1) :
    DependsOn a b := by
  have kx := kind_acts ha hx
  have ky := kind_acts hb hy
  clear hx hy
  right
  cases kx with
  | @nonceD d n h1 h2 h3 =>
    cases ky <;> simp only [Act.make, Act.use, Act.need, reduceCtorEq, Cell.nonceD.injEq] at hc
    rename_i d' n' g1 g2 g3
    subst hc
    simp only at hlink
    refine ⟨_, (mem_consumed.1 g1).1, ?_⟩
    rw [hlink]; exact h3 (by omega)
  | @nonceT d n h1 h2 h3 =>
    cases ky <;> simp only [Act.make, Act.use, Act.need, reduceCtorEq, Cell.nonceT.injEq] at hc
    rename_i d' n' g1 g2 g3
    subst hc
    simp only at hlink
    refine ⟨_, (mem_consumed.1 g1).1, ?_⟩
    rw [hlink]; exact h3 (by omega)
  | known => simp [Act.make, Cell.counts] at hcnt
  | useOut => simp [Act.use, Cell.counts] at hcnt
  | useReward => simp [Act.use, Cell.counts] at hcnt
  | need => simp [Act.need, Cell.counts] at hcnt
  | make => simp [Act.make, Cell.counts] at hcnt
  | out => simp [Act.make, Cell.counts] at hcnt

theorem DoesAll.count_user {ts : List Tx} {L L' : Ledger} (h : DoesAll ts L L') {x : Cell} (hx : x.counts = true)
    {m : Nat} (h1 : L x ≤ m) (h2 : m < L' x) : ∃ v ∈ ts, ∃ a ∈ acts v, a.cell = x ∧ a.old = m := by
  induction ts generalizing L with
  | nil => cases h; omega
  | cons t ts ih =>
    obtain ⟨M, g1, g2⟩ := h
    by_cases hm : m < M x
    · obtain ⟨a, ha, e⟩ := (g1.count hx).2.2 m h1 hm
      exact ⟨t, by simp, a, (mem_on.1 ha).1, (mem_on.1 ha).2, e⟩
    · obtain ⟨v, hv, g⟩ := ih g2 (by omega)
      exact ⟨v, by simp [hv], g⟩

theorem DoesAll.count_mono {ts : List Tx} {L L' : Ledger} (h : DoesAll ts L L') {x : Cell} (hx : x.counts = true) :
    L x ≤ L' x := by
  induction ts generalizing L with
  | nil => cases h; exact le_refl _
  | cons t ts ih =>
    obtain ⟨M, g1, g2⟩ := h
    have := (g1.count hx).1
    have := ih g2
    omega

theorem parents_at {l q1 q2 : List Tx} {v w : Tx} {R : Tx → Tx → Prop} (h : l.Pairwise R) (e : l = q1 ++ w :: q2)
    (hv : v ∈ q1) : R v w := by
  subst e
  exact (List.pairwise_append.1 h).2.2 v hv w (by simp)

variable {l c q post acc : List Tx} {S : Tx → Bool} {B T V Lq ver Lt : Ledger} {t : Tx}

/-- the nonces between those the blocks used and the first of the survivor are used by survivors -/
theorem nonce_chain (hl : DoesAll l B V) (hc : DoesAll c B T) (hS : Survive l c S) (he : l = q ++ t :: post)
    (hq : DoesAll q B Lq) (ht : Does t Lq Lt) (hs : S t = true) {x : Cell} (hx : x.counts = true)
    (htx : on x (acts t) ≠ []) : ∀ k m, m + k + 1 = Lq x → T x ≤ m → ∀ v ∈ q, ∀ a ∈ acts v, a.cell = x →
      a.old = m → S v = true := by
  have hno := (doesAll_run.1 hl).1
  have hinq : ∀ v ∈ q, v ∈ l := fun v hv => by rw [he]; simp [hv]
  have htl : t ∈ l := by rw [he]; simp
  have notc : ∀ v ∈ q, ∀ a ∈ acts v, a.cell = x → T x ≤ a.old → v.id ∉ c.map Tx.id := by
    intro v hv a ha hax hle hvc
    obtain ⟨u, hu, e⟩ := List.mem_map.1 hvc
    have := hS.same v (hinq v hv) u hu e.symm
    have := (hc.count_there hu (this ▸ ha) (by rw [hax]; exact hx)).2
    rw [hax] at this
    omega
  intro k
  induction k with
  | zero =>
    intro m hm hT v hv a ha hax hao
    obtain ⟨c1, c2, c3⟩ := ht.count hx
    have hpos := List.length_pos_of_ne_nil htx
    obtain ⟨y, hy, hyo⟩ := c3 (Lq x) (le_refl _) (by omega)
    have hdep := link_dep (hno v (hinq v hv)) (hno t htl) ha (mem_on.1 hy).1 (by rw [hax, (mem_on.1 hy).2])
      (by rw [hax]; exact hx) (by omega)
    rcases parents_at hS.parents he hv hdep hs with h | h
    · exact h
    · exact absurd h (notc v hv a ha hax (by omega))
  | succ k ih =>
    intro m hm hT v hv a ha hax hao
    have hB : B x ≤ m := le_trans (hc.count_mono hx) hT
    obtain ⟨w, hw, y, hy, hyx, hyo⟩ := hq.count_user hx (m := m + 1) (by omega) (by omega)
    have hSw := ih (m + 1) (by omega) (by omega) w hw y hy hyx hyo
    by_cases hvw : v = w
    · rw [hvw]; exact hSw
    obtain ⟨q1, q2, e⟩ := List.append_of_mem hw
    have hv1 : v ∈ q1 := by
      have hv' := hv
      rw [e, List.mem_append, List.mem_cons] at hv'
      rcases hv' with h | h | h
      · exact h
      · exact absurd h hvw
      · exfalso
        obtain ⟨p1, p2, e2⟩ := List.append_of_mem h
        have h' : DoesAll ((q1 ++ w :: p1) ++ v :: p2) B Lq := by
          have := hq; rw [e, e2] at this; simpa using this
        obtain ⟨M1, g1, M2, g2, -⟩ := doesAll_append.1 h'
        have e1 := (g1.count_there (t := w) (by simp) hy (by rw [hyx]; exact hx)).2
        have e2 := ((g2.count hx).2.1 a (mem_on.2 ⟨ha, hax⟩)).1
        rw [hyx] at e1
        omega
    have hdep := link_dep (hno v (hinq v hv)) (hno w (hinq w hw)) ha hy (by rw [hax, hyx])
      (by rw [hax]; exact hx) (by omega)
    rcases parents_at (q2 := q2 ++ t :: post) hS.parents (by rw [he, e]; simp) hv1 hdep hSw with h | h
    · exact h
    · exact absurd h (notc v hv a ha hax (by omega))

theorem filter_mem_sublist : ∀ {q acc : List Tx}, List.Sublist acc q → q.Nodup →
    q.filter (fun v => decide (v ∈ acc)) = acc := by
  intro q
  induction q with
  | nil => intro acc h _; rw [List.sublist_nil.1 h]; rfl
  | cons v q ih =>
    intro acc h hn
    obtain ⟨hv, hn⟩ := List.nodup_cons.1 hn
    cases h with
    | cons _ h =>
      rw [List.filter_cons_of_neg (by simpa using fun hm => hv (h.subset hm))]
      exact ih h hn
    | @cons_cons acc' _ _ h =>
      rw [List.filter_cons_of_pos (by simp)]
      congr 1
      refine Eq.trans (List.filter_congr fun w hw => ?_) (ih h hn)
      have : w ≠ v := fun e => hv (e ▸ hw)
      simp [this]

theorem agree (hk : OutKnown B) (hl : DoesAll l B V) (hc : DoesAll c B T) (hS : Survive l c S)
    (he : l = q ++ t :: post) (hq : DoesAll q B Lq) (ht : Does t Lq Lt) (hs : S t = true)
    (hacc : DoesAll acc T ver) (hsub : List.Sublist acc q) (hin : ∀ v ∈ q, S v = true → v ∈ acc) :
    ∀ a ∈ acts t, ver a.cell = Lq a.cell := by
  intro a ha
  have htl : t ∈ l := by rw [he]; simp
  have hinq : ∀ v ∈ q, v ∈ l := fun v hv => by rw [he]; simp [hv]
  have hidc := hS.out t htl hs
  have hkq := hq.outKnown hk
  have hkT := hc.outKnown hk
  have hkv := hacc.outKnown hkT
  have hidq : t.id ∉ q.map Tx.id := by
    intro h
    obtain ⟨v, hv, e⟩ := List.mem_map.1 h
    have := (hq.known.1 v hv).2
    rw [e, ht.known.1] at this
    exact this rfl
  have hida : t.id ∉ acc.map Tx.id := fun h => hidq ((hsub.map Tx.id).subset h)
  have hknown : ver (.known t.id) = 0 := by
    rw [hacc.known.2.2 _ hida, hc.known.2.2 _ hidc, ← hq.known.2.2 _ hidq, ht.known.1]
  -- what a transaction in front provides is there
  have parent : ∀ v ∈ q, DependsOn v t → v ∈ acc ∨ ∃ u ∈ c, acts v = acts u ∧ v.id = u.id := by
    intro v hv hd
    rcases parents_at hS.parents he hv hd hs with h | h
    · exact .inl (hin v hv h)
    · obtain ⟨u, hu, e⟩ := List.mem_map.1 h
      exact .inr ⟨u, hu, hS.same v (hinq v hv) u hu e.symm, e.symm⟩
  have hfree := fun (hw : a.old ≠ a.new) => block_free hk hl hc hS htl hs ha hw
  have hclean := fun (hw : a.old ≠ a.new) => before_clean hk hq ht hw ha
  have nonces : ∀ x : Cell, x.counts = true → a.cell = x → ver x = Lq x := by
    intro x hx hax
    have hmem : a ∈ on x (acts t) := mem_on.2 ⟨ha, hax⟩
    obtain ⟨c1, c2, c3⟩ := ht.count hx
    have hpos := List.length_pos_of_mem hmem
    have hTle : T x ≤ Lq x := by
      by_contra hlt
      have hB : B x ≤ Lq x := hq.count_mono hx
      obtain ⟨w, hw, y, hy, hyx, hyo⟩ := hc.count_user hx (m := Lq x) hB (by omega)
      obtain ⟨z, hz, hzo⟩ := c3 (Lq x) (le_refl _) (by omega)
      have hzn := (ht.count_all hx z hz).1
      have hyn : y.new = y.old + 1 := (by
        obtain ⟨p1, p2, e⟩ := List.append_of_mem hw
        have h' := hc
        rw [e] at h'
        obtain ⟨M1, g1, M2, g2, -⟩ := doesAll_append.1 h'
        exact (g2.count_all hx y (mem_on.2 ⟨hy, hyx⟩)).1)
      have hzx := (mem_on.1 hz).2
      have : z = y := by
        cases z; cases y
        simp only [Act.mk.injEq] at *
        refine ⟨hzx.trans hyx.symm, by omega, by omega⟩
      refine block_free hk hl hc hS htl hs (mem_on.1 hz).1 (by omega) w hw (this ▸ hy)
    have hnd : q.Nodup := List.Nodup.of_map _ hq.known.2.1
    have hfil : q.filter (fun v => decide (v ∈ acc)) = acc :=
      filter_mem_sublist hsub hnd
    have hmax := count_max hx (fun v => decide (v ∈ acc)) q (T := T) (M := ver) hq (by rw [hfil]; exact hacc)
      (hc.count_mono hx) (fun v hv b hb hbx hle => by
        have hlt := (hq.count_there hv hb (by rw [hbx]; exact hx)).2
        rw [hbx] at hlt
        have := nonce_chain hl hc hS he hq ht hs hx (ne_nil_of_mem hmem) (Lq x - b.old - 1) b.old (by omega) hle
          v hv b hb hbx rfl
        exact decide_eq_true (hin v hv this))
    omega
  have made : ∀ d : Dep, a.cell = .made d → ver (.made d) = Lq (.made d) := by
    intro d had
    by_cases hL : Lq (.made d) = 0
    · -- the survivor makes it
      have hm : Act.make (.made d) ∈ acts t := by
        rcases ht.made_all a (mem_on.2 ⟨ha, had⟩) with h | h
        · by_contra hno
          have hall : ∀ y ∈ on (.made d) (acts t), y.old = y.new := fun y hy => by
            rcases ht.made_all y hy with rfl | rfl
            · rfl
            · exact absurd (mem_on.1 hy).1 hno
          have e1 := val_read hall (ht.at (.made d))
          have e2 := ht.made_there ha had
          omega
        · rw [h] at ha; exact ha
      have f1 := block_free hk hl hc hS htl hs hm (by simp [Act.make])
      have f2 := before_clean hk hq ht (a := .make (.made d)) (by simp [Act.make]) hm
      have e1 : Lq (.made d) = B (.made d) := by
        by_contra h
        obtain ⟨v, hv, h⟩ := hq.made_origin h
        exact f2 v hv h
      have e2 : T (.made d) = B (.made d) := by
        by_contra h
        obtain ⟨v, hv, h⟩ := hc.made_origin h
        exact f1 v hv h
      have e3 : ver (.made d) = T (.made d) := by
        by_contra h
        obtain ⟨v, hv, h⟩ := hacc.made_origin h
        exact f2 v (hsub.subset hv) h
      omega
    · have hno : Act.make (.made d) ∉ acts t := fun h => hL (ht.make_fresh h)
      have hneed : Act.need (.made d) ∈ acts t := by
        rcases ht.made_all a (mem_on.2 ⟨ha, had⟩) with h | h
        · rw [h] at ha; exact ha
        · rw [h] at ha; exact absurd ha hno
      have hreq : d ∈ t.required := by
        have := kind_acts ht.nonces hneed
        generalize hqq : Act.need (.made d) = z at this
        cases this <;> simp [Act.make, Act.use, Act.need] at hqq
        subst hqq; assumption
      have hL1 : Lq (.made d) = 1 := by
        have e1 := ht.made_there hneed rfl
        have e2 := val_read (fun y hy => by
          rcases ht.made_all y hy with rfl | rfl
          · rfl
          · exact absurd (mem_on.1 hy).1 hno) (ht.at (.made d))
        omega
      rw [hL1]
      by_cases hB : Lq (.made d) = B (.made d)
      · exact hacc.made_keep (hc.made_keep (by omega))
      · obtain ⟨v, hv, h⟩ := hq.made_origin hB
        have hprov : d ∈ v.provided := by
          have := kind_acts ((doesAll_run.1 hq).1 v hv) h
          generalize hqq : Act.make (.made d) = z at this
          cases this <;> simp [Act.make, Act.use, Act.need] at hqq
          subst hqq; assumption
        rcases parent v hv (.inr ⟨d, hreq, hprov⟩) with g | ⟨w, hw, e1, e2⟩
        · exact hacc.made_after g h rfl
        · rw [e1] at h
          exact hacc.made_keep (hc.made_after hw h rfl)
  have kt := kind_acts ht.nonces ha
  cases kt with
  | known => exact hknown.trans ht.known.1.symm
  | @useOut u n h1 h2 =>
    have f1 := hfree (by simp [Act.use])
    have f2 := hclean (by simp [Act.use])
    have hL := (ht.out_use hkq ha).1
    show ver (.out u n) = Lq (.out u n)
    rw [hL]
    have hacc' : ∀ v ∈ acc, Act.use (.out u n) ∉ acts v := fun v hv => f2 v (hsub.subset hv)
    rcases hq.out_origin hk hL with h0 | ⟨v, hv, rfl, hm⟩
    · exact hacc.out_keep hkT (hc.out_keep hk h0 f1) hacc'
    · rcases parent v hv (.inl h2) with h | ⟨w, hw, e1, e2⟩
      · exact hacc.out_after hkT h hm hacc'
      · rw [e1] at hm
        rw [e2] at hm f1 hacc' ⊢
        exact hacc.out_keep hkT (hc.out_after hk hw hm f1) hacc'
  | @useReward n =>
    have hL := (ht.reward_use ha).1
    show ver (.reward n) = Lq (.reward n)
    rw [hL]
    obtain ⟨g1, g2⟩ := hq.reward_origin hL
    exact hacc.reward_keep (hc.reward_keep g1 (hfree (by simp [Act.use]))) (fun v hv => g2 v (hsub.subset hv))
  | @nonceD d n h1 h2 h3 =>
    exact nonces (.nonceD d) rfl rfl
  | @nonceT d n h1 h2 h3 =>
    exact nonces (.nonceT d) rfl rfl
  | @need d h1 h2 => exact made d rfl
  | @make d h1 h2 => exact made d rfl
  | @out n =>
    show ver (.out t.id n) = Lq (.out t.id n)
    have e1 : ver (.out t.id n) = 0 := by
      by_contra h; exact hkv _ _ h hknown
    have e2 : Lq (.out t.id n) = 0 := by
      by_contra h; exact hkq _ _ h ht.known.1
    rw [e1, e2]

/-- so the survivor connects -/
theorem survivor_connects (hk : OutKnown B) (hl : DoesAll l B V) (hc : DoesAll c B T) (hS : Survive l c S)
    (he : l = q ++ t :: post) (hs : S t = true)
    (hacc : DoesAll acc T ver) (hsub : List.Sublist acc q) (hin : ∀ v ∈ q, S v = true → v ∈ acc) :
    ∃ ver', Does t ver ver' := by
  have hl' := hl
  rw [he] at hl'
  obtain ⟨Lq, hq, Lt, ht, -⟩ := doesAll_append.1 hl'
  have hag := agree hk hl hc hS he hq ht hs hacc hsub hin
  have hr := run_iff.1 ht.run
  refine ⟨fun x => if on x (acts t) = [] then ver x else Lt x, ht.nonces, run_iff.2 fun x => ?_⟩
  by_cases hx : on x (acts t) = []
  · simp [hx, valRun]
  · obtain ⟨a, ha⟩ := List.exists_mem_of_ne_nil _ hx
    have := hag a (mem_on.1 ha).1
    rw [(mem_on.1 ha).2] at this
    rw [if_neg hx, this]
    exact hr x

end Verif.TxPool
