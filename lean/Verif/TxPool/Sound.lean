import Verif.TxPool.Order

/-! # The verifier agrees with the store -/

namespace Verif.TxPool

open Verif.Mempool
open Verif (BMap)

/-- the transactions of the store, in the order of arrival, take the ledger of the tip to that of the verifier -/
structure Sound (p : Pool) : Prop where
  inv : Inv p.store
  known : OutKnown p.tip.ledger
  conn : DoesAll (inOrder p.store) p.tip.ledger p.ver
  ok : ∀ t ∈ inOrder p.store, p.tip.ok t = true

/-- the same pool except for the contents -/
structure SameFrame (p p' : Pool) : Prop where
  tip : p'.tip = p.tip
  limit : p'.limit = p.limit
  count : p'.store.maxCount = p.store.maxCount
  size : p'.store.maxSize = p.store.maxSize

theorem SameFrame.refl (p : Pool) : SameFrame p p := ⟨rfl, rfl, rfl, rfl⟩
theorem SameFrame.trans {p q r : Pool} (h : SameFrame p q) (h' : SameFrame q r) : SameFrame p r :=
  ⟨h'.tip.trans h.tip, h'.limit.trans h.limit, h'.count.trans h.count, h'.size.trans h.size⟩

theorem map_some_eq {es : List Entry} {l : List Nat} {v : Mempool.Pool}
    (h : es.map (fun e => some e.tx) = l.map v) (hv : ∀ k t, v k = some t → t.id = k) :
    l = (es.map Entry.tx).map Tx.id := by
  induction es generalizing l with
  | nil => cases l with
    | nil => rfl
    | cons a l => simp at h
  | cons e es ih =>
    cases l with
    | nil => simp at h
    | cons a l =>
      simp only [List.map_cons, List.cons.injEq] at h ⊢
      exact ⟨(hv a e.tx h.1.symm).symm, ih h.2⟩

open Classical in
theorem remove_spec {p : Pool} (h : Sound p) (n : Nat) (r : Reason) :
    ∃ p' es, remove p n r = .ok p' ∧ Sound p' ∧ SameFrame p p' ∧
      dropWithDescendants p.store n r = .ok (es, p'.store) ∧
      (∀ k, p'.store.view k = if Reach p.store.view n k then none else p.store.view k) ∧
      inOrder p'.store = (inOrder p.store).filter (fun t => (p'.store.view t.id).isSome) := by
  obtain ⟨es, s', h1, h2, h3, ⟨l, hl1, hl2, hl3, hl4⟩, h5, h6, -, h8⟩ := h.inv.drop_spec n r
  have hvid : ∀ k t, p.store.view k = some t → t.id = k := by
    intro k t hv
    obtain ⟨e, he, rfl⟩ := view_some.1 hv
    exact (h.inv.key k e he).1
  have hl := map_some_eq hl2 hvid
  have huniq : ∀ a ∈ inOrder p.store, ∀ b ∈ inOrder p.store, a.id = b.id → a = b := by
    intro a ha b hb e
    have h1 := (mem_inOrder h.inv).1 ha
    rw [e, (mem_inOrder h.inv).1 hb] at h1
    exact (Option.some.inj h1).symm
  have hsub : ∀ e ∈ es.map Entry.tx, e ∈ inOrder p.store := by
    intro t ht
    have : some t ∈ l.map p.store.view := by
      rw [← hl2]
      obtain ⟨e, he, rfl⟩ := List.mem_map.1 ht
      exact List.mem_map.2 ⟨e, he, rfl⟩
    obtain ⟨k, -, hk⟩ := List.mem_map.1 this
    rw [mem_inOrder h.inv, hvid k t hk]; exact hk
  have hmem : ∀ t ∈ inOrder p.store, (t ∈ es.map Entry.tx ↔ Reach p.store.view n t.id) := by
    intro t ht
    constructor
    · intro hm
      have : t.id ∈ l := by rw [hl]; exact List.mem_map_of_mem hm
      exact ((hl3 t.id).1 this).2
    · intro hr
      obtain ⟨e, he, -⟩ := view_some.1 ((mem_inOrder h.inv).1 ht)
      have : t.id ∈ l := (hl3 t.id).2 ⟨mem_ids.2 ⟨e, he⟩, hr⟩
      rw [hl] at this
      obtain ⟨t', ht', e'⟩ := List.mem_map.1 this
      rw [← huniq t' (hsub t' ht') t ht e']; exact ht'
  obtain ⟨M, hM1, hM2⟩ := disconnectAll_spec h.known h.conn hsub
    (by rw [hl] at hl1; exact List.Nodup.of_map _ hl1)
    (by
      intro pre x post hs c hc hcx hdep
      have hx : x ∈ inOrder p.store := hsub x (by rw [hs]; simp)
      have h9 := hl4 (pre.map Tx.id) x.id (post.map Tx.id) (by rw [hl, hs]; simp) c.id
        ⟨fun e => hcx (huniq x hx c hc e).symm, x, c, (mem_inOrder h.inv).1 hx, (mem_inOrder h.inv).1 hc, hdep⟩
      obtain ⟨c', hc', e'⟩ := List.mem_map.1 h9
      rw [← huniq c' (hsub c' (by rw [hs]; simp [hc'])) c hc e']; exact hc')
  have hvs : ∀ k t, s'.view k = some t → p.store.view k = some t := by
    intro k t hk
    rw [h3] at hk
    split at hk
    · cases hk
    · exact hk
  have hord := inOrder_drop h.inv h2 hvs h8
  have hfil : (inOrder p.store).filter (fun t => t ∉ es.map Entry.tx) = inOrder s' := by
    rw [hord]
    apply List.filter_congr
    intro t ht
    rw [h3]
    by_cases hr : Reach p.store.view n t.id
    · have := (hmem t ht).2 hr
      rw [if_pos hr]; simp only [Option.isSome_none, decide_eq_false_iff_not, not_not]; exact this
    · have := fun hm => hr ((hmem t ht).1 hm)
      rw [if_neg hr, (mem_inOrder h.inv).1 ht]; simp only [Option.isSome_some, decide_eq_true_eq]; exact this
  rw [hfil] at hM2
  refine ⟨{ p with store := s', ver := M }, es, ?_, ?_, ⟨rfl, rfl, h5, h6⟩, h1, h3, hord⟩
  · unfold remove
    rw [h1]
    simp only [liftErr]
    show (do let v' ← disconnectAll (es.map Entry.tx) p.ver; pure { p with store := s', ver := v' }) = _
    rw [hM1]; rfl
  · refine ⟨h2, h.known, hM2, fun t ht => h.ok t ?_⟩
    simp only [hord, List.mem_filter] at ht
    exact ht.1

/-- what is left is a part of what was there, in the same order -/
def Within (p p' : Pool) : Prop :=
  List.Sublist (inOrder p'.store) (inOrder p.store)

theorem within_view {p p' : Pool} (h : Sound p) (h' : Sound p') (hw : Within p p') {k : Nat} {t : Tx}
    (hk : p'.store.view k = some t) : p.store.view k = some t := by
  obtain ⟨e, he, rfl⟩ := view_some.1 hk
  have hid := (h'.inv.key k e he).1
  have h1 : e.tx ∈ inOrder p'.store := (mem_inOrder h'.inv).2 (by rw [hid]; exact hk)
  have h2 := (mem_inOrder h.inv).1 (hw.subset h1)
  rw [hid] at h2; exact h2

theorem removeMany_spec {r : Reason} : ∀ (l : List (Nat × Nat)) (p : Pool), Sound p →
    ∃ p', l.foldlM (fun p q => remove p q.2 r) p = .ok p' ∧ Sound p' ∧ SameFrame p p' ∧ Within p p' ∧
      l.foldlM (fun s q => do let r ← dropWithDescendants s q.2 r; pure r.2) p.store = .ok p'.store := by
  intro l
  induction l with
  | nil => intro p h; exact ⟨p, rfl, h, .refl p, List.Sublist.refl _, rfl⟩
  | cons q l ih =>
    intro p h
    obtain ⟨p1, es, h1, h2, h3, h4, -, h6⟩ := remove_spec h q.2 r
    obtain ⟨p2, g1, g2, g3, g4, g5⟩ := ih p1 h2
    refine ⟨p2, ?_, g2, h3.trans g3, g4.trans (by rw [h6]; exact List.filter_sublist), ?_⟩
    · rw [List.foldlM_cons, h1]; exact g1
    · rw [List.foldlM_cons, h4]; exact g5

theorem removeExpired_spec (env : Env) (now : Nat) {p : Pool} (h : Sound p) :
    ∃ p', removeExpired env now p = .ok p' ∧ Sound p' ∧ SameFrame p p' ∧ Within p p' ∧
      Mempool.removeExpired p.store now env.maxAge = .ok p'.store := by
  obtain ⟨p', h1, h2, h3, h4, h5⟩ := removeMany_spec (r := .expiry)
    ((p.store.byTime.entries.map (fun q => ofLex q.1)).takeWhile (fun q => decide (now - q.1 > env.maxAge))) p h
  exact ⟨p', h1, h2, h3, h4, h5⟩

theorem trim_follows (env : Env) : ∀ (n : Nat) (p : Pool), Sound p → ∀ qs s',
    Mempool.trim env.mem p.limit n p.store = .ok (qs, s') →
    ∃ p', trim env n p = .ok p' ∧ Sound p' ∧ SameFrame p p' ∧ Within p p' ∧ p'.store = s' := by
  intro n
  induction n with
  | zero =>
    intro p h qs s' hs
    unfold Mempool.trim at hs
    unfold trim
    split at hs
    · rename_i hc
      rw [if_pos hc]
      cases hs
      exact ⟨p, rfl, h, .refl p, List.Sublist.refl _, rfl⟩
    · simp at hs
  | succ n ih =>
    intro p h qs s' hs
    unfold Mempool.trim at hs
    unfold trim
    split at hs
    · rename_i hc
      rw [if_pos hc]
      cases hs
      exact ⟨p, rfl, h, .refl p, List.Sublist.refl _, rfl⟩
    · rename_i hc
      rw [if_neg hc]
      simp only at hs ⊢
      split at hs
      · simp at hs
      · rename_i q _ _ heq
        simp only [heq]
        split at hs
        · simp at hs
        · simp only [bind_eq_ok, pure_eq_ok] at hs
          obtain ⟨_, -, r, h2, ⟨qs', s''⟩, h3, h4⟩ := hs
          obtain ⟨p1, es, g1, g2, g3, g4, -, g6⟩ := remove_spec h (ofLex q).2 .sizeLimit
          rw [h2] at g4
          cases g4
          simp only at h3
          rw [← g3.limit] at h3
          obtain ⟨p2, k1, k2, k3, k4, k5⟩ := ih p1 g2 _ _ h3
          refine ⟨p2, ?_, k2, g3.trans k3, k4.trans (by rw [g6]; exact List.filter_sublist), ?_⟩
          · rw [g1]; exact k1
          · rw [k5]; cases h4; rfl

theorem trim_spec (env : Env) {p : Pool} (h : Sound p) :
    ∃ p', trim env p.store.byId.size p = .ok p' ∧ Sound p' ∧ SameFrame p p' ∧ Within p p' ∧
      ((∀ k, p'.store.view k = none) ∨ env.mem p'.store ≤ p.limit) ∧
      (env.mem p.store ≤ p.limit → p' = p) := by
  obtain ⟨qs, s', h1, -, -, h4, -⟩ := Inv.trim_spec env.mem p.limit p.store.byId.size p.store h.inv (le_refl _)
  obtain ⟨p', g1, g2, g3, g4, g5⟩ := trim_follows env _ p h qs s' h1
  refine ⟨p', g1, g2, g3, g4, ?_, ?_⟩
  · rw [g5]
    refine h4.imp (fun h0 k => ?_) id
    rw [view_none]
    cases hk : s'.byId.get k with
    | none => rfl
    | some e =>
      have := mem_ids.2 ⟨e, hk⟩
      rw [h0] at this; simp at this
  · intro hm
    unfold trim at g1
    rw [if_pos (.inr hm)] at g1
    exact (Except.ok.inj g1).symm

/-! ## Adding -/

theorem DoesAll.made_there {ts : List Tx} {L L' : Ledger} (h : DoesAll ts L L') {t : Tx} (ht : t ∈ ts) {x : Act}
    (hx : x ∈ acts t) {d : Dep} (hc : x.cell = .made d) : L' (.made d) ≠ 0 := by
  obtain ⟨pre, post, rfl⟩ := List.append_of_mem ht
  obtain ⟨M, -, N, h2, h3⟩ := doesAll_append.1 h
  exact h3.made_stays (by rw [h2.made_there hx hc]; decide)

theorem DoesAll.count_there {ts : List Tx} {L L' : Ledger} (h : DoesAll ts L L') {t : Tx} (ht : t ∈ ts) {x : Act}
    (hx : x ∈ acts t) (hc : x.cell.counts = true) : L x.cell ≤ x.old ∧ x.old < L' x.cell := by
  obtain ⟨pre, post, rfl⟩ := List.append_of_mem ht
  obtain ⟨M, h1, N, h2, h3⟩ := doesAll_append.1 h
  have := (h2.count hc).2.1 x (mem_on.2 ⟨hx, rfl⟩)
  have := h1.count_le hc
  have := h3.count_le hc
  omega

theorem DoesAll.use_known {ts : List Tx} {L L' : Ledger} (h : DoesAll ts L L') (hk : OutKnown L) {t : Tx}
    (ht : t ∈ ts) {u n : Nat} (hx : Act.use (.out u n) ∈ acts t) : L' (.known u) ≠ 0 := by
  obtain ⟨pre, post, rfl⟩ := List.append_of_mem ht
  obtain ⟨M, h1, N, h2, h3⟩ := doesAll_append.1 h
  have hk' := h1.outKnown hk
  exact h3.known_stays (h2.known_stays (hk' u n (by rw [(h2.out_use hk' hx).1]; decide)))

/-- no step of the kinds that change something is done twice -/
theorem Does.nodup_sub {t : Tx} {L L' : Ledger} (h : Does t L L') (hk : OutKnown L) {M : List Act}
    (hM : List.Sublist M (acts t))
    (hkind : ∀ a ∈ M, (∃ u n, a = .use (.out u n)) ∨ a.cell.counts = true ∨ ∃ d, a = .make (.made d)) : M.Nodup := by
  rw [List.nodup_iff_sublist]
  intro a ha
  have hmem : a ∈ M := ha.subset (by simp)
  have h1 : List.Sublist [a, a] (on a.cell (acts t)) := by
    have := (ha.trans hM).filter (fun x => decide (x.cell = a.cell))
    simpa [on] using this
  obtain ⟨r1, r2, hr, h2, h3⟩ := List.cons_sublist_iff.1 h1
  have h3' : a ∈ r2 := by simpa using h3
  have hat := h.at a.cell
  rcases hkind a hmem with ⟨u, n, rfl⟩ | hc | ⟨d, rfl⟩
  · have hu : Act.use (.out u n) ∈ acts t := hM.subset hmem
    have hne := (h.out_use hk hu).2.2
    have h4 := val_once (o := 1) (w := 0) (by decide) (fun x hx => by
      rw [mem_on, acts_eq, List.mem_append] at hx
      rcases hx with ⟨hx | hx, hc⟩
      · rw [ins_out hx hc]; exact ⟨rfl, rfl⟩
      · exact absurd (out_outs x (mem_on.2 ⟨hx, hc⟩)).2 hne) hat (ne_nil_of_mem (mem_on.2 ⟨hu, rfl⟩))
    have h5 := h4.2.2
    rw [hr, List.length_append] at h5
    have := List.length_pos_of_mem h2
    have := List.length_pos_of_mem h3'
    omega
  · have hall := h.count_all hc
    rw [hr, valRun_append] at hat
    rw [hr] at hall
    cases hv : valRun r1 (L a.cell) with
    | none => rw [hv] at hat; simp at hat
    | some m =>
      rw [hv] at hat
      have g1 := (val_count (fun x hx => (hall x (by simp [hx])).1) hv).2.1 a h2
      have g2 := (val_count (fun x hx => (hall x (by simp [hx])).1) hat).2.1 a h3'
      omega
  · have hall := h.made_all (d := d)
    have hcell : (Act.make (.made d)).cell = .made d := rfl
    rw [hcell] at hat hr
    rw [hr, valRun_append] at hat
    rw [hr] at hall
    cases hv : valRun r1 (L (.made d)) with
    | none => rw [hv] at hat; simp at hat
    | some m =>
      rw [hv] at hat
      have hm : m = 1 := by
        rcases val_const (w := 1) (fun x hx => by
          rcases hall x (by simp [hx]) with rfl | rfl <;> rfl) hv with ⟨e, -⟩ | ⟨-, e⟩
        · rw [e] at h2; simp at h2
        · exact e
      have := val_no_make (v := m) (by omega) (fun x hx => hall x (by simp [hx])) hat _ h3'
      simp [Act.make, Act.need] at this

theorem consumed_nodup {t : Tx} {L L' : Ledger} (h : Does t L L') (hk : OutKnown L) : t.consumed.Nodup := by
  apply List.Nodup.of_map consumeAct
  apply h.nodup_sub hk (consumed_sublist t)
  intro a ha
  obtain ⟨d, hd, rfl⟩ := List.mem_map.1 ha
  have hc := (mem_consumed.1 hd).2
  cases d <;> simp [Dep.isConsumed] at hc
  · exact .inl ⟨_, _, rfl⟩
  · exact .inr (.inl rfl)
  · exact .inr (.inl rfl)

theorem provided_nodup {t : Tx} {L L' : Ledger} (h : Does t L L') (hk : OutKnown L) : t.provided.Nodup := by
  apply List.Nodup.of_map provideAct
  apply h.nodup_sub hk (provided_sublist t)
  intro a ha
  obtain ⟨d, hd, rfl⟩ := List.mem_map.1 ha
  rcases (provided_act hd).2 with hc | ⟨e, n, rfl⟩ | ⟨e, n, rfl⟩
  · right; right
    refine ⟨d, ?_⟩
    cases d <;> simp [Dep.isConsumed] at hc <;> rfl
  · exact .inr (.inl rfl)
  · exact .inr (.inl rfl)

/-- a transaction that passes the checks of the pool meets everything the store relies on -/
theorem addable {p : Pool} (h : Sound p) {t : Tx} {v' : Ledger} (hd : Does t p.ver v')
    (hfresh : p.store.view t.id = none) (hsize : 0 < t.size)
    (hconf : ∀ d ∈ t.consumed, p.store.spender.get d = none) (hfit : feesFit p t = true) : Addable p.store t := by
  have hk := h.conn.outKnown h.known
  have hbad : ∀ u ∈ inOrder p.store, ∀ d ∈ t.provided, consumeAct d ∉ acts u ∧ provideAct d ∉ acts u := by
    intro u hu d hdp
    obtain ⟨ha, hc⟩ := provided_act hdp
    rcases hc with hc | ⟨e, n, rfl⟩ | ⟨e, n, rfl⟩
    · have e1 : provideAct d = .make (.made d) := by cases d <;> simp [Dep.isConsumed] at hc <;> rfl
      have e2 : consumeAct d = .need (.made d) := by cases d <;> simp [Dep.isConsumed] at hc <;> rfl
      rw [e1] at ha
      have h0 := hd.make_fresh ha
      rw [e1, e2]
      exact ⟨fun hx => h.conn.made_there hu hx rfl h0, fun hx => h.conn.made_there hu hx rfl h0⟩
    · have h0 := ((hd.count (c := .nonceD e) rfl).2.1 _ (mem_on.2 ⟨ha, rfl⟩)).1
      simp only [provideAct, Nat.add_sub_cancel] at h0
      constructor
      · intro hx
        have h1 := (h.conn.count_there hu hx rfl).2
        simp only [consumeAct] at h1
        omega
      · intro hx
        have h1 := (h.conn.count_there hu hx rfl).2
        simp only [provideAct, Nat.add_sub_cancel] at h1
        omega
    · have h0 := ((hd.count (c := .nonceT e) rfl).2.1 _ (mem_on.2 ⟨ha, rfl⟩)).1
      simp only [provideAct, Nat.add_sub_cancel] at h0
      constructor
      · intro hx
        have h1 := (h.conn.count_there hu hx rfl).2
        simp only [consumeAct] at h1
        omega
      · intro hx
        have h1 := (h.conn.count_there hu hx rfl).2
        simp only [provideAct, Nat.add_sub_cancel] at h1
        omega
  have hview : ∀ k u, p.store.view k = some u → u ∈ inOrder p.store := by
    intro k u hv
    obtain ⟨e, he, rfl⟩ := view_some.1 hv
    rw [mem_inOrder h.inv, (h.inv.key k e he).1]; exact hv
  refine ⟨hfresh, hsize, hconf, consumed_nodup hd hk, ?_, provided_nodup hd hk, ?_, ?_⟩
  · intro d hdp
    cases hg : p.store.provider.get d with
    | none => rfl
    | some k =>
      obtain ⟨e, he, hde⟩ := (h.inv.provider d k).1 hg
      exact absurd (provided_act hde).1 (hbad e.tx (hview k _ (view_some.2 ⟨e, he, rfl⟩)) d hdp).2
  · intro k u hv hdep
    have hu := hview k u hv
    rcases hdep with hs | ⟨d, hd1, hd2⟩
    · obtain ⟨n, hn⟩ := source_act hs
      exact h.conn.use_known h.known hu hn hd.known.1
    · exact (hbad u hu d hd2).1 (required_act hd1)
  · rw [total_inOrder h.inv]
    simpa [feesFit] using hfit

end Verif.TxPool
