import Verif.TxPool.Steps

/-!
# Submissions when no limit binds
-/

namespace Verif.TxPool

open Verif.Mempool

/-! ## The cluster limits -/

theorem visits_noCheck {check : Nat → Except Err Unit} : ∀ (l : List Nat) (s s' : List Nat × List Nat),
    l.foldlM (visit noCheck) s = .ok s' → s.2.length ≤ s'.2.length ∧
      ((∀ n ≤ s'.2.length, check n = .ok ()) → l.foldlM (visit check) s = .ok s') := by
  intro l
  induction l with
  | nil =>
    intro s s' h
    simp only [List.foldlM_nil, pure_eq_ok] at h
    subst h
    exact ⟨le_refl _, fun _ => rfl⟩
  | cons x l ih =>
    intro s s' h
    simp only [List.foldlM_cons] at h
    by_cases hx : x ∈ s.2
    · simp only [visit, hx, if_true, bind, Except.bind] at h
      obtain ⟨h1, h2⟩ := ih s s' h
      refine ⟨h1, fun hc => ?_⟩
      simp only [List.foldlM_cons, visit, hx, if_true, bind, Except.bind]
      exact h2 hc
    · simp only [visit, hx, if_false, bind, Except.bind, noCheck, pure, Except.pure] at h
      obtain ⟨h1, h2⟩ := ih _ s' h
      simp only [List.length_cons] at h1
      refine ⟨by omega, fun hc => ?_⟩
      simp only [List.foldlM_cons, visit, hx, if_false, bind, Except.bind, hc _ h1, pure, Except.pure]
      exact h2 hc

theorem collectLoop_noCheck {next : Nat → Except Err (List Nat)} {check : Nat → Except Err Unit} :
    ∀ (fuel : Nat) (s : List Nat × List Nat) (r : List Nat), collectLoop next noCheck fuel s = .ok r →
      s.2.length ≤ r.length ∧ ((∀ n ≤ r.length, check n = .ok ()) → collectLoop next check fuel s = .ok r) := by
  intro fuel
  induction fuel with
  | zero =>
    rintro ⟨st, r0⟩ r h
    cases st with
    | nil => simp only [collectLoop, Except.ok.injEq] at h; subst h; exact ⟨le_refl _, fun _ => rfl⟩
    | cons a st => simp [collectLoop] at h
  | succ n ih =>
    rintro ⟨st, r0⟩ r h
    cases st with
    | nil => simp only [collectLoop, Except.ok.injEq] at h; subst h; exact ⟨le_refl _, fun _ => rfl⟩
    | cons a st =>
      simp only [collectLoop, bind_eq_ok] at h
      obtain ⟨ns, h1, s', h2, h3⟩ := h
      obtain ⟨g1, g2⟩ := visits_noCheck (check := check) ns _ _ h2
      obtain ⟨k1, k2⟩ := ih s' r h3
      refine ⟨le_trans g1 k1, fun hc => ?_⟩
      simp only [collectLoop, bind_eq_ok]
      exact ⟨ns, h1, s', g2 (fun n hn => hc n (by omega)), k2 hc⟩

theorem collect_noCheck {m : BMap Nat Entry} {kind : Entry → List Nat} {check : Nat → Except Err Unit}
    {init r : List Nat} (h : collect m kind noCheck init = .ok r) (hc : ∀ n ≤ r.length, check n = .ok ()) :
    collect m kind check init = .ok r := by
  unfold collect at h ⊢
  rw [bind_eq_ok] at h ⊢
  obtain ⟨s, h1, h2⟩ := h
  obtain ⟨k1, k2⟩ := collectLoop_noCheck (check := check) _ _ _ h2
  obtain ⟨-, g2⟩ := visits_noCheck (check := check) _ _ _ h1
  exact ⟨s, g2 (fun n hn => hc n (by omega)), k2 hc⟩

theorem sumAncestors_err (m : BMap Nat Entry) : ∀ (l : List Nat) (acc : Nat × Nat),
    (∃ r, sumAncestors m l acc = .ok r) ∨ sumAncestors m l acc = .error .panic ∨
      sumAncestors m l acc = .error .ancestorFeeOverflow := by
  intro l
  induction l with
  | nil => intro acc; exact .inl ⟨_, rfl⟩
  | cons a l ih =>
    rintro ⟨f, z⟩
    unfold sumAncestors
    cases m.get a with
    | none => exact .inr (.inl rfl)
    | some e =>
      simp only
      cases Amt.add f e.tx.fee with
      | none => exact .inr (.inr rfl)
      | some f' => exact ih (f', z + e.tx.size)

theorem total_size_le (v : Mempool.Pool) (ids : Finset Nat) (P : Nat → Prop) :
    (total v ids P).2.2 ≤ (total v ids (fun _ => True)).2.2 := by
  classical
  rw [total_size, total_size]
  apply Finset.sum_le_sum
  intro k _
  by_cases h : P k <;> simp [h]

theorem sum_size (l : List (Nat × Nat × Nat)) : l.sum.2.2 = (l.map (fun x => x.2.2)).sum := by
  induction l with
  | nil => rfl
  | cons a l ih => simp [ih]

theorem total_size_inOrder {s : Store} (h : Inv s) :
    (total s.view s.ids (fun _ => True)).2.2 = ((inOrder s).map Tx.size).sum := by
  have h1 : total s.view s.ids (fun _ => True) = (((inOrder s).map Tx.id).map (weightAt s.view)).sum := by
    rw [← total_list (inOrder_nodup h) (P := fun _ => True)]
    intro k
    simp only [and_true, List.mem_map]
    constructor
    · rintro ⟨t, ht, rfl⟩
      obtain ⟨e, he, -⟩ := view_some.1 ((mem_inOrder h).1 ht)
      exact mem_ids.2 ⟨e, he⟩
    · intro hk
      obtain ⟨e, he⟩ := mem_ids.1 hk
      have hid := (h.key k e he).1
      exact ⟨e.tx, (mem_inOrder h).2 (by rw [hid]; exact view_some.2 ⟨e, he, rfl⟩), hid⟩
  rw [h1, sum_size, List.map_map, List.map_map]
  congr 1
  apply List.map_congr_left
  intro t ht
  simp [weightAt, (mem_inOrder h).1 ht, weight]

/-- with few and small transactions the cluster limits do not bind -/
theorem newEntry_room {s : Store} (h : Inv s) {t : Tx}
    (hcount : 1 + (inOrder s).length ≤ s.maxCount) (hsize : t.size + ((inOrder s).map Tx.size).sum ≤ s.maxSize) :
    newEntry s t ≠ .error .clusterTxCount ∧ newEntry s t ≠ .error .clusterTxSize := by
  have hpar : ∀ p ∈ txParents s t, p ∈ keys s.byId := by
    intro p hp
    obtain ⟨tp, hv, -⟩ := h.mem_txParents.1 hp
    obtain ⟨e, he, -⟩ := view_some.1 hv
    exact mem_keys.2 ⟨e, he⟩
  have hclC : ∀ x e, s.byId.get x = some e → ∀ y ∈ e.parents ++ e.children, y ∈ keys s.byId := by
    intro x e he y hy
    rcases List.mem_append.1 hy with hy | hy
    · exact (edge_mem (((h.parents x e he).2 y).1 hy)).1
    · exact (edge_mem (((h.children x e he).2 y).1 hy)).2
  rcases collect_spec (check := noCheck) hclC hpar with ⟨cl, c1, c2, c3, -⟩ | ⟨k, er, c1, -⟩
  swap
  · simp [noCheck] at c1
  have hmem : ∀ x ∈ cl, x ∈ s.ids := by
    intro x hx
    obtain ⟨p, hp, hpx⟩ := (c3 x).1 hx
    rcases Relation.ReflTransGen.cases_tail hpx with h1 | ⟨c, -, hc⟩
    · rw [h1]; exact hpar p hp
    · rcases h.nextRel_cluster.1 hc with h1 | h1
      · exact (edge_mem h1).2
      · exact (edge_mem h1).1
  have hids : ∀ x ∈ cl, x ∈ (inOrder s).map Tx.id := by
    intro x hx
    obtain ⟨e, he⟩ := mem_ids.1 (hmem x hx)
    have hv : s.view x = some e.tx := view_some.2 ⟨e, he, rfl⟩
    have hid := (h.key x e he).1
    refine List.mem_map.2 ⟨e.tx, (mem_inOrder h).2 ?_, hid⟩
    rw [hid]; exact hv
  have hlen : cl.length ≤ (inOrder s).length := by
    have := (List.subperm_of_subset c2 hids).length_le
    simpa using this
  have hcl := collect_noCheck (check := fun n => ensure (1 + n ≤ s.maxCount) Err.clusterTxCount) c1
    (fun n hn => by simp only [ensure]; rw [if_pos (by omega)])
  have hsz : ((cl.map (weightAt s.view)).sum).2.2 ≤ ((inOrder s).map Tx.size).sum := by
    have e1 : total s.view s.ids (· ∈ cl) = (cl.map (weightAt s.view)).sum :=
      total_list c2 (fun k => ⟨fun hk => ⟨hmem k hk, hk⟩, fun hk => hk.2⟩)
    rw [← e1, ← total_size_inOrder h]
    exact total_size_le _ _ _
  dsimp only [newEntry]
  rw [hcl]
  simp only [bind, Except.bind]
  rw [clusterSize_spec cl t.size hmem]
  simp only [ensure]
  rw [if_pos (by omega)]
  simp only
  have hclP : ∀ x e, s.byId.get x = some e → ∀ y ∈ e.parents, y ∈ keys s.byId :=
    fun x e he y hy => hclC x e he y (List.mem_append_left _ hy)
  rcases collect_spec (check := noCheck) hclP hpar with ⟨anc, a1, -⟩ | ⟨k, er, a1, -⟩
  swap
  · simp [noCheck] at a1
  rw [a1]
  simp only
  rcases sumAncestors_err s.byId anc (t.fee, t.size) with ⟨r, hr⟩ | hr | hr <;> rw [hr] <;>
    simp [pure, Except.pure]

/-! ## Expiry and size -/

theorem takeWhile_nil {α : Type} {f : α → Bool} {l : List α} (h : ∀ x ∈ l, f x = false) : l.takeWhile f = [] := by
  cases l with
  | nil => rfl
  | cons a l => rw [List.takeWhile_cons, h a (by simp)]; rfl

theorem removeExpired_none (env : Env) (now : Nat) {p : Pool} (h : Sound p)
    (hy : ∀ t ∈ inOrder p.store, now - t.time ≤ env.maxAge) : removeExpired env now p = .ok p := by
  unfold removeExpired
  have : (p.store.byTime.entries.map (fun q => ofLex q.1)).takeWhile
      (fun q => decide (now - q.1 > env.maxAge)) = [] := by
    refine takeWhile_nil fun x hm => ?_
    simp only [decide_eq_false_iff_not, gt_iff_lt, not_lt]
    obtain ⟨⟨key, u⟩, hk, hke⟩ := List.mem_map.1 hm
    have h3 : p.store.byTime.get key = some () := BMap.mem_entries.1 hk
    have h4 := (h.inv.byTime (ofLex key).1 (ofLex key).2).1 h3
    rw [← hke]
    simp only [Option.map_eq_some_iff] at h4
    obtain ⟨e, he, ht⟩ := h4
    rw [← ht]
    refine hy e.tx ((mem_inOrder h.inv).2 ?_)
    have hid := (h.inv.key _ e he).1
    rw [hid]; exact view_some.2 ⟨e, he, rfl⟩
  rw [this]
  rfl

/-- with room, a submission that connects is taken, and nothing else is thrown out -/
theorem submit_room {env : Env} {now : Nat} {pays : Tx → Bool} {p : Pool} (h : Sound p) {t : Tx}
    (hpre : preliminary env t = true) (hpays : pays t = true) (hnew : t.id ∉ (inOrder p.store).map Tx.id)
    (hcnt : 1 + (inOrder p.store).length ≤ p.store.maxCount)
    (hsize : t.size + ((inOrder p.store).map Tx.size).sum ≤ p.store.maxSize)
    (hfit : (((inOrder p.store).map Tx.fee).sum + t.fee) * 1000 < U128)
    (hyoung : ∀ x ∈ inOrder p.store ++ [t], now - x.time ≤ env.maxAge)
    (hmem : ∀ s : Store, inOrder s = inOrder p.store ++ [t] → env.mem s ≤ p.limit) :
    ∃ a p', submit env now pays p t = .ok (a, p') ∧ Sound p' ∧ SameFrame p p' ∧
      ((connect p.tip p.ver t).isSome = false ∧ p' = p ∨
        (connect p.tip p.ver t).isSome = true ∧ a = .added ∧ inOrder p'.store = inOrder p.store ++ [t]) := by
  have hfresh : p.store.view t.id = none := by
    cases hv : p.store.view t.id with
    | none => rfl
    | some x =>
      exfalso
      obtain ⟨e, he, rfl⟩ := view_some.1 hv
      have hid := (h.inv.key _ e he).1
      exact hnew (List.mem_map.2 ⟨e.tx, (mem_inOrder h.inv).2 (by rw [hid]; exact hv), hid⟩)
  unfold submit
  rw [if_neg (by rw [view_none.1 hfresh]; simp), if_neg (by simp [hpre])]
  cases hcon : connect p.tip p.ver t with
  | none => exact ⟨_, _, rfl, h, .refl p, .inl ⟨rfl, rfl⟩⟩
  | some v' =>
    simp only
    obtain ⟨hok, hd⟩ := connect_eq.1 hcon
    have hff : feesFit p t = true := decide_eq_true hfit
    rw [if_neg (by rw [hpays, hff]; decide)]
    have hsz : 0 < t.size := by
      simp only [preliminary, Bool.and_eq_true, decide_eq_true_eq] at hpre
      exact hpre.1.1.2
    rw [if_neg (by
      rw [List.any_eq_true]
      rintro ⟨d, hd1, hd2⟩
      rw [no_conflict h hd d hd1] at hd2
      simp at hd2)]
    have hroom := newEntry_room h.inv hcnt hsize
    have hadd := addable h hd hfresh hsz (no_conflict h hd) hff
    rcases h.inv.add_spec_entry hadd with (h4 | h4) | ⟨s1, -, h4, -⟩
    · exact absurd h4 hroom.1
    · exact absurd h4 hroom.2
    rcases add_step h hok hd hfresh hsz hff with (g | g) | ⟨s', h4', h5, h6, h7, h8⟩
    · rw [h4] at g; cases g
    · rw [h4] at g; cases g
    rw [h4']
    have hexp := removeExpired_none env now h5 (by simp only [h7]; exact hyoung)
    simp only [hexp, bind, Except.bind]
    have hthere : ∃ e, s'.byId.get t.id = some e := by
      have := h8 t.id
      rw [if_pos rfl] at this
      obtain ⟨e, he, -⟩ := view_some.1 this
      exact ⟨e, he⟩
    obtain ⟨e, he⟩ := hthere
    rw [if_neg (by rw [he]; simp)]
    obtain ⟨p3, k1, -, -, -, -, k6⟩ := trim_spec env h5
    have hp3 := k6 (hmem s' h7)
    subst hp3
    simp only [k1]
    rw [if_neg (by rw [he]; simp)]
    exact ⟨_, _, rfl, h5, h6, .inr ⟨rfl, rfl, h7⟩⟩

end Verif.TxPool
