import Verif.TxOrphans.Pool

/-! # The operations of the orphan pool -/

namespace Verif.TxOrphans
open Verif.Mempool (Dep Tx)

/-! ### Ranges of an index -/

theorem lex_le {K : Type} [LinearOrder K] {a b : K} {i j : Nat} :
    (toLex (a, i) : K ×ₗ Nat) ≤ toLex (b, j) ↔ a < b ∨ (a = b ∧ i ≤ j) := by
  rw [Prod.Lex.le_iff]
  exact Iff.rfl

theorem mem_range {K : Type} [LinearOrder K] {m : Index K} {f : Slots} {keys : Entry → List K} (h : IdxOk m f keys)
    (hb : ∀ i e, f i = some e → i ≤ maxIid) (a b : K) (i : Nat) :
    i ∈ Index.range m a b ↔ ∃ e k, f i = some e ∧ k ∈ keys e ∧ a ≤ k ∧ k ≤ b := by
  unfold Index.range
  rw [List.mem_map]
  constructor
  · rintro ⟨⟨k, u⟩, hx, hi⟩
    rw [List.mem_filter] at hx
    obtain ⟨hx1, hx2⟩ := hx
    rw [Bool.and_eq_true, decide_eq_true_iff, decide_eq_true_iff] at hx2
    have hg := BMap.mem_entries.1 hx1
    obtain ⟨k', i'⟩ := k
    have hi' : i' = i := hi
    subst hi'
    obtain ⟨e, he, hk⟩ := (h k' i').1 hg
    refine ⟨e, k', he, hk, ?_, ?_⟩
    · rcases lex_le.1 hx2.1 with h1 | h1
      · exact le_of_lt h1
      · exact le_of_eq h1.1
    · rcases lex_le.1 hx2.2 with h1 | h1
      · exact le_of_lt h1
      · exact le_of_eq h1.1
  · rintro ⟨e, k, he, hk, h1, h2⟩
    refine ⟨(toLex (k, i), ()), ?_, rfl⟩
    rw [List.mem_filter]
    refine ⟨BMap.mem_entries.2 ((h k i).2 ⟨e, he, hk⟩), ?_⟩
    rw [Bool.and_eq_true, decide_eq_true_iff, decide_eq_true_iff]
    constructor
    · rcases lt_or_eq_of_le h1 with h3 | h3
      · exact lex_le.2 (Or.inl h3)
      · exact lex_le.2 (Or.inr ⟨h3, Nat.zero_le _⟩)
    · rcases lt_or_eq_of_le h2 with h3 | h3
      · exact lex_le.2 (Or.inl h3)
      · exact lex_le.2 (Or.inr ⟨h3, hb i e he⟩)

theorem dep_le {a b : Dep} : a ≤ b ↔ Dep.key a ≤ Dep.key b := Iff.rfl

theorem txOutput_range {t n : Nat} {d : Dep} (h1 : Dep.txOutput t 0 ≤ d) (h2 : d ≤ Dep.txOutput t n) :
    ∃ i, i ≤ n ∧ d = .txOutput t i := by
  rw [dep_le] at h1 h2
  cases d with
  | txOutput t' i =>
    simp only [Dep.key] at h1 h2
    rw [Prod.Lex.le_iff] at h1 h2
    simp only [ofLex_toLex] at h1 h2
    rcases h1 with h1 | ⟨_, h1⟩
    · exact absurd h1 (Nat.lt_irrefl _)
    rcases h2 with h2 | ⟨_, h2⟩
    · exact absurd h2 (Nat.lt_irrefl _)
    rw [lex_le] at h1 h2
    have : t = t' := by
      rcases h1 with h1 | h1 <;> rcases h2 with h2 | h2 <;> omega
    subst this
    refine ⟨i, ?_, rfl⟩
    rcases h2 with h2 | h2
    · exact absurd h2 (Nat.lt_irrefl _)
    · exact h2.2
  | _ =>
    exfalso
    simp only [Dep.key] at h2
    rw [Prod.Lex.le_iff] at h2
    simp at h2

theorem txOutput_le {t i n : Nat} (h : i ≤ n) : Dep.txOutput t i ≤ Dep.txOutput t n := by
  rw [dep_le]
  simp only [Dep.key]
  rw [lex_le_pair]
  exact Or.inr ⟨rfl, lex_le.2 (Or.inr ⟨rfl, h⟩)⟩
where
  lex_le_pair {a b : Nat} {x y : Nat ×ₗ Nat} : (toLex (a, x) : Nat ×ₗ Nat ×ₗ Nat) ≤ toLex (b, y) ↔ a < b ∨ (a = b ∧ x ≤ y) := by
    rw [Prod.Lex.le_iff]
    exact Iff.rfl

theorem mapM_mem {l : List Entry} : ∀ {is : List Nat}, (∀ i ∈ is, i < l.length) →
    ∃ r, is.mapM (fun i => l[i]?) = some r ∧ ∀ e, e ∈ r ↔ ∃ i ∈ is, l[i]? = some e
  | [], _ => ⟨[], rfl, fun e => ⟨fun h => (by cases h), fun ⟨_, h, _⟩ => (by cases h)⟩⟩
  | i :: t, h => by
    obtain ⟨r, hr, hm⟩ := mapM_mem (is := t) (fun j hj => h j (List.mem_cons_of_mem _ hj))
    have hi := h i List.mem_cons_self
    refine ⟨l[i] :: r, ?_, ?_⟩
    · rw [List.mapM_cons, List.getElem?_eq_getElem hi, hr]
      rfl
    · intro e
      rw [List.mem_cons, hm]
      constructor
      · rintro (h1 | ⟨j, hj, h1⟩)
        · exact ⟨i, List.mem_cons_self, by rw [List.getElem?_eq_getElem hi, h1]⟩
        · exact ⟨j, List.mem_cons_of_mem _ hj, h1⟩
      · rintro ⟨j, hj, h1⟩
        rcases List.mem_cons.1 hj with rfl | hj
        · left
          rw [List.getElem?_eq_getElem hi] at h1
          exact (Option.some.inj h1).symm
        · exact Or.inr ⟨j, hj, h1⟩

theorem iid_bound {p : Pool} (hl : p.txs.length ≤ hardLimit) : ∀ (i : Nat) (e : Entry), p.txs[i]? = some e → i ≤ maxIid := by
  intro i e h
  obtain ⟨h1, _⟩ := List.getElem?_eq_some_iff.1 h
  unfold hardLimit at hl
  unfold maxIid
  omega

/-- The children of a transaction: the orphans that require one of its outputs or something else it provides. -/
theorem children_spec {p : Pool} (h : PoolOk p) (hl : p.txs.length ≤ hardLimit) (t : Tx) :
    ∃ r, p.childrenOf t = some r ∧ ∀ e, e ∈ r ↔ e ∈ p.txs ∧
      ((∃ n, n ≤ maxIndex ∧ Dep.txOutput t.id n ∈ e.tx.required) ∨ ∃ d ∈ t.provided, d ∈ e.tx.required) := by
  have hb := iid_bound hl
  have hmem : ∀ i, i ∈ Index.range p.maps.byDeps (.txOutput t.id 0) (.txOutput t.id maxIndex) ++
      t.provided.flatMap (fun d => Index.range p.maps.byDeps d d) ↔ ∃ e, p.txs[i]? = some e ∧
        ((∃ n, n ≤ maxIndex ∧ Dep.txOutput t.id n ∈ e.tx.required) ∨ ∃ d ∈ t.provided, d ∈ e.tx.required) := by
    intro i
    rw [List.mem_append, List.mem_flatMap, mem_range h.deps hb]
    constructor
    · rintro (⟨e, k, he, hk, h1, h2⟩ | ⟨d, hd, hi⟩)
      · obtain ⟨n, hn, rfl⟩ := txOutput_range h1 h2
        exact ⟨e, he, Or.inl ⟨n, hn, hk⟩⟩
      · obtain ⟨e, k, he, hk, h1, h2⟩ := (mem_range h.deps hb _ _ _).1 hi
        have : k = d := le_antisymm h2 h1
        subst this
        exact ⟨e, he, Or.inr ⟨k, hd, hk⟩⟩
    · rintro ⟨e, he, ⟨n, hn, hk⟩ | ⟨d, hd, hk⟩⟩
      · exact Or.inl ⟨e, _, he, hk, txOutput_le (Nat.zero_le _), txOutput_le hn⟩
      · exact Or.inr ⟨d, hd, (mem_range h.deps hb _ _ _).2 ⟨e, d, he, hk, le_refl _, le_refl _⟩⟩
  obtain ⟨r, hr, hm⟩ := mapM_mem (l := p.txs) (is := _) (fun i hi => by
    obtain ⟨e, he, _⟩ := (hmem i).1 hi
    exact (List.getElem?_eq_some_iff.1 he).1)
  refine ⟨r, hr, fun e => ?_⟩
  rw [hm]
  constructor
  · rintro ⟨i, hi, he⟩
    obtain ⟨e', he', hc⟩ := (hmem i).1 hi
    rw [he] at he'; cases he'
    exact ⟨List.mem_of_getElem? he, hc⟩
  · rintro ⟨he, hc⟩
    obtain ⟨i, hi⟩ := List.getElem?_of_mem he
    exact ⟨i, (hmem i).2 ⟨e, hi, hc⟩, hi⟩

/-! ### Loops of removals -/

/-- `p'` is `p` without the entries `gone`. -/
def Without (p p' : Pool) (gone : List Entry) : Prop := PoolOk p' ∧ p.txs.Perm (gone ++ p'.txs)

theorem Without.trans {p p' p'' : Pool} {e : Entry} {g : List Entry} (h1 : p.txs.Perm (e :: p'.txs)) (h2 : Without p' p'' g) :
    Without p p'' (e :: g) := ⟨h2.1, h1.trans (h2.2.cons e)⟩

theorem Without.mem {p p' : Pool} {g : List Entry} (h : Without p p' g) {e : Entry} (he : e ∈ p'.txs) : e ∈ p.txs :=
  h.2.symm.subset (List.mem_append_right _ he)

theorem Without.mem_gone {p p' : Pool} {g : List Entry} (h : Without p p' g) {e : Entry} (he : e ∈ g) : e ∈ p.txs :=
  h.2.symm.subset (List.mem_append_left _ he)

theorem Without.cases {p p' : Pool} {g : List Entry} (h : Without p p' g) {e : Entry} (he : e ∈ p.txs) : e ∈ g ∨ e ∈ p'.txs :=
  List.mem_append.1 (h.2.subset he)

theorem Without.length {p p' : Pool} {g : List Entry} (h : Without p p' g) : p.txs.length = g.length + p'.txs.length := by
  rw [h.2.length_eq, List.length_append]

/-- What is gone is not among the rest. -/
theorem Without.disjoint {p p' : Pool} {g : List Entry} (hp : PoolOk p) (h : Without p p' g) {e e' : Entry} (he : e ∈ g)
    (he' : e' ∈ p'.txs) : e.tx.id ≠ e'.tx.id := by
  have hn := ids_nodup hp
  have hn2 : ((g ++ p'.txs).map (fun e => e.tx.id)).Nodup := (h.2.map _).nodup_iff.1 hn
  rw [List.map_append, List.nodup_append] at hn2
  exact hn2.2.2 _ (List.mem_map_of_mem he) _ (List.mem_map_of_mem he')

theorem Without.refl {p : Pool} (h : PoolOk p) : Without p p [] := ⟨h, List.Perm.refl _⟩

theorem first_time {p : Pool} (h : PoolOk p) :
    (p.maps.byTime.entries.head? = none → p.txs = []) ∧
    ∀ k u, p.maps.byTime.entries.head? = some (k, u) →
      (∃ e, p.txs[(ofLex k).2]? = some e ∧ e.tx.time = (ofLex k).1) ∧ ∀ e ∈ p.txs, (ofLex k).1 ≤ e.tx.time := by
  constructor
  · intro hh
    cases hl : p.txs with
    | nil => rfl
    | cons e t =>
      have : p.txs[0]? = some e := by rw [hl]; rfl
      have h1 := (h.time e.tx.time 0).2 ⟨e, this, List.mem_cons_self⟩
      have h2 := BMap.mem_entries.2 h1
      rw [List.head?_eq_none_iff.1 hh] at h2
      cases h2
  · intro k u hh
    obtain ⟨t, ht⟩ : ∃ t, p.maps.byTime.entries = (k, u) :: t := by
      cases hl : p.maps.byTime.entries with
      | nil => rw [hl] at hh; cases hh
      | cons x t =>
        rw [hl] at hh
        cases hh
        exact ⟨t, rfl⟩
    have hk : p.maps.byTime.get (toLex ((ofLex k).1, (ofLex k).2)) = some () := by
      have : (toLex ((ofLex k).1, (ofLex k).2), ()) ∈ p.maps.byTime.entries := by
        rw [ht]; exact List.mem_cons_self
      exact BMap.mem_entries.1 this
    obtain ⟨e, he, hm⟩ := (h.time _ _).1 hk
    refine ⟨⟨e, he, by simpa using (List.mem_singleton.1 hm).symm⟩, ?_⟩
    intro e' he'
    obtain ⟨j, hj⟩ := List.getElem?_of_mem he'
    have h1 := BMap.mem_entries.2 ((h.time e'.tx.time j).2 ⟨e', hj, List.mem_cons_self⟩)
    have hs := p.maps.byTime.sorted
    rw [ht] at h1 hs
    rcases List.mem_cons.1 h1 with h2 | h2
    · have := congrArg (fun x => (ofLex x.1).1) h2
      exact le_of_eq this.symm
    · have h3 := (List.pairwise_cons.1 hs).1 _ h2
      have h4 : k ≤ toLex (e'.tx.time, j) := le_of_lt h3
      rcases lex_le.1 h4 with h5 | h5
      · exact le_of_lt h5
      · exact le_of_eq h5.1

theorem removeExpiredLoop_spec (x : Nat) : ∀ (fuel : Nat) {p : Pool}, PoolOk p → p.txs.length < fuel →
    ∃ p' g, Pool.removeExpiredLoop x fuel p = some p' ∧ Without p p' g ∧ (∀ e ∈ g, e.tx.time < x) ∧
      ∀ e ∈ p'.txs, x ≤ e.tx.time := by
  intro fuel
  induction fuel with
  | zero => intro p _ h; omega
  | succ n ih =>
    intro p h hf
    rw [Pool.removeExpiredLoop]
    cases hh : p.maps.byTime.entries.head? with
    | none =>
      refine ⟨p, [], rfl, Without.refl h, fun e he => (by cases he), ?_⟩
      rw [(first_time h).1 hh]
      intro e he; cases he
    | some ku =>
      obtain ⟨k, u⟩ := ku
      obtain ⟨⟨e, he, het⟩, hmin⟩ := (first_time h).2 k u hh
      show ∃ p' g, (if (ofLex k).1 < x then _ else _) = _ ∧ _
      split
      · next hlt =>
        obtain ⟨e', p1, he', hr, ok1, hp⟩ := removeAt_spec h (List.getElem?_eq_some_iff.1 he).1
        rw [he] at he'; cases he'
        obtain ⟨p', g, h1, h2, h3, h4⟩ := ih ok1 (by have := hp.length_eq; simp at this; omega)
        refine ⟨p', e :: g, ?_, Without.trans hp h2, ?_, h4⟩
        · rw [hr]; exact h1
        · intro a ha
          rcases List.mem_cons.1 ha with rfl | ha
          · rw [het]; exact hlt
          · exact h3 a ha
      · next hlt =>
        refine ⟨p, [], rfl, Without.refl h, fun e he => (by cases he), ?_⟩
        intro e he
        exact le_trans (Nat.le_of_not_lt hlt) (hmin e he)

theorem enforceLoop_spec (r : Rnd) (max : Nat) : ∀ (fuel : Nat) {p : Pool}, PoolOk p → p.txs.length < fuel →
    p.txs.length ≤ hardLimit →
    ∃ p' g, Pool.enforceLoop r max fuel p = some p' ∧ Without p p' g ∧ p'.txs.length = min p.txs.length max := by
  intro fuel
  induction fuel with
  | zero => intro p _ h; omega
  | succ n ih =>
    intro p h hf hl
    rw [Pool.enforceLoop]
    split
    · next hlt =>
      have hd := r.draw_lt n p.txs.length (by omega)
      have hn : newIid (r.draw n p.txs.length) = some (r.draw n p.txs.length) := if_pos (by omega)
      obtain ⟨e, p1, he, hr, ok1, hp⟩ := removeAt_spec h hd
      have hlen : p.txs.length = p1.txs.length + 1 := by simpa using hp.length_eq
      obtain ⟨p', g, h1, h2, h3⟩ := ih ok1 (by omega) (by omega)
      refine ⟨p', e :: g, ?_, Without.trans hp h2, ?_⟩
      · rw [hn]
        show (p.removeAt _).bind _ = _
        rw [hr]; exact h1
      · rw [h3]; omega
    · next hlt =>
      exact ⟨p, [], rfl, Without.refl h, by omega⟩

theorem enforceLoop_small {r : Rnd} {max fuel : Nat} {p : Pool} (h : p.txs.length ≤ max) :
    Pool.enforceLoop r max (fuel + 1) p = some p := by
  rw [Pool.enforceLoop, if_neg (by omega)]

theorem removeByPeerLoop_spec (peer : Nat) : ∀ (fuel : Nat) {p : Pool}, PoolOk p → p.txs.length < fuel →
    p.txs.length ≤ hardLimit →
    ∃ p' g, Pool.removeByPeerLoop peer fuel p = some p' ∧ Without p p' g ∧ (∀ e ∈ g, e.peer = peer) ∧
      ∀ e ∈ p'.txs, e.peer ≠ peer := by
  intro fuel
  induction fuel with
  | zero => intro p _ h; omega
  | succ n ih =>
    intro p h hf hl
    rw [Pool.removeByPeerLoop]
    have hb := iid_bound hl
    cases hh : (Index.range p.maps.byPeer peer peer).head? with
    | none =>
      refine ⟨p, [], rfl, Without.refl h, fun e he => (by cases he), ?_⟩
      intro e he hpe
      obtain ⟨i, hi⟩ := List.getElem?_of_mem he
      have := (mem_range h.peer hb peer peer i).2 ⟨e, peer, hi, by rw [hpe]; exact List.mem_cons_self, le_refl _, le_refl _⟩
      rw [List.head?_eq_none_iff.1 hh] at this
      cases this
    | some i =>
      have hi : i ∈ Index.range p.maps.byPeer peer peer := List.mem_of_mem_head? hh
      obtain ⟨e, k, he, hk, h1, h2⟩ := (mem_range h.peer hb peer peer i).1 hi
      have hpe : e.peer = peer := by
        have h3 : k = peer := le_antisymm h2 h1
        rw [← h3]; exact (List.mem_singleton.1 hk).symm
      obtain ⟨e', p1, he', hr, ok1, hp⟩ := removeAt_spec h (List.getElem?_eq_some_iff.1 he).1
      rw [he] at he'; cases he'
      have hlen : p.txs.length = p1.txs.length + 1 := by simpa using hp.length_eq
      obtain ⟨p', g, h1, h2, h3, h4⟩ := ih ok1 (by omega) (by omega)
      refine ⟨p', e :: g, ?_, Without.trans hp h2, ?_, h4⟩
      · show (p.removeAt i).bind _ = _
        rw [hr]; exact h1
      · intro a ha
        rcases List.mem_cons.1 ha with rfl | ha
        · exact hpe
        · exact h3 a ha

/-! ### The public operations -/

/-- `insert` of a new entry. -/
theorem insert_new {p : Pool} (h : PoolOk p) (hl : p.txs.length ≤ capacity) (r : Rnd) {e : Entry}
    (hne : ∀ e' ∈ p.txs, e'.tx.id ≠ e.tx.id) :
    ∃ p', p.insert r e = some (p', .inOrphanPool) ∧ PoolOk p' ∧ p'.txs = p.txs ++ [e] := by
  have hc : ¬ (p.contains e.tx.id = true) := by
    intro hc
    obtain ⟨e', he', hid⟩ := (contains_iff h _).1 hc
    exact hne e' he' hid
  have hgap : p.txs[p.txs.length]? = none := List.getElem?_eq_none (Nat.le_refl _)
  obtain ⟨m, hm, ok⟩ := maps_insert (e := e) h hgap (fun j e' he' => hne e' (List.mem_of_getElem? he'))
  have hn : newIid p.txs.length = some p.txs.length := if_pos (by unfold hardLimit; unfold capacity at hl; omega)
  have ok' : PoolOk ⟨p.txs ++ [e], m⟩ := by
    show MapsOk m (fun j => (p.txs ++ [e])[j]?)
    have : (fun j => (p.txs ++ [e])[j]?) = Function.update (fun j => p.txs[j]?) p.txs.length (some e) := by
      funext j
      by_cases hj : j = p.txs.length
      · subst hj; rw [Function.update_self]; simp
      · rw [Function.update_of_ne hj]
        by_cases hj2 : j < p.txs.length
        · rw [List.getElem?_append_left hj2]
        · rw [List.getElem?_eq_none (l := p.txs) (by omega), List.getElem?_eq_none (by simp; omega)]
    rw [this]; exact ok
  refine ⟨⟨p.txs ++ [e], m⟩, ?_, ok', rfl⟩
  have henf : Pool.enforceMaxSize ⟨p.txs ++ [e], m⟩ r hardLimit = some ⟨p.txs ++ [e], m⟩ :=
    enforceLoop_small (by simp only [List.length_append, List.length_singleton]; unfold hardLimit; unfold capacity at hl; omega)
  have hin : Pool.contains ⟨p.txs ++ [e], m⟩ e.tx.id = true :=
    (contains_iff ok' _).2 ⟨e, List.mem_append_right _ List.mem_cons_self, rfl⟩
  unfold Pool.insert
  rw [if_neg hc, hn]
  show (p.maps.insert e p.txs.length).bind _ = _
  rw [hm]
  show (Pool.enforceMaxSize ⟨p.txs ++ [e], m⟩ r hardLimit).bind _ = _
  rw [henf]
  show some (_, if _ then _ else _) = _
  rw [if_pos hin]

theorem insert_dup {p : Pool} (h : PoolOk p) (r : Rnd) {e e' : Entry} (he : e' ∈ p.txs) (hid : e'.tx.id = e.tx.id) :
    p.insert r e = some (p, .inOrphanPoolDuplicate) := by
  unfold Pool.insert
  rw [if_pos ((contains_iff h _).2 ⟨e', he, hid⟩)]

theorem enforceLimits_spec {p : Pool} (h : PoolOk p) (hl : p.txs.length ≤ hardLimit) (r : Rnd) (now : Nat) :
    ∃ p1 p' old evicted, p.enforceLimits r now = some p' ∧ Without p p1 old ∧ (∀ e ∈ old, e.tx.time < now - expiryInterval) ∧
      (∀ e ∈ p1.txs, now - expiryInterval ≤ e.tx.time) ∧ Without p1 p' evicted ∧
      p'.txs.length = min p1.txs.length capacity := by
  obtain ⟨p1, old, h1, h2, h3, h4⟩ := removeExpiredLoop_spec (now - expiryInterval) (p.txs.length + 1) h (by omega)
  have hlen := h2.length
  obtain ⟨p', ev, h5, h6, h7⟩ := enforceLoop_spec r capacity (p1.txs.length + 1) h2.1 (by omega) (by omega)
  refine ⟨p1, p', old, ev, ?_, h2, h3, h4, h6, h7⟩
  unfold Pool.enforceLimits Pool.removeExpired
  rw [h1]
  exact h5

/-- What `insert_and_enforce_limits` does: the new entry joins unless one with its identifier is there; what is too old
goes; what goes beyond the capacity goes. -/
theorem insertAndEnforce_spec {p : Pool} (h : PoolOk p) (hl : p.txs.length ≤ capacity) (r : Rnd) (e : Entry) (now : Nat) :
    ∃ p' s p0 p1 old evicted, p.insertAndEnforce r e now = some (p', s) ∧
      PoolOk p0 ∧ (p0.txs = p.txs ++ [e] ∧ (∀ e' ∈ p.txs, e'.tx.id ≠ e.tx.id) ∨
        p0 = p ∧ ∃ e' ∈ p.txs, e'.tx.id = e.tx.id) ∧
      Without p0 p1 old ∧ (∀ e ∈ old, e.tx.time < now - expiryInterval) ∧
      (∀ e ∈ p1.txs, now - expiryInterval ≤ e.tx.time) ∧ Without p1 p' evicted ∧
      p'.txs.length = min p1.txs.length capacity ∧
      (s = .full ↔ ∀ e' ∈ p'.txs, e'.tx.id ≠ e.tx.id) ∧
      (s = .inOrphanPool → p0.txs = p.txs ++ [e]) ∧ (s = .inOrphanPoolDuplicate → p0 = p) := by
  obtain ⟨p0, s0, hi, hs, ok0, hl0, hc, g1, g2⟩ : ∃ p0 s0, p.insert r e = some (p0, s0) ∧ s0 ≠ .full ∧ PoolOk p0 ∧
      p0.txs.length ≤ hardLimit ∧
      (p0.txs = p.txs ++ [e] ∧ (∀ e' ∈ p.txs, e'.tx.id ≠ e.tx.id) ∨ p0 = p ∧ ∃ e' ∈ p.txs, e'.tx.id = e.tx.id) ∧
      (s0 = .inOrphanPool → p0.txs = p.txs ++ [e]) ∧ (s0 = .inOrphanPoolDuplicate → p0 = p) := by
    by_cases hex : ∃ e' ∈ p.txs, e'.tx.id = e.tx.id
    · obtain ⟨e', he', hid⟩ := hex
      exact ⟨p, .inOrphanPoolDuplicate, insert_dup h r he' hid, by nofun, h,
        by unfold hardLimit; unfold capacity at hl; omega, Or.inr ⟨rfl, e', he', hid⟩, by nofun, fun _ => rfl⟩
    · have hne : ∀ e' ∈ p.txs, e'.tx.id ≠ e.tx.id := fun e' he' hid => hex ⟨e', he', hid⟩
      obtain ⟨p0, hi, ok0, htx⟩ := insert_new h hl r hne
      exact ⟨p0, .inOrphanPool, hi, by nofun, ok0,
        by rw [htx]; simp only [List.length_append, List.length_singleton]; unfold hardLimit; unfold capacity at hl; omega,
        Or.inl ⟨htx, hne⟩, fun _ => htx, by nofun⟩
  obtain ⟨p1, p', old, ev, h1, h2, h3, h4, h5, h6⟩ := enforceLimits_spec ok0 hl0 r now
  refine ⟨p', if p'.contains e.tx.id then s0 else .full, p0, p1, old, ev, ?_, ok0, hc, h2, h3, h4, h5, h6, ?_, ?_, ?_⟩
  · unfold Pool.insertAndEnforce
    rw [hi]
    show (if s0 = .full then _ else _) = _
    rw [if_neg hs, h1]
    rfl
  · constructor
    · intro hf e' he' hid
      rw [if_pos ((contains_iff h5.1 _).2 ⟨e', he', hid⟩)] at hf
      exact hs hf
    · intro hno
      rw [if_neg]
      intro hcc
      obtain ⟨e', he', hid⟩ := (contains_iff h5.1 _).1 hcc
      exact hno e' he' hid
  · intro hh; split at hh
    · exact g1 hh
    · cases hh
  · intro hh; split at hh
    · exact g2 hh
    · cases hh

theorem removeByPeer_spec {p : Pool} (h : PoolOk p) (hl : p.txs.length ≤ capacity) (peer : Nat) :
    ∃ p' g, p.removeByPeer peer = some p' ∧ Without p p' g ∧ (∀ e ∈ g, e.peer = peer) ∧ ∀ e ∈ p'.txs, e.peer ≠ peer :=
  removeByPeerLoop_spec peer _ h (by omega) (by unfold hardLimit; unfold capacity at hl; omega)

end Verif.TxOrphans
