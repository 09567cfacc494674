import Verif.Cache.Base

/-!
# Transactions that are given up: the walk over the descendants, abandoning, conflicts
-/

namespace Verif.Cache
open Verif

theorem edges_erase {d : BMap Nat (BMap Nat Unit)} {x : Nat} {s : BMap Nat Unit} (h : d.get x = some s) :
    edges d = edges (d.erase x) + s.entries.length := BMap.sumV_erase_of_get _ h

/-- what the walk finds -/
structure WalkEffect (d d' : BMap Nat (BMap Nat Unit)) (q seen v : List Nat) : Prop where
  seen : ∀ x ∈ seen, x ∈ v
  queue : ∀ x ∈ q, x ∈ v
  desc : ∀ k, d'.get k = if k ∈ v then none else d.get k
  closed : ∀ k ∈ v, ∀ s, d.get k = some s → ∀ x, (s.get x).isSome → x ∈ v

theorem walk_effect : ∀ (n : Nat) (q : List Nat) (d : BMap Nat (BMap Nat Unit)) (seen : List Nat),
    q.length + edges d < n → (∀ x ∈ seen, d.get x = none) → WalkEffect d (walk n q d seen).1 q seen (walk n q d seen).2
  | 0, q, d, seen, hn, hs => by omega
  | n + 1, [], d, seen, hn, hs => by
    refine ⟨fun x h => h, by simp, ?_, ?_⟩
    · intro k
      change d.get k = if k ∈ seen then none else d.get k
      by_cases h : k ∈ seen
      · rw [if_pos h]
        exact hs k h
      · rw [if_neg h]
    · intro k hk s h
      rw [hs k hk] at h
      cases h
  | n + 1, x :: q, d, seen, hn, hs => by
    simp only [List.length_cons] at hn
    cases hx : d.get x with
    | none =>
      have hs' : ∀ y ∈ (if x ∈ seen then seen else seen ++ [x]), d.get y = none := by
        intro y hy
        split at hy
        · exact hs y hy
        · rcases List.mem_append.1 hy with hy | hy
          · exact hs y hy
          · rw [List.mem_singleton.1 hy]
            exact hx
      have ih := walk_effect n q d (if x ∈ seen then seen else seen ++ [x]) (by omega) hs'
      have e : walk (n + 1) (x :: q) d seen = walk n q d (if x ∈ seen then seen else seen ++ [x]) := by
        rw [walk]
        simp only [hx]
      rw [e]
      have hin : x ∈ (if x ∈ seen then seen else seen ++ [x]) := by
        split
        · assumption
        · simp
      refine ⟨?_, ?_, ih.desc, ih.closed⟩
      · intro y hy
        apply ih.seen
        split
        · exact hy
        · exact List.mem_append_left _ hy
      · intro y hy
        rcases List.mem_cons.1 hy with rfl | hy
        · exact ih.seen _ hin
        · exact ih.queue y hy
    | some s =>
      have he := edges_erase hx
      have hs' : ∀ y ∈ (if x ∈ seen then seen else seen ++ [x]), (d.erase x).get y = none := by
        intro y hy
        rw [BMap.get_erase]
        split
        · rfl
        · rename_i hne
          split at hy
          · exact hs y hy
          · rcases List.mem_append.1 hy with hy | hy
            · exact hs y hy
            · exact absurd (List.mem_singleton.1 hy) hne
      have ih := walk_effect n (q ++ s.entries.map (·.1)) (d.erase x) (if x ∈ seen then seen else seen ++ [x])
        (by simp only [List.length_append, List.length_map]; omega) hs'
      have e : walk (n + 1) (x :: q) d seen = walk n (q ++ s.entries.map (·.1)) (d.erase x) (if x ∈ seen then seen else seen ++ [x]) := by
        rw [walk]
        simp only [hx]
      rw [e]
      have hin : x ∈ (if x ∈ seen then seen else seen ++ [x]) := by
        split
        · assumption
        · simp
      have hxv := ih.seen _ hin
      refine ⟨?_, ?_, ?_, ?_⟩
      · intro y hy
        apply ih.seen
        split
        · exact hy
        · exact List.mem_append_left _ hy
      · intro y hy
        rcases List.mem_cons.1 hy with rfl | hy
        · exact ih.seen _ hin
        · exact ih.queue y (List.mem_append_left _ hy)
      · intro k
        rw [ih.desc k]
        by_cases hk : k ∈ (walk n (q ++ s.entries.map (·.1)) (d.erase x) (if x ∈ seen then seen else seen ++ [x])).2
        · rw [if_pos hk, if_pos hk]
        · rw [if_neg hk, if_neg hk, BMap.get_erase_ne]
          rintro rfl
          exact hk hxv
      · intro k hk s' hks y hy
        by_cases hkx : k = x
        · subst hkx
          rw [hx] at hks
          cases hks
          apply ih.queue
          apply List.mem_append_right
          obtain ⟨u, hu⟩ := Option.isSome_iff_exists.1 hy
          exact List.mem_map.2 ⟨(y, u), BMap.mem_entries.2 hu, rfl⟩
        · exact ih.closed k hk s' (by rw [BMap.get_erase_ne _ hkx]; exact hks) y hy

/-- what `removeDesc` does -/
theorem removeDesc_effect (c : Cache) (id : Nat) :
    (removeDesc c id).1 = { c with desc := (removeDesc c id).1.desc } ∧
      WalkEffect c.desc (removeDesc c id).1.desc [id] [] (removeDesc c id).2 := by
  refine ⟨rfl, ?_⟩
  exact walk_effect _ _ _ _ (by simp; omega) (by simp)

/-- a transaction the cache has is dead -/
def DeadIn (c : Cache) (id : Nat) : Prop := ∃ e, c.txs.get id = some e ∧ e.state.IsDead

/-- a transaction changed from live to dead -/
def KilledIn (c c' : Cache) (id : Nat) (e : WTx) : Prop := c.txs.get id = some e ∧ e.state.IsLive ∧ DeadIn c' id

/-- some unconfirmed transactions died, with all their descendants, and nothing else happened -/
structure Kill (c c' : Cache) : Prop where
  txs : ∀ id, c'.txs.get id = c.txs.get id ∨
    ∃ e d, c.txs.get id = some e ∧ e.state.isUnconfirmed = true ∧ c'.txs.get id = some { e with state := d } ∧ d.IsDead
  consumed : ∀ o, (c'.consumed.get o = none ∧ ∃ id e, KilledIn c c' id e ∧ e.Spends o) ∨
    (c'.consumed.get o = c.consumed.get o ∧ ∀ id e, KilledIn c c' id e → ¬ e.Spends o)
  desc : ∀ k, c'.desc.get k = c.desc.get k ∨ (c'.desc.get k = none ∧ DeadIn c' k)
  closed : ∀ k e, KilledIn c c' k e → ∀ s, c.desc.get k = some s → ∀ x, (s.get x).isSome → DeadIn c' x

theorem Kill.refl (c : Cache) : Kill c c := by
  have hk : ∀ id e, ¬ KilledIn c c id e := by
    rintro id e ⟨h1, h2, e', h3, h4⟩
    rw [h1] at h3
    cases h3
    exact h4 h2
  exact ⟨fun _ => .inl rfl, fun o => .inr ⟨rfl, fun id e h => absurd h (hk id e)⟩, fun _ => .inl rfl, fun k e h => absurd h (hk k e)⟩

theorem Kill.dead {c c' : Cache} (h : Kill c c') {id : Nat} (hd : DeadIn c id) : DeadIn c' id := by
  obtain ⟨e, he, hs⟩ := hd
  rcases h.txs id with h1 | ⟨e', d, h1, _, h3, h4⟩
  · exact ⟨e, h1.trans he, hs⟩
  · exact ⟨_, h3, h4⟩

/-- what dies in two steps dies in the first, or lives on and dies in the second -/
theorem Kill.split {c c' c'' : Cache} (h : Kill c c') {id : Nat} {e : WTx} (hk : KilledIn c c'' id e) :
    KilledIn c c' id e ∨ KilledIn c' c'' id e := by
  obtain ⟨h1, h2, h3⟩ := hk
  rcases h.txs id with h4 | ⟨e', d, h4, _, h5, h6⟩
  · exact .inr ⟨h4.trans h1, h2, h3⟩
  · rw [h1] at h4
    cases h4
    exact .inl ⟨h1, h2, _, h5, h6⟩

theorem Kill.first {c c' c'' : Cache} (h' : Kill c' c'') {id : Nat} {e : WTx} (hk : KilledIn c c' id e) : KilledIn c c'' id e :=
  ⟨hk.1, hk.2.1, h'.dead hk.2.2⟩

theorem Kill.second {c c' c'' : Cache} (h : Kill c c') {id : Nat} {e : WTx} (hk : KilledIn c' c'' id e) : KilledIn c c'' id e := by
  obtain ⟨h1, h2, h3⟩ := hk
  rcases h.txs id with h4 | ⟨e', d, h4, _, h5, h6⟩
  · exact ⟨h4 ▸ h1, h2, h3⟩
  · rw [h5] at h1
    cases h1
    exact absurd h2 h6

theorem Kill.trans {c c' c'' : Cache} (h : Kill c c') (h' : Kill c' c'') : Kill c c'' := by
  refine ⟨?_, ?_, ?_, ?_⟩
  · intro id
    rcases h'.txs id with h1 | ⟨e, d, h1, h2, h3, h4⟩
    · rw [h1]
      exact h.txs id
    · rcases h.txs id with h5 | ⟨e', d', h5, h6, h7, h8⟩
      · exact .inr ⟨e, d, h5 ▸ h1, h2, h3, h4⟩
      · rw [h7] at h1
        cases h1
        exact .inr ⟨e', d, h5, h6, h3, h4⟩
  · intro o
    rcases h'.consumed o with ⟨h1, id, e, h2, h3⟩ | ⟨h1, h2⟩
    · exact .inl ⟨h1, id, e, h.second h2, h3⟩
    · rcases h.consumed o with ⟨h3, id, e, h4, h5⟩ | ⟨h3, h4⟩
      · exact .inl ⟨h1.trans h3, id, e, h'.first h4, h5⟩
      · refine .inr ⟨h1.trans h3, ?_⟩
        intro id e hk
        rcases h.split hk with hk | hk
        · exact h4 id e hk
        · exact h2 id e hk
  · intro k
    rcases h'.desc k with h1 | h1
    · rcases h.desc k with h2 | ⟨h2, h3⟩
      · exact .inl (h1.trans h2)
      · exact .inr ⟨h1.trans h2, h'.dead h3⟩
    · exact .inr h1
  · intro k e hk s hs x hx
    rcases h.split hk with hk1 | hk1
    · exact h'.dead (h.closed k e hk1 s hs x hx)
    · have hlive : ¬ DeadIn c' k := by
        rintro ⟨e', he', hd⟩
        rw [hk1.1] at he'
        cases he'
        exact hd hk1.2.1
      rcases h.desc k with h2 | ⟨_, h3⟩
      · exact h'.closed k e hk1 s (h2.trans hs) x hx
      · exact absurd h3 hlive

/-! ### Abandoning -/

theorem abandonable_spec {s : St} {b : Bool} (h : s.abandonable = some b) :
    s.isUnconfirmed = true ∧ (b = true ↔ s.IsLive) := by
  cases s <;> cases h <;> simp [St.isUnconfirmed, St.IsLive]

structure MarkEffect (c0 c1 : Cache) (ids : List Nat) (u0 u1 : List WTx) : Prop where
  eq : c1 = { c0 with txs := c1.txs }
  other : ∀ id, id ∉ ids → c1.txs.get id = c0.txs.get id
  marked : ∀ id ∈ ids, ∃ e b, c0.txs.get id = some e ∧ e.state.abandonable = some b ∧ c1.txs.get id = some { e with state := .abandoned } ∧
    (b = true → { e with state := .abandoned } ∈ u1)
  keep : ∀ u ∈ u0, u ∈ u1
  undo : ∀ u ∈ u1, u ∈ u0 ∨ ∃ id e, id ∈ ids ∧ c0.txs.get id = some e ∧ e.state.IsLive ∧ u = { e with state := .abandoned }

theorem markAbandoned_ok {acc : Cache × List WTx} {id : Nat} {r : Cache × List WTx} (h : markAbandoned acc id = .ok r) :
    ∃ e b, acc.1.txs.get id = some e ∧ e.state.abandonable = some b ∧
      r = ({ acc.1 with txs := acc.1.txs.insert id { e with state := .abandoned } }, if b then acc.2 ++ [{ e with state := .abandoned }] else acc.2) := by
  unfold markAbandoned at h
  cases he : acc.1.txs.get id with
  | none => rw [he] at h; cases h
  | some e =>
    rw [he] at h
    dsimp only at h
    split at h
    · cases h
    · cases hb : e.state.abandonable with
      | none => rw [hb] at h; cases h
      | some b =>
        rw [hb] at h
        cases h
        exact ⟨e, b, rfl, hb, rfl⟩

theorem markAll_effect : ∀ {ids : List Nat} {c0 c1 : Cache} {u0 u1 : List WTx}, ids.foldlM markAbandoned (c0, u0) = .ok (c1, u1) → MarkEffect c0 c1 ids u0 u1
  | [], c0, c1, u0, u1, h => by
    simp only [List.foldlM_nil, pure_eq_ok] at h
    cases h
    exact ⟨rfl, by simp, by simp, by simp, fun u hu => .inl hu⟩
  | id :: ids, c0, c1, u0, u1, h => by
    simp only [List.foldlM_cons, bind_eq_ok] at h
    obtain ⟨r, h1, h2⟩ := h
    obtain ⟨e, b, he, hb, rfl⟩ := markAbandoned_ok h1
    dsimp only at he
    have ih := markAll_effect h2
    have hnot : id ∉ ids := by
      intro hin
      obtain ⟨e', b', h3, h4, _⟩ := ih.marked id hin
      dsimp only at h3
      rw [BMap.get_insert, if_pos rfl] at h3
      cases h3
      cases h4
    refine ⟨?_, ?_, ?_, ?_, ?_⟩
    · rw [ih.eq]
    · intro k hk
      rw [ih.other k (fun h => hk (List.mem_cons_of_mem _ h))]
      exact BMap.get_insert_ne _ _ (fun h => hk (by rw [h]; exact List.mem_cons_self))
    · intro k hk
      rcases List.mem_cons.1 hk with rfl | _
      · refine ⟨e, b, he, hb, ?_, ?_⟩
        · rw [ih.other k hnot]
          dsimp only
          rw [BMap.get_insert, if_pos rfl]
        · rintro rfl
          exact ih.keep _ (by simp)
      · rename_i hk'
        obtain ⟨e', b', h3, h4, h5, h6⟩ := ih.marked k hk'
        dsimp only at h3
        have hne : k ≠ id := by
          rintro rfl
          exact hnot hk'
        rw [BMap.get_insert_ne _ _ hne] at h3
        exact ⟨e', b', h3, h4, h5, h6⟩
    · intro u hu
      apply ih.keep
      split
      · exact List.mem_append_left _ hu
      · exact hu
    · intro u hu
      rcases ih.undo u hu with h3 | ⟨k, e', hk, h3, h4, h5⟩
      · split at h3
        · rename_i hbt
          rcases List.mem_append.1 h3 with h3 | h3
          · exact .inl h3
          · exact .inr ⟨id, e, List.mem_cons_self, he, (abandonable_spec hb).2.1 hbt, List.mem_singleton.1 h3⟩
        · exact .inl h3
      · dsimp only at h3
        rw [BMap.get_insert_ne _ _ (by rintro rfl; exact hnot hk)] at h3
        exact .inr ⟨k, e', List.mem_cons_of_mem _ hk, h3, h4, h5⟩

theorem dead_abandoned : St.abandoned.IsDead := fun h => h
theorem dead_conflicted (b : Nat) : (St.conflicted b).IsDead := fun h => h

theorem abandonAll_kill {cfg : Cfg} {c c' : Cache} {id : Nat} (h : abandonAll cfg c id = .ok c') : Kill c c' ∧ DeadIn c' id := by
  unfold abandonAll at h
  simp only [bind_eq_ok] at h
  obtain ⟨⟨c1, undo⟩, h1, h2⟩ := h
  obtain ⟨hr, hw⟩ := removeDesc_effect c id
  have hm := markAll_effect h1
  have hu := rollbacks_effect h2
  have htx : ∀ k, c'.txs.get k = c1.txs.get k := fun k => by rw [hu.txs]
  have hdesc : c'.desc = (removeDesc c id).1.desc := by rw [hu.desc, hm.eq]
  have hcon1 : c1.consumed = c.consumed := by rw [hm.eq, hr]
  have htx0 : ∀ k, (removeDesc c id).1.txs.get k = c.txs.get k := fun k => by rw [hr]
  have hdead : ∀ k ∈ (removeDesc c id).2, DeadIn c' k := by
    intro k hk
    obtain ⟨e, b, _, _, h5, _⟩ := hm.marked k hk
    exact ⟨_, (htx k).trans h5, dead_abandoned⟩
  have hkilled : ∀ k e, KilledIn c c' k e → k ∈ (removeDesc c id).2 := by
    rintro k e ⟨h3, h4, e', h5, h6⟩
    by_contra hk
    rw [htx k, hm.other k hk, htx0 k, h3] at h5
    cases h5
    exact h6 h4
  refine ⟨⟨?_, ?_, ?_, ?_⟩, hdead id (hw.queue id (by simp))⟩
  · intro k
    by_cases hk : k ∈ (removeDesc c id).2
    · obtain ⟨e, b, h3, h4, h5, _⟩ := hm.marked k hk
      exact .inr ⟨e, _, (htx0 k).symm.trans h3, (abandonable_spec h4).1, (htx k).trans h5, dead_abandoned⟩
    · exact .inl (by rw [htx k, hm.other k hk, htx0 k])
  · intro o
    rw [hu.consumed o, hcon1]
    by_cases ho : ∃ u ∈ undo.reverse, u.Spends o
    · rw [if_pos ho]
      obtain ⟨u, hu1, hu2⟩ := ho
      rcases hm.undo u (List.mem_reverse.1 hu1) with h3 | ⟨k, e, hk, h3, h4, rfl⟩
      · simp at h3
      · exact .inl ⟨rfl, k, e, ⟨(htx0 k).symm.trans h3, h4, hdead k hk⟩, hu2⟩
    · rw [if_neg ho]
      refine .inr ⟨rfl, ?_⟩
      intro k e hk hs
      obtain ⟨e', b, h3, h4, h5, h6⟩ := hm.marked k (hkilled k e hk)
      rw [htx0 k, hk.1] at h3
      cases h3
      exact ho ⟨_, List.mem_reverse.2 (h6 ((abandonable_spec h4).2.2 hk.2.1)), hs⟩
  · intro k
    rw [hdesc, hw.desc k]
    by_cases hk : k ∈ (removeDesc c id).2
    · rw [if_pos hk]
      exact .inr ⟨rfl, hdead k hk⟩
    · rw [if_neg hk]
      exact .inl rfl
  · intro k e hk s hs x hx
    exact hdead x (hw.closed k (hkilled k e hk) s hs x hx)

theorem abandon_kill {cfg : Cfg} {c c' : Cache} {id : Nat} (h : abandon cfg c id = .ok c') : Kill c c' ∧ DeadIn c' id := by
  unfold abandon at h
  split at h
  · exact abandonAll_kill h
  · split at h
    · cases h
    · exact abandonAll_kill h

/-! ### Conflicts -/

theorem pending_spec (s : St) : (s.isUnconfirmed && s.present) = true ↔ s.IsPending := by
  cases s <;> simp [St.isUnconfirmed, St.present, St.IsPending]

theorem pending_live {s : St} (h : s.IsPending) : s.IsLive ∧ s.isUnconfirmed = true := by
  cases s <;> simp_all [St.isUnconfirmed, St.IsLive, St.IsPending]

structure ConflictEffect (block : Nat) (c0 c1 : Cache) (ids : List Nat) (u0 u1 : List WTx) (p0 p1 : List Nat) : Prop where
  eq : c1 = { c0 with txs := c1.txs }
  other : ∀ id, id ∉ ids ∨ id ∈ p0 → c1.txs.get id = c0.txs.get id
  marked : ∀ id ∈ ids, id ∉ p0 → ∃ e, c0.txs.get id = some e ∧ e.state.IsPending ∧ c1.txs.get id = some { e with state := .conflicted block } ∧
    { e with state := .conflicted block } ∈ u1
  keep : ∀ u ∈ u0, u ∈ u1
  undo : ∀ u ∈ u1, u ∈ u0 ∨ ∃ id e, id ∈ ids ∧ id ∉ p0 ∧ c0.txs.get id = some e ∧ e.state.IsLive ∧ u = { e with state := .conflicted block }
  processed : ∀ id, id ∈ p1 ↔ id ∈ p0 ∨ id ∈ ids

theorem markConflicted_ok {block : Nat} {acc : Cache × List WTx × List Nat} {id : Nat} {r : Cache × List WTx × List Nat} (h : markConflicted block acc id = .ok r) :
    (id ∈ acc.2.2 ∧ r = acc) ∨ (id ∉ acc.2.2 ∧ ∃ e, acc.1.txs.get id = some e ∧ e.state.IsPending ∧
      r = ({ acc.1 with txs := acc.1.txs.insert id { e with state := .conflicted block } }, acc.2.1 ++ [{ e with state := .conflicted block }], id :: acc.2.2)) := by
  unfold markConflicted at h
  split at h
  · rename_i hp
    cases h
    exact .inl ⟨hp, rfl⟩
  · rename_i hp
    cases he : acc.1.txs.get id with
    | none => rw [he] at h; cases h
    | some e =>
      rw [he] at h
      dsimp only at h
      split at h
      · cases h
      · split at h
        · rename_i hs
          cases h
          exact .inr ⟨hp, e, rfl, (pending_spec _).1 hs, rfl⟩
        · cases h

theorem markConflicts_effect {block : Nat} : ∀ {ids : List Nat} {c0 c1 : Cache} {u0 u1 : List WTx} {p0 p1 : List Nat},
    ids.foldlM (markConflicted block) (c0, u0, p0) = .ok (c1, u1, p1) → ConflictEffect block c0 c1 ids u0 u1 p0 p1
  | [], c0, c1, u0, u1, p0, p1, h => by
    simp only [List.foldlM_nil, pure_eq_ok] at h
    cases h
    exact ⟨rfl, by simp, by simp, by simp, fun u hu => .inl hu, by simp⟩
  | id :: ids, c0, c1, u0, u1, p0, p1, h => by
    simp only [List.foldlM_cons, bind_eq_ok] at h
    obtain ⟨r, h1, h2⟩ := h
    rcases markConflicted_ok h1 with ⟨hp, rfl⟩ | ⟨hp, e, he, hpend, rfl⟩
    · have ih := markConflicts_effect h2
      dsimp only at hp
      refine ⟨ih.eq, ?_, ?_, ih.keep, ?_, ?_⟩
      · intro k hk
        apply ih.other
        rcases hk with hk | hk
        · exact .inl fun h => hk (List.mem_cons_of_mem _ h)
        · exact .inr hk
      · intro k hk hkp
        rcases List.mem_cons.1 hk with rfl | hk
        · exact absurd hp hkp
        · exact ih.marked k hk hkp
      · intro u hu
        rcases ih.undo u hu with h3 | ⟨k, e, hk, h3⟩
        · exact .inl h3
        · exact .inr ⟨k, e, List.mem_cons_of_mem _ hk, h3⟩
      · intro k
        rw [ih.processed k, List.mem_cons]
        constructor
        · rintro (h3 | h3)
          · exact .inl h3
          · exact .inr (.inr h3)
        · rintro (h3 | rfl | h3)
          · exact .inl h3
          · exact .inl hp
          · exact .inr h3
    · have ih := markConflicts_effect h2
      dsimp only at hp he
      refine ⟨?_, ?_, ?_, ?_, ?_, ?_⟩
      · rw [ih.eq]
      · intro k hk
        have hne : k ≠ id := by
          rintro rfl
          rcases hk with hk | hk
          · exact hk List.mem_cons_self
          · exact hp hk
        rw [ih.other k]
        · exact BMap.get_insert_ne _ _ hne
        · rcases hk with hk | hk
          · exact .inl fun h => hk (List.mem_cons_of_mem _ h)
          · exact .inr (List.mem_cons_of_mem _ hk)
      · intro k hk hkp
        by_cases hne : k = id
        · subst hne
          refine ⟨e, he, hpend, ?_, ?_⟩
          · rw [ih.other k (.inr List.mem_cons_self)]
            dsimp only
            rw [BMap.get_insert, if_pos rfl]
          · exact ih.keep _ (by simp)
        · rcases List.mem_cons.1 hk with h3 | hk
          · exact absurd h3 hne
          · obtain ⟨e', h3, h4, h5, h6⟩ := ih.marked k hk (by simp [hne, hkp])
            dsimp only at h3
            rw [BMap.get_insert_ne _ _ hne] at h3
            exact ⟨e', h3, h4, h5, h6⟩
      · intro u hu
        exact ih.keep _ (List.mem_append_left _ hu)
      · intro u hu
        rcases ih.undo u hu with h3 | ⟨k, e', hk, hkp, h3, h4, h5⟩
        · rcases List.mem_append.1 h3 with h3 | h3
          · exact .inl h3
          · exact .inr ⟨id, e, List.mem_cons_self, hp, he, (pending_live hpend).1, List.mem_singleton.1 h3⟩
        · have hne : k ≠ id := by
            rintro rfl
            exact hkp List.mem_cons_self
          dsimp only at h3
          rw [BMap.get_insert_ne _ _ hne] at h3
          exact .inr ⟨k, e', List.mem_cons_of_mem _ hk, fun h => hkp (List.mem_cons_of_mem _ h), h3, h4, h5⟩
      · intro k
        rw [ih.processed k, List.mem_cons, List.mem_cons]
        constructor
        · rintro ((h3 | h3) | h3)
          · exact .inr (.inl h3)
          · exact .inl h3
          · exact .inr (.inr h3)
        · rintro (h3 | h3 | h3)
          · exact .inl (.inr h3)
          · exact .inl (.inl h3)
          · exact .inr h3

theorem conflictOne_kill {cfg : Cfg} {block : Nat} {c c' : Cache} {p p' : List Nat} {id : Nat} (h : conflictOne cfg block (c, p) id = .ok (c', p'))
    (hp : ∀ k ∈ p, DeadIn c k) : Kill c c' ∧ ∀ k ∈ p', DeadIn c' k := by
  unfold conflictOne at h
  simp only [bind_eq_ok, pure_eq_ok] at h
  obtain ⟨⟨c1, undo, p1⟩, h1, c2, h2, h3⟩ := h
  cases h3
  obtain ⟨hr, hw⟩ := removeDesc_effect c id
  have hm := markConflicts_effect h1
  have hu := rollbacks_effect h2
  have htx : ∀ k, c'.txs.get k = c1.txs.get k := fun k => by rw [hu.txs]
  have hdesc : c'.desc = (removeDesc c id).1.desc := by rw [hu.desc, hm.eq]
  have hcon1 : c1.consumed = c.consumed := by rw [hm.eq, hr]
  have htx0 : ∀ k, (removeDesc c id).1.txs.get k = c.txs.get k := fun k => by rw [hr]
  have hdead : ∀ k, k ∈ (removeDesc c id).2 ∨ k ∈ p → DeadIn c' k := by
    intro k hk
    by_cases hkp : k ∈ p
    · obtain ⟨e, he, hs⟩ := hp k hkp
      exact ⟨e, by rw [htx k, hm.other k (.inr hkp), htx0 k, he], hs⟩
    · rcases hk with hk | hk
      · obtain ⟨e, _, _, h5, _⟩ := hm.marked k (List.mem_reverse.2 hk) hkp
        exact ⟨_, (htx k).trans h5, dead_conflicted block⟩
      · exact absurd hk hkp
  have hkilled : ∀ k e, KilledIn c c' k e → k ∈ (removeDesc c id).2 ∧ k ∉ p := by
    rintro k e ⟨h3, h4, e', h5, h6⟩
    by_contra hk
    rw [htx k, hm.other k, htx0 k, h3] at h5
    · cases h5
      exact h6 h4
    · by_cases hkp : k ∈ p
      · exact .inr hkp
      · exact .inl fun h => hk ⟨List.mem_reverse.1 h, hkp⟩
  refine ⟨⟨?_, ?_, ?_, ?_⟩, ?_⟩
  · intro k
    by_cases hk : k ∈ (removeDesc c id).2 ∧ k ∉ p
    · obtain ⟨e, h3, h4, h5, _⟩ := hm.marked k (List.mem_reverse.2 hk.1) hk.2
      exact .inr ⟨e, _, (htx0 k).symm.trans h3, (pending_live h4).2, (htx k).trans h5, dead_conflicted block⟩
    · refine .inl ?_
      rw [htx k, hm.other k, htx0 k]
      by_cases hkp : k ∈ p
      · exact .inr hkp
      · exact .inl fun h => hk ⟨List.mem_reverse.1 h, hkp⟩
  · intro o
    rw [hu.consumed o, hcon1]
    by_cases ho : ∃ u ∈ undo, u.Spends o
    · rw [if_pos ho]
      obtain ⟨u, hu1, hu2⟩ := ho
      rcases hm.undo u hu1 with h3 | ⟨k, e, hk, hkp, h3, h4, rfl⟩
      · simp at h3
      · exact .inl ⟨rfl, k, e, ⟨(htx0 k).symm.trans h3, h4, hdead k (.inl (List.mem_reverse.1 hk))⟩, hu2⟩
    · rw [if_neg ho]
      refine .inr ⟨rfl, ?_⟩
      intro k e hk hs
      obtain ⟨hk1, hk2⟩ := hkilled k e hk
      obtain ⟨e', h3, h4, h5, h6⟩ := hm.marked k (List.mem_reverse.2 hk1) hk2
      rw [htx0 k, hk.1] at h3
      cases h3
      exact ho ⟨_, h6, hs⟩
  · intro k
    rw [hdesc, hw.desc k]
    by_cases hk : k ∈ (removeDesc c id).2
    · rw [if_pos hk]
      exact .inr ⟨rfl, hdead k (.inl hk)⟩
    · rw [if_neg hk]
      exact .inl rfl
  · intro k e hk s hs x hx
    exact hdead x (.inl (hw.closed k (hkilled k e hk).1 s hs x hx))
  · intro k hk
    rcases (hm.processed k).1 hk with h3 | h3
    · exact hdead k (.inr h3)
    · exact hdead k (.inl (List.mem_reverse.1 h3))

theorem conflicts_kill {cfg : Cfg} {block : Nat} : ∀ {ids : List Nat} {c c' : Cache} {p p' : List Nat},
    ids.foldlM (conflictOne cfg block) (c, p) = .ok (c', p') → (∀ k ∈ p, DeadIn c k) → Kill c c'
  | [], c, c', p, p', h, _ => by
    simp only [List.foldlM_nil, pure_eq_ok] at h
    cases h
    exact Kill.refl c
  | id :: ids, c, c', p, p', h, hp => by
    simp only [List.foldlM_cons, bind_eq_ok] at h
    obtain ⟨⟨c1, p1⟩, h1, h2⟩ := h
    obtain ⟨hk, hp1⟩ := conflictOne_kill h1 hp
    exact hk.trans (conflicts_kill h2 hp1)

theorem updateConflicting_kill {cfg : Cfg} {block : Nat} {c c' : Cache} {u : WTx} (h : updateConflicting cfg c u block = .ok c') : Kill c c' := by
  unfold updateConflicting at h
  simp only [bind_eq_ok, pure_eq_ok] at h
  obtain ⟨⟨c1, p1⟩, h1, rfl⟩ := h
  exact conflicts_kill h1 (by simp)

end Verif.Cache
