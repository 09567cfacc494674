import Verif.Cache.Kill

/-!
# The map of consumed outputs follows the transactions
-/

namespace Verif.Cache
open Verif

/-- the classes of states for which the map of consumed outputs is right: closed under the loss of the mempool, without the dead ones -/
structure Class (P : St → Prop) : Prop where
  reset : ∀ s, P s.reset ↔ P s
  dead : ∀ s, s.IsDead → ¬ P s

theorem Class.confirmed : Class St.IsConfirmed := by
  refine ⟨fun s => ?_, fun s h hc => ?_⟩
  · cases s <;> simp [St.reset, St.IsConfirmed]
  · cases s <;> simp_all [St.IsConfirmed, St.IsDead, St.IsLive]

theorem Class.live : Class St.IsLive := by
  refine ⟨fun s => ?_, fun s h hc => h hc⟩
  cases s <;> simp [St.reset, St.IsLive]

theorem Class.isLive {P : St → Prop} (hP : Class P) {s : St} (h : P s) : s.IsLive := by
  by_contra hd
  exact hP.dead s hd h

/-- every transaction is stored under its id -/
def Keyed (c : Cache) : Prop := ∀ id t, c.txs.get id = some t → t.id = id

/-- an output is marked as consumed by a state of the class if and only if a transaction with that state spends it -/
def Tracks (P : St → Prop) (c : Cache) : Prop :=
  ∀ o s, P s → (c.consumed.get o = some s ↔ ∃ t, c.Knows t ∧ t.state = s ∧ t.Spends o)

/-- no other known transaction of the class spends an output that this one spends -/
def Free (P : St → Prop) (c : Cache) (t : WTx) : Prop :=
  ∀ e, c.Knows e → P e.state → e.id ≠ t.id → ∀ o, t.Spends o → ¬ e.Spends o

theorem Keyed.empty : Keyed {} := by
  intro id t h
  cases h

theorem Tracks.empty (P : St → Prop) : Tracks P {} := by
  intro o s _
  constructor
  · intro h
    cases h
  · rintro ⟨t, h, _⟩
    cases h

/-! ### Adding -/

theorem AddEffect.keyed {c c' : Cache} {t : WTx} (h : AddEffect c c' t) (hk : Keyed c) : Keyed c' := by
  intro id e he
  rw [h.txs, BMap.get_insert] at he
  split at he
  · cases he
    symm
    assumption
  · exact hk id e he

theorem AddEffect.knows {c c' : Cache} {t : WTx} (h : AddEffect c c' t) (e : WTx) : c'.Knows e ↔ e = t ∨ (c.Knows e ∧ e.id ≠ t.id) := by
  unfold Cache.Knows
  rw [h.txs, BMap.get_insert]
  by_cases he : e.id = t.id
  · rw [if_pos he]
    constructor
    · rintro ⟨⟩
      exact .inl rfl
    · rintro (rfl | ⟨_, h1⟩)
      · rfl
      · exact absurd he h1
  · rw [if_neg he]
    constructor
    · intro h1
      exact .inr ⟨h1, he⟩
    · rintro (rfl | ⟨h1, _⟩)
      · exact absurd rfl he
      · exact h1

theorem AddEffect.tracks {P : St → Prop} {c c' : Cache} {t : WTx} (h : AddEffect c c' t) (ht : Tracks P c) (hf : Free P c t) (hs : SameContents c t) :
    Tracks P c' := by
  intro o s hP
  rw [h.consumed o]
  by_cases ho : t.Spends o
  · rw [if_pos ho]
    constructor
    · rintro ⟨⟩
      exact ⟨t, (h.knows t).2 (.inl rfl), rfl, ho⟩
    · rintro ⟨e, he, rfl, hes⟩
      rcases (h.knows e).1 he with rfl | ⟨he, hne⟩
      · rfl
      · exact absurd hes (hf e he hP hne o ho)
  · rw [if_neg ho, ht o s hP]
    constructor
    · rintro ⟨e, he, rfl, hes⟩
      refine ⟨e, (h.knows e).2 (.inr ⟨he, ?_⟩), rfl, hes⟩
      intro heq
      obtain ⟨hi, _⟩ := hs e he heq
      exact ho (by unfold WTx.Spends at *; rw [← hi]; exact hes)
    · rintro ⟨e, he, rfl, hes⟩
      rcases (h.knows e).1 he with rfl | ⟨he, hne⟩
      · exact absurd hes ho
      · exact ⟨e, he, rfl, hes⟩

/-! ### Killing -/

theorem Kill.keyed {c c' : Cache} (h : Kill c c') (hk : Keyed c) : Keyed c' := by
  intro id e he
  rcases h.txs id with h1 | ⟨e', d, h1, _, h2, _⟩
  · exact hk id e (h1 ▸ he)
  · rw [h2] at he
    cases he
    exact hk id e' h1

theorem Kill.tracks {P : St → Prop} (hP : Class P) {c c' : Cache} (h : Kill c c') (hk : Keyed c) (ht : Tracks P c)
    (hf : ∀ id e, KilledIn c c' id e → Free P c e) : Tracks P c' := by
  have hkn : ∀ e, P e.state → (c'.Knows e ↔ c.Knows e ∧ ¬ KilledIn c c' e.id e) := by
    intro e hPe
    unfold Cache.Knows
    rcases h.txs e.id with h1 | ⟨e', d, h1, _, h2, h3⟩
    · rw [h1]
      constructor
      · intro he
        refine ⟨he, ?_⟩
        rintro ⟨_, h4, e2, h5, h6⟩
        rw [h1, he] at h5
        cases h5
        exact h6 h4
      · exact fun h => h.1
    · rw [h2, h1]
      constructor
      · rintro ⟨⟩
        exact absurd hPe (hP.dead _ h3)
      · rintro ⟨h4, h5⟩
        cases h4
        exact absurd ⟨h1, hP.isLive hPe, _, h2, h3⟩ h5
  intro o s hPs
  rcases h.consumed o with ⟨h1, id, e, h2, h3⟩ | ⟨h1, h2⟩
  · rw [h1]
    constructor
    · intro h4
      cases h4
    · rintro ⟨x, hx, rfl, hxs⟩
      exfalso
      obtain ⟨hx1, hx2⟩ := (hkn x hPs).1 hx
      have hid := hk id e h2.1
      by_cases hxe : x.id = e.id
      · have : x = e := by
          have h5 := hx1
          unfold Cache.Knows at h5
          rw [hxe, hid, h2.1] at h5
          cases h5
          rfl
        subst this
        exact hx2 (by rw [hid]; exact h2)
      · exact hf id e h2 x hx1 hPs hxe o h3 hxs
  · rw [h1, ht o s hPs]
    constructor
    · rintro ⟨x, hx, rfl, hxs⟩
      exact ⟨x, (hkn x hPs).2 ⟨hx, fun hk => h2 _ _ hk hxs⟩, rfl, hxs⟩
    · rintro ⟨x, hx, rfl, hxs⟩
      exact ⟨x, ((hkn x hPs).1 hx).1, rfl, hxs⟩

/-! ### The mempool is lost -/

theorem reset_get (c : Cache) (id : Nat) : (resetMempool c).txs.get id = (c.txs.get id).map fun t => { t with state := t.state.reset } := by
  unfold resetMempool
  dsimp only
  rw [BMap.get_mapV]

theorem reset_keyed {c : Cache} (hk : Keyed c) : Keyed (resetMempool c) := by
  intro id e he
  rw [reset_get] at he
  cases h : c.txs.get id with
  | none => rw [h] at he; cases he
  | some t =>
    rw [h] at he
    cases he
    exact hk id t h

theorem reset_knows {c : Cache} (e : WTx) : (resetMempool c).Knows e ↔ ∃ t, c.Knows t ∧ e = { t with state := t.state.reset } := by
  unfold Cache.Knows
  rw [reset_get]
  constructor
  · intro h
    cases ht : c.txs.get e.id with
    | none => rw [ht] at h; cases h
    | some t =>
      rw [ht] at h
      cases h
      exact ⟨t, ht, rfl⟩
  · rintro ⟨t, h, rfl⟩
    dsimp only
    rw [h]
    rfl

theorem reset_tracks {P : St → Prop} (hP : Class P) {c : Cache} (ht : Tracks P c) : Tracks P (resetMempool c) := by
  intro o s hPs
  have hcon : (resetMempool c).consumed.get o = (c.consumed.get o).map St.reset := by
    unfold resetMempool
    dsimp only
    rw [BMap.get_mapV]
  rw [hcon]
  constructor
  · intro h
    cases hc : c.consumed.get o with
    | none => rw [hc] at h; cases h
    | some s0 =>
      rw [hc] at h
      cases h
      obtain ⟨t, h1, h2, h3⟩ := (ht o s0 ((hP.reset s0).1 hPs)).1 hc
      exact ⟨_, (reset_knows _).2 ⟨t, h1, rfl⟩, by dsimp only; rw [h2], h3⟩
  · rintro ⟨e, he, rfl, hes⟩
    obtain ⟨t, h1, rfl⟩ := (reset_knows e).1 he
    have := (ht o t.state ((hP.reset _).1 hPs)).2 ⟨t, h1, rfl, hes⟩
    rw [this]
    rfl

/-! ### The chain is cut back -/

/-- confirmed transactions are gone, and nothing else happened -/
structure CutEffect (c c' : Cache) (ids : List Nat) : Prop where
  txs : ∀ id, c'.txs.get id = if id ∈ ids then none else c.txs.get id
  consumed : ∀ o, c'.consumed.get o = if ∃ id ∈ ids, ∃ t, c.txs.get id = some t ∧ t.Spends o then none else c.consumed.get o

theorem removeConfirmed_effect {cfg : Cfg} {c c' : Cache} {id : Nat} (h : removeConfirmed cfg c id = .ok c') : CutEffect c c' [id] := by
  unfold removeConfirmed at h
  simp only [bind_eq_ok, ensure_eq_ok, pure_eq_ok] at h
  obtain ⟨c1, h1, _, _, rfl⟩ := h
  unfold removeKnown at h1
  cases ht : c.txs.get id with
  | none =>
    rw [ht] at h1
    cases h1
    refine ⟨?_, ?_⟩
    · intro k
      by_cases hk : k ∈ [id]
      · rw [if_pos hk, List.mem_singleton.1 hk, ht]
      · rw [if_neg hk]
    · intro o
      rw [if_neg]
      rintro ⟨k, hk, t, h2, _⟩
      rw [List.mem_singleton.1 hk, ht] at h2
      cases h2
  | some t =>
    rw [ht] at h1
    dsimp only at h1
    split at h1
    · cases h1
    · obtain ⟨a1, a2, a3⟩ := rollback_effect h1
      refine ⟨?_, ?_⟩
      · intro k
        rw [a1]
        dsimp only
        rw [BMap.get_erase]
        simp only [List.mem_singleton]
      · intro o
        rw [a3 o]
        by_cases ho : t.Spends o
        · rw [if_pos ho, if_pos ⟨id, by simp, t, ht, ho⟩]
        · rw [if_neg ho, if_neg]
          rintro ⟨k, hk, t', h2, h3⟩
          rw [List.mem_singleton.1 hk, ht] at h2
          cases h2
          exact ho h3

theorem removeAll_effect {cfg : Cfg} : ∀ {ids : List Nat} {c c' : Cache}, ids.foldlM (removeConfirmed cfg) c = .ok c' → CutEffect c c' ids
  | [], c, c', h => by
    simp only [List.foldlM_nil, pure_eq_ok] at h
    subst h
    exact ⟨by simp, by simp⟩
  | id :: ids, c, c', h => by
    simp only [List.foldlM_cons, bind_eq_ok] at h
    obtain ⟨c1, h1, h2⟩ := h
    have e1 := removeConfirmed_effect h1
    have e2 := removeAll_effect h2
    refine ⟨?_, ?_⟩
    · intro k
      rw [e2.txs k, e1.txs k]
      by_cases hk : k ∈ ids
      · rw [if_pos hk, if_pos (List.mem_cons_of_mem _ hk)]
      · rw [if_neg hk]
        by_cases hkid : k = id
        · rw [if_pos (by simp [hkid]), if_pos (by simp [hkid])]
        · rw [if_neg (by simp [hkid]), if_neg (by simp [hkid, hk])]
    · intro o
      rw [e2.consumed o, e1.consumed o]
      by_cases h3 : ∃ k ∈ id :: ids, ∃ t, c.txs.get k = some t ∧ t.Spends o
      · rw [if_pos h3]
        obtain ⟨k, hk, t, ht, hs⟩ := h3
        by_cases hkid : k = id
        · subst hkid
          rw [if_pos (c := ∃ k' ∈ [k], ∃ t, c.txs.get k' = some t ∧ t.Spends o) ⟨k, by simp, t, ht, hs⟩]
          split <;> rfl
        · rw [if_pos]
          rcases List.mem_cons.1 hk with h4 | h4
          · exact absurd h4 hkid
          · exact ⟨k, h4, t, by rw [e1.txs k, if_neg (by simp [hkid])]; exact ht, hs⟩
      · rw [if_neg h3, if_neg, if_neg]
        · rintro ⟨k, hk, t, ht, hs⟩
          rw [List.mem_singleton.1 hk] at ht
          exact h3 ⟨id, List.mem_cons_self, t, ht, hs⟩
        · rintro ⟨k, hk, t, ht, hs⟩
          rw [e1.txs k] at ht
          split at ht
          · cases ht
          · exact h3 ⟨k, List.mem_cons_of_mem _ hk, t, ht, hs⟩

theorem mem_revoked {c : Cache} {h id : Nat} : id ∈ revoked c h ↔ ∃ t, c.txs.get id = some t ∧ t.state.IsConfirmed ∧ t.heightLe h = false := by
  unfold revoked
  rw [List.mem_map]
  simp only [List.mem_insertionSort, List.mem_filterMap]
  have habove : ∀ t : WTx, (∃ k, above h t = some k) ↔ t.state.IsConfirmed ∧ t.heightLe h = false := by
    intro t
    unfold above WTx.heightLe St.IsConfirmed
    cases t.state <;> simp
  constructor
  · rintro ⟨x, ⟨⟨k, t⟩, h1, h2⟩, rfl⟩
    cases ha : above h t with
    | none => rw [ha] at h2; cases h2
    | some k' =>
      rw [ha] at h2
      cases h2
      exact ⟨t, BMap.mem_entries.1 h1, (habove t).1 ⟨_, ha⟩⟩
  · rintro ⟨t, h1, h2⟩
    obtain ⟨k, hk⟩ := (habove t).2 h2
    exact ⟨(id, k), ⟨(id, t), BMap.mem_entries.2 h1, by dsimp only; rw [hk]; rfl⟩, rfl⟩

theorem cut_keyed {c c' : Cache} {ids : List Nat} (h : CutEffect c c' ids) (hk : Keyed c) : Keyed c' := by
  intro id e he
  rw [h.txs] at he
  split at he
  · cases he
  · exact hk id e he

theorem cut_knows {c c' : Cache} {ids : List Nat} (h : CutEffect c c' ids) (e : WTx) : c'.Knows e ↔ c.Knows e ∧ e.id ∉ ids := by
  unfold Cache.Knows
  rw [h.txs]
  by_cases he : e.id ∈ ids
  · rw [if_pos he]
    constructor
    · nofun
    · exact fun h => absurd he h.2
  · rw [if_neg he]
    exact ⟨fun h => ⟨h, he⟩, fun h => h.1⟩

theorem cut_tracks {P : St → Prop} {c c' : Cache} {ids : List Nat} (h : CutEffect c c' ids) (hk : Keyed c) (ht : Tracks P c)
    (hf : ∀ e, c.Knows e → e.id ∈ ids → Free P c e) : Tracks P c' := by
  intro o s hPs
  rw [h.consumed o]
  by_cases h1 : ∃ id ∈ ids, ∃ t, c.txs.get id = some t ∧ t.Spends o
  · rw [if_pos h1]
    constructor
    · nofun
    · rintro ⟨x, hx, rfl, hxs⟩
      exfalso
      obtain ⟨hx1, hx2⟩ := (cut_knows h x).1 hx
      obtain ⟨id, hid, t, h2, h3⟩ := h1
      have hti := hk id t h2
      subst hti
      by_cases hxt : x.id = t.id
      · rw [hxt] at hx2
        exact hx2 hid
      · exact hf t h2 hid x hx1 hPs hxt o h3 hxs
  · rw [if_neg h1, ht o s hPs]
    constructor
    · rintro ⟨x, hx, rfl, hxs⟩
      exact ⟨x, (cut_knows h x).2 ⟨hx, fun hi => h1 ⟨x.id, hi, x, hx, hxs⟩⟩, rfl, hxs⟩
    · rintro ⟨x, hx, rfl, hxs⟩
      exact ⟨x, ((cut_knows h x).1 hx).1, rfl, hxs⟩

/-! ### Loading -/

theorem load_effect {P : St → Prop} {cfg : Cfg} {best : Nat} : ∀ {l : List WTx} {c c' : Cache}, l.foldlM (addTx cfg best) c = .ok c' →
    l.Pairwise (fun a b => a.id ≠ b.id) → (∀ t ∈ l, c.txs.get t.id = none) → Keyed c → Tracks P c →
    (∀ t e, t ∈ l → (c.Knows e ∨ e ∈ l) → P e.state → e.id ≠ t.id → ∀ o, t.Spends o → ¬ e.Spends o) →
    Keyed c' ∧ Tracks P c' ∧ ∀ e, c'.Knows e ↔ c.Knows e ∨ e ∈ l
  | [], c, c', h, _, _, hk, ht, _ => by
    simp only [List.foldlM_nil, pure_eq_ok] at h
    subst h
    exact ⟨hk, ht, by simp⟩
  | t :: l, c, c', h, hd, hn, hk, ht, hf => by
    simp only [List.foldlM_cons, bind_eq_ok] at h
    obtain ⟨c1, h1, h2⟩ := h
    have hnone := hn t List.mem_cons_self
    have he : AddEffect c c1 t := by
      rcases addTx_effect h1 with ⟨_, e, h3, _⟩ | ⟨h3, _⟩
      · rw [hnone] at h3
        cases h3
      · exact h3
    have hd1 := List.pairwise_cons.1 hd
    have hkn : ∀ e, c1.Knows e ↔ e = t ∨ c.Knows e := by
      intro e
      rw [he.knows e]
      constructor
      · rintro (h3 | ⟨h3, _⟩)
        · exact .inl h3
        · exact .inr h3
      · rintro (h3 | h3)
        · exact .inl h3
        · refine .inr ⟨h3, ?_⟩
          intro heq
          unfold Cache.Knows at h3
          rw [heq, hnone] at h3
          cases h3
    have hfree : Free P c t := fun e he hPe hne o ho => hf t e List.mem_cons_self (.inl he) hPe hne o ho
    have hsame : SameContents c t := by
      intro e h3 heq
      unfold Cache.Knows at h3
      rw [heq, hnone] at h3
      cases h3
    obtain ⟨a1, a2, a3⟩ := load_effect (P := P) h2 hd1.2
      (by
        intro t' ht'
        rw [he.txs, BMap.get_insert_ne _ _ (fun h => hd1.1 t' ht' h.symm)]
        exact hn t' (List.mem_cons_of_mem _ ht'))
      (he.keyed hk) (he.tracks ht hfree hsame)
      (by
        intro t' e ht' h3 hPe hne o ho
        apply hf t' e (List.mem_cons_of_mem _ ht') _ hPe hne o ho
        rcases h3 with h3 | h3
        · rcases (hkn e).1 h3 with rfl | h3
          · exact .inr List.mem_cons_self
          · exact .inl h3
        · exact .inr (List.mem_cons_of_mem _ h3))
    refine ⟨a1, a2, ?_⟩
    intro e
    rw [a3 e, hkn e, List.mem_cons]
    constructor
    · rintro ((h3 | h3) | h3)
      · exact .inr (.inl h3)
      · exact .inl h3
      · exact .inr (.inr h3)
    · rintro (h3 | h3 | h3)
      · exact .inl (.inr h3)
      · exact .inl (.inl h3)
      · exact .inr h3

end Verif.Cache
