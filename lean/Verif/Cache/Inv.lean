import Verif.Cache.Track

/-!
# What holds along the histories
-/

namespace Verif.Cache
open Verif

theorem seen_append {cfg : Cfg} : ∀ {l m : List Nat}, seen cfg l = true → seen cfg (l ++ m) = true
  | [], _, h => by cases h
  | d :: l, m, h => by
    rw [seen] at h
    rw [List.cons_append, seen]
    split at h
    · cases h
    · rename_i h0
      rw [if_neg h0]
      split at h
      · rename_i h1
        rw [if_pos h1]
      · rename_i h1
        rw [if_neg h1]
        exact seen_append h

theorem seen_any {cfg : Cfg} : ∀ {l : List Nat}, seen cfg l = true → l.any (fun d => cfg.mine d || cfg.watched d) = true
  | [], h => by cases h
  | d :: l, h => by
    rw [seen] at h
    rw [List.any_cons]
    split at h
    · cases h
    · split at h
      · rename_i h1
        rw [h1]
        rfl
      · rw [seen_any h, Bool.or_true]

/-- a transaction with an output for this account is relevant -/
theorem relevant_output {cfg : Cfg} {c : Cache} {t : WTx} {out : Out} (h : out ∈ t.outputs) (hs : seen cfg out.dests = true) : relevant cfg c t = true := by
  unfold relevant
  rw [Bool.or_eq_true]
  exact .inr (List.any_eq_true.2 ⟨out, h, seen_append hs⟩)

/-- a transaction that spends an output of this account, which is known, is relevant -/
theorem relevant_input {cfg : Cfg} {c : Cache} {t p : WTx} {o : OutPoint} {out : Out} (hp : c.Knows p) (hc : p.Creates (o, out)) (hs : seen cfg out.dests = true)
    (ht : t.Spends o) : relevant cfg c t = true := by
  unfold relevant
  rw [Bool.or_eq_true]
  refine .inl (List.any_eq_true.2 ⟨_, ht, ?_⟩)
  rw [relevantInput, getTxo]
  obtain ⟨h1, h2⟩ := hc
  dsimp only at h1 h2
  unfold Cache.Knows at hp
  rw [h1, hp]
  dsimp only
  rw [h2]
  simp only [Option.any_some, mineOrWatched, destsOf, List.any_append, seen_any hs, Bool.true_or]

/-- what holds along the histories -/
structure Inv (cfg : Cfg) (chain : List WTx) (c : Cache) : Prop where
  valid : ValidChain chain
  keyed : Keyed c
  tracks : Tracks St.IsConfirmed c
  conf : ∀ t, c.Knows t → t.state.IsConfirmed → t ∈ chain
  own : ∀ t ∈ chain, (∃ out ∈ t.outputs, seen cfg out.dests = true) → c.Knows t
  spend : ∀ p ∈ chain, ∀ t ∈ chain, ∀ o out, p.Creates (o, out) → seen cfg out.dests = true → t.Spends o → c.Knows t

theorem pairwise_mem {A : Type} {R : A → A → Prop} {l : List A} (h : l.Pairwise R) {a b : A} (ha : a ∈ l) (hb : b ∈ l) (hne : a ≠ b) : R a b ∨ R b a := by
  induction h with
  | nil => cases ha
  | cons h1 _ ih =>
    rcases List.mem_cons.1 ha with ha1 | ha1
    · rcases List.mem_cons.1 hb with hb1 | hb1
      · exact absurd (ha1.trans hb1.symm) hne
      · exact .inl (ha1 ▸ h1 b hb1)
    · rcases List.mem_cons.1 hb with hb1 | hb1
      · exact .inr (hb1 ▸ h1 a ha1)
      · exact ih ha1 hb1

theorem ValidChain.disjoint {chain : List WTx} (h : ValidChain chain) {a b : WTx} (ha : a ∈ chain) (hb : b ∈ chain) (hne : a ≠ b) :
    a.id ≠ b.id ∧ ∀ o, a.Spends o → ¬ b.Spends o := by
  rcases pairwise_mem h.order ha hb hne with ⟨h1, h2, _⟩ | ⟨h1, h2, _⟩
  · exact ⟨h1, h2⟩
  · exact ⟨fun h => h1 h.symm, fun o h3 h4 => h2 o h4 h3⟩

theorem ValidChain.append {chain : List WTx} {t : WTx} (h : ValidChain (chain ++ [t])) :
    ValidChain chain ∧ t.state.IsConfirmed ∧ ∀ x ∈ chain, x.id ≠ t.id ∧ (∀ o, x.Spends o → ¬ t.Spends o) ∧ ∀ o, x.Spends o → (ofLex o).1 ≠ t.id := by
  have h1 := List.pairwise_append.1 h.order
  exact ⟨⟨fun x hx => h.confirmed x (List.mem_append_left _ hx), h1.1⟩, h.confirmed t (by simp), fun x hx => h1.2.2 x hx t (by simp)⟩

theorem ValidChain.filter {chain : List WTx} (h : ValidChain chain) (p : WTx → Bool) : ValidChain (chain.filter p) :=
  ⟨fun t ht => h.confirmed t (List.mem_filter.1 ht).1, h.order.filter _⟩

theorem confirmed_unconfirmed {s : St} : s.IsConfirmed ↔ s.isUnconfirmed = false := by
  cases s <;> simp [St.IsConfirmed, St.isUnconfirmed]

theorem pending_not_confirmed {s : St} (h : s.IsPending) : ¬ s.IsConfirmed := by
  cases s <;> simp_all [St.IsConfirmed, St.IsPending]

theorem sameOrConfirmed_confirmed {a b : St} (ha : a.IsConfirmed) : sameOrConfirmed a b = true := by
  cases a <;> simp_all [St.IsConfirmed, sameOrConfirmed]

theorem confirmed_of_same {a b : St} (hb : b.IsConfirmed) (h : sameOrConfirmed a b = true) : a.IsConfirmed := by
  cases b <;> cases a <;> simp_all [St.IsConfirmed, sameOrConfirmed]

theorem Inv.start (cfg : Cfg) : Inv cfg [] {} := by
  refine ⟨⟨by simp, List.Pairwise.nil⟩, Keyed.empty, Tracks.empty _, ?_, by simp, by simp⟩
  intro t h
  cases h

/-- a transaction the cache has and that is confirmed survives when others die -/
theorem Kill.knows_confirmed {c c' : Cache} (h : Kill c c') {t : WTx} (hc : t.state.IsConfirmed) : c'.Knows t ↔ c.Knows t := by
  unfold Cache.Knows
  rcases h.txs t.id with h1 | ⟨e, d, h1, h2, h3, h4⟩
  · rw [h1]
  · rw [h1, h3]
    constructor
    · rintro ⟨⟩
      exact absurd hc (Class.confirmed.dead _ h4)
    · rintro ⟨⟩
      rw [confirmed_unconfirmed.1 hc] at h2
      cases h2

theorem Inv.kill {cfg : Cfg} {chain : List WTx} {c c' : Cache} (hi : Inv cfg chain c) (hk : Kill c c') (hf : ∀ id e, KilledIn c c' id e → Free St.IsConfirmed c e) :
    Inv cfg chain c' := by
  refine ⟨hi.valid, hk.keyed hi.keyed, hk.tracks Class.confirmed hi.keyed hi.tracks hf, ?_, ?_, ?_⟩
  · intro t ht hc
    exact hi.conf t ((hk.knows_confirmed hc).1 ht) hc
  · intro t ht ho
    exact (hk.knows_confirmed (hi.valid.confirmed t ht)).2 (hi.own t ht ho)
  · intro p hp t ht o out h1 h2 h3
    exact (hk.knows_confirmed (hi.valid.confirmed t ht)).2 (hi.spend p hp t ht o out h1 h2 h3)

theorem connect_effect {cfg : Cfg} {best block : Nat} {c c' : Cache} {t : WTx} (h : connect cfg best c t block = .ok c') :
    ∃ c1, Kill c c1 ∧ addIfRelevant cfg best c1 t = .ok c' := by
  unfold connect at h
  split at h
  · exact ⟨c, Kill.refl c, h⟩
  · simp only [bind_eq_ok] at h
    obtain ⟨c1, h1, h2⟩ := h
    exact ⟨c1, updateConflicting_kill h1, h2⟩

theorem addIfRelevant_effect {cfg : Cfg} {best : Nat} {c c' : Cache} {t : WTx} (h : addIfRelevant cfg best c t = .ok c') :
    (c' = c ∧ (relevant cfg c t = false ∨ ∃ e, c.txs.get t.id = some e ∧ sameOrConfirmed e.state t.state = true)) ∨
      (AddEffect c c' t ∧ ∀ e, c.txs.get t.id = some e → sameOrConfirmed e.state t.state = false) := by
  unfold addIfRelevant at h
  split at h
  · rcases addTx_effect h with ⟨h1, h2⟩ | h1
    · exact .inl ⟨h1, .inr h2⟩
    · exact .inr h1
  · rename_i hr
    cases h
    exact .inl ⟨rfl, .inl (by simpa using hr)⟩

theorem addIfRelevant_other {cfg : Cfg} {best : Nat} {c c' : Cache} {t : WTx} (h : addIfRelevant cfg best c t = .ok c') {id : Nat} (hne : id ≠ t.id) :
    c'.txs.get id = c.txs.get id := by
  rcases addIfRelevant_effect h with ⟨rfl, _⟩ | ⟨he, _⟩
  · rfl
  · rw [he.txs, BMap.get_insert_ne _ _ hne]

theorem Kill.contents {c c' : Cache} (h : Kill c c') (hk : Keyed c) {t : WTx} (hs : SameContents c t) : SameContents c' t := by
  intro e he heq
  unfold Cache.Knows at he
  rcases h.txs e.id with h1 | ⟨e', d, h1, h2, h3, h4⟩
  · exact hs e (h1.symm.trans he) heq
  · rw [h3] at he
    cases he
    have hid := hk _ e' h1
    exact hs e' (by unfold Cache.Knows; exact h1) heq

theorem Inv.connect {cfg : Cfg} {chain : List WTx} {c c' : Cache} {best block : Nat} {t : WTx} (hi : Inv cfg chain c) (hv : ValidChain (chain ++ [t])) (hs : SameContents c t)
    (h : connect cfg best c t block = .ok c') (hm : MarksUndisputed c c') : Inv cfg (chain ++ [t]) c' := by
  obtain ⟨hv0, htc, hvt⟩ := hv.append
  obtain ⟨c1, hk, ha⟩ := connect_effect h
  have hi1 : Inv cfg chain c1 := by
    refine hi.kill hk ?_
    intro id e hke
    have hid := hi.keyed id e hke.1
    subst hid
    by_cases hne : e.id = t.id
    · intro x hx hxc hxe o ho hxo
      refine (hvt x (hi.conf x hx hxc)).2.1 o hxo ?_
      have := (hs e hke.1 hne).1
      unfold WTx.Spends at *
      rw [← this]
      exact ho
    · obtain ⟨e', h1, h2⟩ := hke.2.2
      have hid' := hk.keyed hi.keyed e.id e' h1
      refine hm e e' hke.1 ?_ hid'.symm hke.2.1 h2
      unfold Cache.Knows
      rw [hid', addIfRelevant_other ha hne]
      exact h1
  have hs1 := hk.contents hi.keyed hs
  have hfree : Free St.IsConfirmed c1 t := fun x hx hxc hxe o ho hxo => (hvt x (hi1.conf x hx hxc)).2.1 o hxo ho
  rcases addIfRelevant_effect ha with ⟨rfl, hr | ⟨e, he, hsame⟩⟩ | ⟨he, hnew⟩
  · -- not relevant
    have hout : ∀ out ∈ t.outputs, seen cfg out.dests = true → False := by
      intro out ho hseen
      rw [relevant_output ho hseen] at hr
      cases hr
    refine ⟨hv, hi1.keyed, hi1.tracks, ?_, ?_, ?_⟩
    · exact fun x hx hc => List.mem_append_left _ (hi1.conf x hx hc)
    · intro x hx ⟨out, ho, hseen⟩
      rcases List.mem_append.1 hx with hx | hx
      · exact hi1.own x hx ⟨out, ho, hseen⟩
      · rw [List.mem_singleton.1 hx] at ho
        exact absurd hseen (hout out ho)
    · intro p hp x hx o out h1 h2 h3
      have hpt : p ∈ chain := by
        rcases List.mem_append.1 hp with hp | hp
        · exact hp
        · rw [List.mem_singleton.1 hp] at h1
          exact absurd h2 (hout out (List.mem_of_getElem? h1.2))
      rcases List.mem_append.1 hx with hx | hx
      · exact hi1.spend p hpt x hx o out h1 h2 h3
      · rw [List.mem_singleton.1 hx] at h3
        have hpk := hi1.own p hpt ⟨out, List.mem_of_getElem? h1.2, h2⟩
        rw [relevant_input hpk h1 h2 h3] at hr
        cases hr
  · -- already there: impossible
    exfalso
    have hec := confirmed_of_same htc hsame
    have hid := hi1.keyed _ _ he
    have hin := hi1.conf e (by unfold Cache.Knows; rw [hid]; exact he) hec
    exact (hvt e hin).1 hid
  · -- added
    have hkn : ∀ x ∈ chain, c1.Knows x → c'.Knows x := fun x hx h => (he.knows x).2 (.inr ⟨h, (hvt x hx).1⟩)
    refine ⟨hv, he.keyed hi1.keyed, he.tracks hi1.tracks hfree hs1, ?_, ?_, ?_⟩
    · intro x hx hc
      rcases (he.knows x).1 hx with rfl | ⟨hx, _⟩
      · simp
      · exact List.mem_append_left _ (hi1.conf x hx hc)
    · intro x hx ho
      rcases List.mem_append.1 hx with hx | hx
      · exact hkn x hx (hi1.own x hx ho)
      · rw [List.mem_singleton.1 hx]
        exact (he.knows t).2 (.inl rfl)
    · intro p hp x hx o out h1 h2 h3
      rcases List.mem_append.1 hx with hx | hx
      · rcases List.mem_append.1 hp with hp | hp
        · exact hkn x hx (hi1.spend p hp x hx o out h1 h2 h3)
        · rw [List.mem_singleton.1 hp] at h1
          exact absurd h1.1 ((hvt x hx).2.2 o h3)
      · rw [List.mem_singleton.1 hx]
        exact (he.knows t).2 (.inl rfl)

theorem Inv.cut {cfg : Cfg} {chain : List WTx} {c c' : Cache} {h : Nat} (hi : Inv cfg chain c) (hc : resetTo cfg c h = .ok c') :
    Inv cfg (chain.filter fun t => t.heightLe h) c' := by
  unfold resetTo at hc
  have he := removeAll_effect hc
  have hrev : ∀ t, c.Knows t → (t.id ∈ revoked c h ↔ t.state.IsConfirmed ∧ t.heightLe h = false) := by
    intro t ht
    rw [mem_revoked]
    constructor
    · rintro ⟨t', h1, h2⟩
      unfold Cache.Knows at ht
      rw [ht] at h1
      cases h1
      exact h2
    · exact fun h2 => ⟨t, ht, h2⟩
  have hkeep : ∀ t ∈ chain.filter (fun t => t.heightLe h), c.Knows t → c'.Knows t := by
    intro t ht hk
    refine (cut_knows he t).2 ⟨hk, ?_⟩
    rw [hrev t hk]
    rintro ⟨_, h1⟩
    have := (List.mem_filter.1 ht).2
    rw [h1] at this
    cases this
  refine ⟨hi.valid.filter _, cut_keyed he hi.keyed, cut_tracks he hi.keyed hi.tracks ?_, ?_, ?_, ?_⟩
  · intro e hke hid x hx hxc hne o ho hxo
    have hec := ((hrev e hke).1 hid).1
    exact (hi.valid.disjoint (hi.conf x hx hxc) (hi.conf e hke hec) (fun h => hne (by rw [h]))).2 o hxo ho
  · intro t ht htc
    obtain ⟨h1, h2⟩ := (cut_knows he t).1 ht
    refine List.mem_filter.2 ⟨hi.conf t h1 htc, ?_⟩
    cases h3 : t.heightLe h with
    | true => rfl
    | false => exact absurd ((hrev t h1).2 ⟨htc, h3⟩) h2
  · intro t ht ho
    exact hkeep t ht (hi.own t (List.mem_filter.1 ht).1 ho)
  · intro p hp t ht o out h1 h2 h3
    exact hkeep t ht (hi.spend p (List.mem_filter.1 hp).1 t (List.mem_filter.1 ht).1 o out h1 h2 h3)

theorem Inv.unconfirmed {cfg : Cfg} {chain : List WTx} {c c' : Cache} {best : Nat} {t : WTx} (hi : Inv cfg chain c) (hp : t.state.IsPending) (hs : SameContents c t)
    (hu : Undisputed c t) (ha : addIfRelevant cfg best c t = .ok c') : Inv cfg chain c' := by
  rcases addIfRelevant_effect ha with ⟨rfl, _⟩ | ⟨he, hnew⟩
  · exact hi
  · have hne : ∀ x ∈ chain, c.Knows x → x.id ≠ t.id := by
      intro x hx hk heq
      have h1 := hnew x (by unfold Cache.Knows at hk; rw [← heq]; exact hk)
      rw [sameOrConfirmed_confirmed (hi.valid.confirmed x hx)] at h1
      cases h1
    refine ⟨hi.valid, he.keyed hi.keyed, he.tracks hi.tracks hu hs, ?_, ?_, ?_⟩
    · intro x hx hc
      rcases (he.knows x).1 hx with rfl | ⟨hx, _⟩
      · exact absurd hc (pending_not_confirmed hp)
      · exact hi.conf x hx hc
    · intro x hx ho
      have hk := hi.own x hx ho
      exact (he.knows x).2 (.inr ⟨hk, hne x hx hk⟩)
    · intro p hpc x hx o out h1 h2 h3
      have hk := hi.spend p hpc x hx o out h1 h2 h3
      exact (he.knows x).2 (.inr ⟨hk, hne x hx hk⟩)

theorem reset_confirmed {s : St} (h : s.IsConfirmed) : s.reset = s := by
  cases s <;> simp_all [St.IsConfirmed, St.reset]

theorem reset_knows_confirmed {c : Cache} {t : WTx} (hc : t.state.IsConfirmed) : (resetMempool c).Knows t ↔ c.Knows t := by
  rw [reset_knows]
  constructor
  · rintro ⟨e, h1, rfl⟩
    have h2 : e.state.reset = e.state := by
      dsimp only at hc
      exact reset_confirmed ((Class.confirmed.reset _).1 hc)
    have : ({ e with state := e.state.reset } : WTx) = e := by rw [h2]
    rw [this]
    exact h1
  · intro h
    exact ⟨t, h, by rw [reset_confirmed hc]⟩

theorem Inv.offline {cfg : Cfg} {chain : List WTx} {c : Cache} (hi : Inv cfg chain c) : Inv cfg chain (resetMempool c) := by
  refine ⟨hi.valid, reset_keyed hi.keyed, reset_tracks Class.confirmed hi.tracks, ?_, ?_, ?_⟩
  · intro t ht hc
    exact hi.conf t ((reset_knows_confirmed hc).1 ht) hc
  · intro t ht ho
    exact (reset_knows_confirmed (hi.valid.confirmed t ht)).2 (hi.own t ht ho)
  · intro p hp t ht o out h1 h2 h3
    exact (reset_knows_confirmed (hi.valid.confirmed t ht)).2 (hi.spend p hp t ht o out h1 h2 h3)

theorem Inv.abandon {cfg : Cfg} {chain : List WTx} {c c' : Cache} {id : Nat} (hi : Inv cfg chain c) (ha : abandon cfg c id = .ok c') (hm : MarksUndisputed c c') :
    Inv cfg chain c' := by
  obtain ⟨hk, _⟩ := abandon_kill ha
  refine hi.kill hk ?_
  intro k e hke
  have hid := hi.keyed k e hke.1
  subst hid
  obtain ⟨e', h1, h2⟩ := hke.2.2
  have hid' := hk.keyed hi.keyed e.id e' h1
  exact hm e e' hke.1 (by unfold Cache.Knows; rw [hid']; exact h1) hid'.symm hke.2.1 h2

theorem Stored.ids {c : Cache} {l : List WTx} (h : Stored c l) : l.Pairwise fun a b => a.id ≠ b.id := by
  refine List.Pairwise.imp_of_mem ?_ h.1
  intro a b ha hb hne heq
  have h1 := (h.2 a).1 ha
  have h2 := (h.2 b).1 hb
  unfold Cache.Knows at h1 h2
  rw [heq, h2] at h1
  cases h1
  exact hne rfl

/-- what a restart does: the same transactions are known, those of the mempool are waiting -/
theorem reload_effect {P : St → Prop} (hP : Class P) {cfg : Cfg} {best : Nat} {c c' : Cache} {l : List WTx} (hl : Stored c l) (h : reload cfg best l = .ok c')
    (hf : ∀ t, c.Knows t → Free P c t) :
    Keyed c' ∧ Tracks P c' ∧ ∀ e, c'.Knows e ↔ ∃ t, c.Knows t ∧ e = { t with state := t.state.reset } := by
  unfold reload at h
  simp only [bind_eq_ok, pure_eq_ok] at h
  obtain ⟨c1, h1, rfl⟩ := h
  unfold load at h1
  obtain ⟨a1, a2, a3⟩ := load_effect (P := P) h1 hl.ids (fun _ _ => rfl) Keyed.empty (Tracks.empty P) (by
    intro t e ht he hPe hne o ho
    rcases he with he | he
    · cases he
    · exact hf t ((hl.2 t).1 ht) e ((hl.2 e).1 he) hPe hne o ho)
  have hkn : ∀ e, c1.Knows e ↔ c.Knows e := by
    intro e
    rw [a3 e, hl.2 e]
    exact ⟨fun h => h.resolve_left (by nofun), .inr⟩
  refine ⟨reset_keyed a1, reset_tracks hP a2, ?_⟩
  intro e
  rw [reset_knows]
  simp only [hkn]

theorem Inv.restart {cfg : Cfg} {chain : List WTx} {c c' : Cache} {best : Nat} {l : List WTx} (hi : Inv cfg chain c) (hl : Stored c l) (hu : ∀ t, c.Knows t → Undisputed c t)
    (h : reload cfg best l = .ok c') : Inv cfg chain c' := by
  obtain ⟨a1, a2, a3⟩ := reload_effect Class.confirmed hl h hu
  have hkn : ∀ t, t.state.IsConfirmed → (c'.Knows t ↔ c.Knows t) := by
    intro t hc
    rw [a3 t, ← reset_knows, reset_knows_confirmed hc]
  refine ⟨hi.valid, a1, a2, ?_, ?_, ?_⟩
  · intro t ht hc
    exact hi.conf t ((hkn t hc).1 ht) hc
  · intro t ht ho
    exact (hkn t (hi.valid.confirmed t ht)).2 (hi.own t ht ho)
  · intro p hp t ht o out h1 h2 h3
    exact (hkn t (hi.valid.confirmed t ht)).2 (hi.spend p hp t ht o out h1 h2 h3)

theorem Run.inv {cfg : Cfg} {G : Cache → Prop} {chain : List WTx} {c : Cache} (h : Run cfg G chain c) : Inv cfg chain c := by
  induction h with
  | start => exact Inv.start cfg
  | connect best block t _ hv hs hc hm _ ih => exact ih.connect hv hs hc hm
  | cut h _ hc _ ih => exact ih.cut hc
  | unconfirmed best t _ hp hs hu ha _ ih => exact ih.unconfirmed hp hs hu ha
  | offline _ _ ih => exact ih.offline
  | abandon id _ ha hm _ ih => exact ih.abandon ha hm
  | restart best l _ hl hu hr _ ih => exact ih.restart hl hu hr

/-! ### Without double spending: all live transactions -/

theorem NoDoubleSpend.free {c : Cache} (h : NoDoubleSpend c) (P : St → Prop) {t : WTx} (ht : c.Knows t) : Free P c t :=
  fun e he _ hne o ho heo => h e t he ht hne o heo ho

/-- a run in which no output is spent by two of the transactions the wallet knows -/
theorem Run.live {cfg : Cfg} {chain : List WTx} {c : Cache} (h : Run cfg NoDoubleSpend chain c) : Tracks St.IsLive c ∧ NoDoubleSpend c := by
  induction h with
  | start =>
    refine ⟨Tracks.empty _, ?_⟩
    intro a b h
    cases h
  | @connect chain c c' best block t hr hv hs hc hm hg ih =>
    refine ⟨?_, hg⟩
    have hi := hr.inv
    obtain ⟨c1, hk, ha⟩ := connect_effect hc
    have hkeyed := hk.keyed hi.keyed
    have h1 : Tracks St.IsLive c1 := hk.tracks Class.live hi.keyed ih.1 (fun id e hke => by
      have hid := hi.keyed id e hke.1
      subst hid
      exact ih.2.free _ hke.1)
    rcases addIfRelevant_effect ha with ⟨rfl, _⟩ | ⟨he, _⟩
    · exact h1
    · refine he.tracks h1 ?_ (hk.contents hi.keyed hs)
      intro e hke _ hne o ho heo
      exact hg e t ((he.knows e).2 (.inr ⟨hke, hne⟩)) ((he.knows t).2 (.inl rfl)) hne o heo ho
  | @cut chain c c' h hr hc hg ih =>
    refine ⟨?_, hg⟩
    unfold resetTo at hc
    exact cut_tracks (removeAll_effect hc) hr.inv.keyed ih.1 (fun e he _ => ih.2.free _ he)
  | @unconfirmed chain c c' best t hr hp hs hu ha hg ih =>
    refine ⟨?_, hg⟩
    rcases addIfRelevant_effect ha with ⟨rfl, _⟩ | ⟨he, _⟩
    · exact ih.1
    · refine he.tracks ih.1 ?_ hs
      intro e hke _ hne o ho heo
      exact hg e t ((he.knows e).2 (.inr ⟨hke, hne⟩)) ((he.knows t).2 (.inl rfl)) hne o heo ho
  | offline _ hg ih => exact ⟨reset_tracks Class.live ih.1, hg⟩
  | @abandon chain c c' id hr ha hm hg ih =>
    refine ⟨?_, hg⟩
    refine (abandon_kill ha).1.tracks Class.live hr.inv.keyed ih.1 ?_
    intro k e hke
    have hid := hr.inv.keyed k e hke.1
    subst hid
    exact ih.2.free _ hke.1
  | restart best l hr hl hu hre hg ih => exact ⟨(reload_effect Class.live hl hre fun t ht => ih.2.free _ ht).2.1, hg⟩

/-! ### The view -/

theorem mem_outs {t : WTx} {x : OutPoint × Out} : x ∈ t.outs ↔ t.Creates x := by
  unfold WTx.outs WTx.Creates
  rw [List.mem_map]
  constructor
  · rintro ⟨⟨out, i⟩, h, rfl⟩
    exact ⟨rfl, List.mem_zipIdx_iff_getElem?.1 h⟩
  · rintro ⟨h1, h2⟩
    refine ⟨(x.2, (ofLex x.1).2), List.mem_zipIdx_iff_getElem?.2 h2, ?_⟩
    dsimp only
    rw [← h1]
    rfl

theorem mem_utxos {c : Cache} (hk : Keyed c) {states : Kind → Bool} {keep : Option (Nat × Nat) → OutPoint × Out → Bool} {x : OutPoint × Out} :
    x ∈ utxos c states keep ↔ ∃ t, c.Knows t ∧ states t.state.kind = true ∧ t.Creates x ∧ isConsumed c states x.1 = false ∧ keep t.block x = true := by
  unfold utxos
  simp only [List.mem_flatMap, List.mem_filter, Bool.and_eq_true, Bool.not_eq_true']
  constructor
  · rintro ⟨⟨id, t⟩, ⟨h1, h2⟩, h3, h4, h5⟩
    have h6 := BMap.mem_entries.1 h1
    have hid := hk id t h6
    exact ⟨t, by unfold Cache.Knows; rw [hid]; exact h6, h2, mem_outs.1 h3, h4, h5⟩
  · rintro ⟨t, h1, h2, h3, h4, h5⟩
    exact ⟨(t.id, t), ⟨BMap.mem_entries.2 h1, h2⟩, mem_outs.2 h3, h4, h5⟩

theorem isConsumed_iff {P : St → Prop} {c : Cache} (ht : Tracks P c) {states : Kind → Bool} (hs : ∀ s : St, states s.kind = true ↔ P s) (o : OutPoint) :
    isConsumed c states o = true ↔ ∃ t, c.Knows t ∧ P t.state ∧ t.Spends o := by
  unfold isConsumed
  constructor
  · intro h
    cases hc : c.consumed.get o with
    | none => rw [hc] at h; cases h
    | some s =>
      rw [hc] at h
      have hP := (hs s).1 h
      obtain ⟨t, h1, h2, h3⟩ := (ht o s hP).1 hc
      exact ⟨t, h1, h2 ▸ hP, h3⟩
  · rintro ⟨t, h1, h2, h3⟩
    rw [(ht o t.state h2).2 ⟨t, h1, rfl, h3⟩]
    exact (hs _).2 h2

theorem onlyConfirmed_iff (s : St) : onlyConfirmed s.kind = true ↔ s.IsConfirmed := by
  cases s <;> simp [onlyConfirmed, St.kind, St.IsConfirmed]

theorem live_iff (s : St) : live s.kind = true ↔ s.IsLive := by
  cases s <;> simp [Verif.Cache.live, St.kind, St.IsLive]

/-- no output is listed twice -/
theorem utxos_nodup {c : Cache} (hk : Keyed c) (states : Kind → Bool) (keep : Option (Nat × Nat) → OutPoint × Out → Bool) :
    ((utxos c states keep).map (·.1)).Nodup := by
  unfold utxos
  rw [List.map_flatMap]
  refine List.nodup_flatMap.2 ⟨?_, ?_⟩
  · intro e _
    refine List.Nodup.sublist (List.Sublist.map _ List.filter_sublist) ?_
    unfold WTx.outs
    rw [List.map_map]
    have : ((fun x : OutPoint × Out => x.1) ∘ fun x : Out × Nat => ((toLex (e.2.id, x.2) : OutPoint), x.1)) = (fun i : Nat => (toLex (e.2.id, i) : OutPoint)) ∘ Prod.snd := rfl
    rw [this, ← List.map_map, List.zipIdx_map_snd]
    refine List.Nodup.map ?_ (List.nodup_range' (step := 1))
    intro a b h
    have : ((e.2.id, a) : Nat × Nat) = (e.2.id, b) := h
    exact (Prod.mk.inj this).2
  · refine List.Pairwise.imp_of_mem ?_ (List.Pairwise.filter _ c.txs.sorted)
    intro a b ha hb hlt
    have ha' := BMap.mem_entries.1 (List.mem_filter.1 ha).1
    have hb' := BMap.mem_entries.1 (List.mem_filter.1 hb).1
    have h1 := hk _ _ ha'
    have h2 := hk _ _ hb'
    intro o ho1 ho2
    obtain ⟨x, hx, rfl⟩ := List.mem_map.1 ho1
    obtain ⟨y, hy, hxy⟩ := List.mem_map.1 ho2
    have h3 := (mem_outs.1 (List.mem_filter.1 hx).1).1
    have h4 := (mem_outs.1 (List.mem_filter.1 hy).1).1
    rw [hxy, h3, h1, h2] at h4
    exact absurd h4 (ne_of_lt hlt)

end Verif.Cache
