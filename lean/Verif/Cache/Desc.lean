import Verif.Cache.Inv

/-!
# Waiting transactions never depend on ones that were given up
-/

namespace Verif.Cache
open Verif

theorem pending_of {s : St} (h : s.isUnconfirmed = true) (hd : ¬ s.IsDead) : s.IsPending := by
  cases s <;> simp_all [St.isUnconfirmed, St.IsPending, St.IsDead, St.IsLive]

theorem pending_alive {s : St} (h : s.IsPending) : ¬ s.IsDead := fun hd => hd (pending_live h).1

/-- what holds along calm histories -/
structure Linked (c : Cache) : Prop where
  keyed : Keyed c
  entry : ∀ p, c.Knows p → p.state.IsPending → ∃ s, c.desc.get p.id = some s
  link : ∀ t p, c.Knows t → c.Knows p → t.state.IsPending → p.state.isUnconfirmed = true → ∀ o, t.Spends o → (ofLex o).1 = p.id →
    p.state.IsPending ∧ ∃ s, c.desc.get p.id = some s ∧ (s.get t.id).isSome

theorem Linked.start : Linked {} := by
  refine ⟨Keyed.empty, ?_, ?_⟩
  · intro p h
    cases h
  · intro t p h
    cases h

/-- a waiting transaction after some have died was there before -/
theorem Kill.knows_pending {c c' : Cache} (h : Kill c c') {t : WTx} (hp : t.state.IsPending) (ht : c'.Knows t) : c.Knows t := by
  unfold Cache.Knows at *
  rcases h.txs t.id with h1 | ⟨e, d, h1, h2, h3, h4⟩
  · exact h1.symm.trans ht
  · rw [h3] at ht
    cases ht
    exact absurd h4 (pending_alive hp)

theorem Linked.kill {c c' : Cache} (hl : Linked c) (hk : Kill c c') : Linked c' := by
  have hdesc : ∀ p : WTx, c'.Knows p → p.state.IsPending → c'.desc.get p.id = c.desc.get p.id := by
    intro p hp hpp
    rcases hk.desc p.id with h1 | ⟨_, e, h2, h3⟩
    · exact h1
    · unfold Cache.Knows at hp
      rw [hp] at h2
      cases h2
      exact absurd h3 (pending_alive hpp)
  refine ⟨hk.keyed hl.keyed, ?_, ?_⟩
  · intro p hp hpp
    rw [hdesc p hp hpp]
    exact hl.entry p (hk.knows_pending hpp hp) hpp
  · intro t p ht hp htp hpu o ho hop
    have ht0 := hk.knows_pending htp ht
    rcases hk.txs p.id with h1 | ⟨e, d, h1, h2, h3, h4⟩
    · have hp0 : c.Knows p := h1.symm.trans hp
      obtain ⟨h5, s, h6, h7⟩ := hl.link t p ht0 hp0 htp hpu o ho hop
      exact ⟨h5, s, (hdesc p hp h5).trans h6, h7⟩
    · exfalso
      have hid := hl.keyed _ _ h1
      obtain ⟨h5, s, h6, h7⟩ := hl.link t e ht0 (by unfold Cache.Knows; rw [hid]; exact h1) htp h2 o ho (hop.trans hid.symm)
      have hkilled : KilledIn c c' p.id e := ⟨h1, (pending_live h5).1, _, h3, h4⟩
      obtain ⟨e', h8, h9⟩ := hk.closed p.id e hkilled s (hid ▸ h6) t.id h7
      unfold Cache.Knows at ht
      rw [ht] at h8
      cases h8
      exact pending_alive htp h9

theorem enter_self {d : BMap Nat (BMap Nat Unit)} {id : Nat} : ∃ s, (enterDesc d id true).get id = some s := by
  unfold enterDesc
  rw [if_pos rfl]
  cases h : d.get id with
  | some s => exact ⟨s, h⟩
  | none =>
    dsimp only
    rw [BMap.get_insert, if_pos rfl]
    exact ⟨_, rfl⟩

theorem enter_some {d : BMap Nat (BMap Nat Unit)} {id : Nat} {s : BMap Nat Unit} (h : d.get id = some s) : (enterDesc d id true).get id = some s := by
  unfold enterDesc
  rw [if_pos rfl, h]
  exact h

theorem enter_ne {d : BMap Nat (BMap Nat Unit)} {id k : Nat} {b : Bool} (h : k ≠ id) : (enterDesc d id b).get k = d.get k := by
  unfold enterDesc
  split
  · split
    · rfl
    · exact BMap.get_insert_ne _ _ h
  · exact BMap.get_erase_ne _ h

theorem Linked.add {c c' : Cache} {t : WTx} (hl : Linked c) (he : AddEffect c c' t) (hs : t.state.IsPending ∨ t.state.IsConfirmed)
    (hnew : ∀ e, c.txs.get t.id = some e → sameOrConfirmed e.state t.state = false)
    (hpar : t.state.IsPending → ∀ p, c.Knows p → ∀ o, t.Spends o → (ofLex o).1 = p.id → ¬ p.state.IsDead)
    (hchild : t.state.IsPending → c.txs.get t.id = none → ∀ e, c.Knows e → e.state.IsPending → ∀ o, e.Spends o → (ofLex o).1 ≠ t.id) : Linked c' := by
  have hgrow : ∀ k s, (enterDesc c.desc t.id t.state.isUnconfirmed).get k = some s → ∃ s', c'.desc.get k = some s' ∧ ∀ x, (s.get x).isSome → (s'.get x).isSome :=
    fun k => (he.grow k).2
  refine ⟨he.keyed hl.keyed, ?_, ?_⟩
  · intro p hp hpp
    rcases (he.knows p).1 hp with rfl | ⟨hp, hne⟩
    · obtain ⟨s, h1⟩ := enter_self (d := c.desc) (id := p.id)
      rw [← (pending_live hpp).2] at h1
      obtain ⟨s', h2, _⟩ := hgrow _ s h1
      exact ⟨s', h2⟩
    · obtain ⟨s, h1⟩ := hl.entry p hp hpp
      obtain ⟨s', h2, _⟩ := hgrow p.id s (by rw [enter_ne hne]; exact h1)
      exact ⟨s', h2⟩
  · intro x p hx hp hxp hpu o ho hop
    rcases (he.knows p).1 hp with rfl | ⟨hp0, hpne⟩
    · -- the parent is the new one
      have hpp : p.state.IsPending := by
        rcases hs with h | h
        · exact h
        · rw [confirmed_unconfirmed.1 h] at hpu
          cases hpu
      refine ⟨hpp, ?_⟩
      rcases (he.knows x).1 hx with rfl | ⟨hx0, hxne⟩
      · obtain ⟨s, h1⟩ := enter_self (d := c.desc) (id := x.id)
        rw [← hpu] at h1
        obtain ⟨_, s', h2, h3⟩ := he.registered o ho s (by rw [hop]; exact h1)
        rw [hop] at h2
        exact ⟨s', h2, h3⟩
      · cases hold : c.txs.get p.id with
        | none => exact absurd hop (hchild hpp hold x hx0 hxp o ho)
        | some e =>
          have hid := hl.keyed _ _ hold
          have hsame := hnew e hold
          have heu : e.state.isUnconfirmed = true := by
            cases h1 : e.state.isUnconfirmed with
            | true => rfl
            | false =>
              rw [sameOrConfirmed_confirmed (confirmed_unconfirmed.2 h1)] at hsame
              cases hsame
          obtain ⟨_, s, h1, h2⟩ := hl.link x e hx0 (by unfold Cache.Knows; rw [hid]; exact hold) hxp heu o ho (hop.trans hid.symm)
          rw [hid] at h1
          obtain ⟨s', h3, h4⟩ := hgrow p.id s (by rw [hpu]; exact enter_some h1)
          exact ⟨s', h3, h4 _ h2⟩
    · rcases (he.knows x).1 hx with rfl | ⟨hx0, hxne⟩
      · have hpp := pending_of hpu (hpar hxp p hp0 o ho hop)
        refine ⟨hpp, ?_⟩
        obtain ⟨s, h1⟩ := hl.entry p hp0 hpp
        obtain ⟨_, s', h2, h3⟩ := he.registered o ho s (by rw [hop, enter_ne hpne]; exact h1)
        rw [hop] at h2
        exact ⟨s', h2, h3⟩
      · obtain ⟨hpp, s, h1, h2⟩ := hl.link x p hx0 hp0 hxp hpu o ho hop
        obtain ⟨s', h3, h4⟩ := hgrow p.id s (by rw [enter_ne hpne]; exact h1)
        exact ⟨hpp, s', h3, h4 _ h2⟩

theorem Linked.offline {c : Cache} (hl : Linked c) : Linked (resetMempool c) := by
  have hpend : ∀ s : St, s.reset.IsPending ↔ s.IsPending := by
    intro s
    cases s <;> simp [St.reset, St.IsPending]
  have hunc : ∀ s : St, s.reset.isUnconfirmed = s.isUnconfirmed := by
    intro s
    cases s <;> rfl
  refine ⟨reset_keyed hl.keyed, ?_, ?_⟩
  · intro p hp hpp
    obtain ⟨p0, h1, rfl⟩ := (reset_knows p).1 hp
    exact hl.entry p0 h1 ((hpend _).1 hpp)
  · intro t p ht hp htp hpu o ho hop
    obtain ⟨t0, h1, rfl⟩ := (reset_knows t).1 ht
    obtain ⟨p0, h2, rfl⟩ := (reset_knows p).1 hp
    obtain ⟨h3, h4⟩ := hl.link t0 p0 h1 h2 ((hpend _).1 htp) ((hunc _).symm.trans hpu) o ho hop
    exact ⟨(hpend _).2 h3, h4⟩

theorem Calm.linked {cfg : Cfg} {c : Cache} (h : Calm cfg c) : Linked c := by
  induction h with
  | start => exact Linked.start
  | connect best block t _ hs hc ih =>
    obtain ⟨c1, hk, ha⟩ := connect_effect hc
    have h1 := ih.kill hk
    rcases addIfRelevant_effect ha with ⟨rfl, _⟩ | ⟨he, hnew⟩
    · exact h1
    · exact h1.add he (.inr hs) hnew (fun h => absurd hs (pending_not_confirmed h)) (fun h => absurd hs (pending_not_confirmed h))
  | unconfirmed best t _ hp hpar hchild ha ih =>
    rcases addIfRelevant_effect ha with ⟨rfl, _⟩ | ⟨he, hnew⟩
    · exact ih
    · exact ih.add he (.inl hp) hnew (fun _ => hpar) (fun _ => hchild)
  | offline _ ih => exact ih.offline
  | abandon id _ ha ih => exact ih.kill (abandon_kill ha).1

end Verif.Cache
