import Verif.Cache.Spec

/-!
# What the steps do to the transactions, the consumed outputs and the descendants
-/

namespace Verif.Cache
open Verif

/-- the sets of descendants only grow, and no entry comes or goes -/
def Grow (d d' : BMap Nat (BMap Nat Unit)) : Prop :=
  ∀ k, (d.get k = none → d'.get k = none) ∧
    ∀ s, d.get k = some s → ∃ s', d'.get k = some s' ∧ ∀ x, (s.get x).isSome → (s'.get x).isSome

theorem Grow.refl (d : BMap Nat (BMap Nat Unit)) : Grow d d := fun _ => ⟨id, fun s h => ⟨s, h, fun _ h => h⟩⟩

theorem Grow.trans {d d' d'' : BMap Nat (BMap Nat Unit)} (h : Grow d d') (h' : Grow d' d'') : Grow d d'' := by
  intro k
  refine ⟨fun hk => (h' k).1 ((h k).1 hk), ?_⟩
  intro s hs
  obtain ⟨s', hs', h1⟩ := (h k).2 s hs
  obtain ⟨s'', hs'', h2⟩ := (h' k).2 s' hs'
  exact ⟨s'', hs'', fun x hx => h2 x (h1 x hx)⟩

theorem addDesc_grow (d : BMap Nat (BMap Nat Unit)) (p x : Nat) : Grow d (addDesc d p x) := by
  unfold addDesc
  cases hp : d.get p with
  | none => exact Grow.refl d
  | some s =>
    intro k
    dsimp only
    by_cases hk : k = p
    · subst hk
      rw [hp, BMap.get_insert, if_pos rfl]
      refine ⟨by nofun, ?_⟩
      rintro s0 ⟨⟩
      refine ⟨_, rfl, ?_⟩
      intro y hy
      rw [BMap.get_insert]
      split
      · rfl
      · exact hy
    · rw [BMap.get_insert_ne _ _ hk]
      exact Grow.refl d k

theorem addDesc_mem {d : BMap Nat (BMap Nat Unit)} {p : Nat} {s : BMap Nat Unit} (x : Nat) (h : d.get p = some s) :
    ∃ s', (addDesc d p x).get p = some s' ∧ (s'.get x).isSome := by
  unfold addDesc
  rw [h]
  exact ⟨_, by rw [BMap.get_insert, if_pos rfl], by rw [BMap.get_insert, if_pos rfl]; rfl⟩

theorem addDescOpt_grow (d : BMap Nat (BMap Nat Unit)) (p : Option Nat) (x : Nat) : Grow d (addDescOpt d p x) := by
  cases p with
  | none => exact Grow.refl d
  | some p => exact addDesc_grow d p x

/-- the state of an output after one more input -/
def consume (state : St) (m : BMap OutPoint St) : Inp → BMap OutPoint St
  | .utxo o => m.insert o state
  | _ => m

/-- what one input does -/
structure InputEffect (id : Nat) (state : St) (unconf : Bool) (c c' : Cache) (i : Inp) : Prop where
  txs : c'.txs = c.txs
  consumed : c'.consumed = consume state c.consumed i
  grow : Grow c.desc c'.desc
  registered : ∀ o, i = .utxo o → ∀ s, c.desc.get (ofLex o).1 = some s → unconf = true ∧ ∃ s', c'.desc.get (ofLex o).1 = some s' ∧ (s'.get id).isSome

theorem updateDeleg_effect {c c' : Cache} {d nonce id : Nat} {data : Deleg} (h : updateDeleg c d data nonce id = .ok c') :
    c'.txs = c.txs ∧ c'.consumed = c.consumed ∧ Grow c.desc c'.desc := by
  unfold updateDeleg at h
  simp only [bind_eq_ok, okOr_eq_ok, ensure_eq_ok, pure_eq_ok] at h
  obtain ⟨_, _, _, _, rfl⟩ := h
  exact ⟨rfl, rfl, addDescOpt_grow _ _ _⟩

theorem updateOrder_effect {c c' : Cache} {o id : Nat} {data : Order} {cmd : OrdCmd} {nonce : Option Nat} (h : updateOrder c o data cmd nonce id = .ok c') :
    c'.txs = c.txs ∧ c'.consumed = c.consumed ∧ Grow c.desc c'.desc := by
  unfold updateOrder at h
  simp only [bind_eq_ok, pure_eq_ok] at h
  obtain ⟨_, _, _, _, rfl⟩ := h
  exact ⟨rfl, rfl, addDescOpt_grow _ _ _⟩

theorem updateTokenCmd_effect {desc desc' : BMap Nat (BMap Nat Unit)} {t nonce id : Nat} {data data' : Token} {cmd : TokCmd} {unconf already : Bool}
    (h : updateTokenCmd desc t data nonce cmd id unconf already = .ok (data', desc')) : Grow desc desc' := by
  unfold updateTokenCmd at h
  split at h
  · cases h
    exact Grow.refl _
  · unfold updateToken at h
    simp only [bind_eq_ok, okOr_eq_ok, ensure_eq_ok, pure_eq_ok] at h
    obtain ⟨_, ⟨_, _, _, _, rfl⟩, h⟩ := h
    cases h
    exact addDescOpt_grow _ _ _

theorem tokenInput_effect {c c' : Cache} {t nonce id : Nat} {cmd : TokCmd} {unconf already : Bool}
    (h : tokenInput c t nonce cmd id unconf already = .ok c') : c'.txs = c.txs ∧ c'.consumed = c.consumed ∧ Grow c.desc c'.desc := by
  unfold tokenInput at h
  cases ht : c.tokens.get t with
  | some data =>
    rw [ht] at h
    simp only [bind_eq_ok, pure_eq_ok] at h
    obtain ⟨⟨d1, d2⟩, h1, rfl⟩ := h
    exact ⟨rfl, rfl, updateTokenCmd_effect h1⟩
  | none =>
    rw [ht] at h
    dsimp only at h
    split at h
    · split at h <;> cases h <;> exact ⟨rfl, rfl, Grow.refl _⟩
    · cases h
      exact ⟨rfl, rfl, Grow.refl _⟩

theorem updateInput_effect {id : Nat} {state : St} {unconf already : Bool} {c c' : Cache} {i : Inp} (h : updateInput id state unconf already c i = .ok c') :
    InputEffect id state unconf c c' i := by
  cases i with
  | utxo o =>
    rw [updateInput] at h
    dsimp only at h
    cases hd : c.desc.get (ofLex o).1 with
    | none =>
      simp only [hd] at h
      cases h
      exact ⟨rfl, rfl, Grow.refl _, by rintro _ ⟨⟩ s hs; rw [hd] at hs; cases hs⟩
    | some s0 =>
      simp only [hd] at h
      simp only [bind_eq_ok, ensure_eq_ok, pure_eq_ok] at h
      obtain ⟨_, hu, rfl⟩ := h
      refine ⟨rfl, rfl, addDesc_grow _ _ _, ?_⟩
      rintro _ ⟨⟩ s hs
      exact ⟨hu, addDesc_mem id hs⟩
  | deleg d nonce =>
    rw [updateInput] at h
    split at h
    · cases h
      exact ⟨rfl, rfl, Grow.refl _, by rintro _ ⟨⟩⟩
    · split at h
      · cases h
        exact ⟨rfl, rfl, Grow.refl _, by rintro _ ⟨⟩⟩
      · obtain ⟨h1, h2, h3⟩ := updateDeleg_effect h
        exact ⟨h1, h2, h3, by rintro _ ⟨⟩⟩
  | token t nonce cmd =>
    rw [updateInput] at h
    obtain ⟨h1, h2, h3⟩ := tokenInput_effect h
    exact ⟨h1, h2, h3, by rintro _ ⟨⟩⟩
  | orderV0 o nonce concl =>
    rw [updateInput] at h
    split at h
    · cases h
      exact ⟨rfl, rfl, Grow.refl _, by rintro _ ⟨⟩⟩
    · split at h
      · cases h
        exact ⟨rfl, rfl, Grow.refl _, by rintro _ ⟨⟩⟩
      · obtain ⟨h1, h2, h3⟩ := updateOrder_effect h
        exact ⟨h1, h2, h3, by rintro _ ⟨⟩⟩
  | orderV1 o cmd =>
    rw [updateInput] at h
    split at h
    · cases h
      exact ⟨rfl, rfl, Grow.refl _, by rintro _ ⟨⟩⟩
    · split at h
      · cases h
        exact ⟨rfl, rfl, Grow.refl _, by rintro _ ⟨⟩⟩
      · obtain ⟨h1, h2, h3⟩ := updateOrder_effect h
        exact ⟨h1, h2, h3, by rintro _ ⟨⟩⟩

/-- what a list of inputs does -/
structure InputsEffect (id : Nat) (state : St) (unconf : Bool) (c c' : Cache) (l : List Inp) : Prop where
  txs : c'.txs = c.txs
  consumed : ∀ o, c'.consumed.get o = if Inp.utxo o ∈ l then some state else c.consumed.get o
  grow : Grow c.desc c'.desc
  registered : ∀ o, Inp.utxo o ∈ l → ∀ s, c.desc.get (ofLex o).1 = some s → unconf = true ∧ ∃ s', c'.desc.get (ofLex o).1 = some s' ∧ (s'.get id).isSome

theorem updateInputs_effect {id : Nat} {state : St} {unconf already : Bool} : ∀ {l : List Inp} {c c' : Cache},
    l.foldlM (updateInput id state unconf already) c = .ok c' → InputsEffect id state unconf c c' l
  | [], c, c', h => by
    simp only [List.foldlM_nil, pure_eq_ok] at h
    subst h
    exact ⟨rfl, by simp, Grow.refl _, by simp⟩
  | i :: l, c, c', h => by
    simp only [List.foldlM_cons, bind_eq_ok] at h
    obtain ⟨c1, h1, h2⟩ := h
    have e1 := updateInput_effect h1
    have e2 := updateInputs_effect h2
    refine ⟨e2.txs.trans e1.txs, ?_, e1.grow.trans e2.grow, ?_⟩
    · intro o
      rw [e2.consumed o, e1.consumed]
      by_cases hl : Inp.utxo o ∈ l
      · rw [if_pos hl, if_pos (List.mem_cons_of_mem _ hl)]
      · rw [if_neg hl]
        by_cases hi : Inp.utxo o = i
        · subst hi
          rw [if_pos List.mem_cons_self]
          simp only [consume, BMap.get_insert, if_true]
        · rw [if_neg (by simp [hi, hl])]
          cases i with
          | utxo o' =>
            have hne : o ≠ o' := fun h => hi (by rw [h])
            simp only [consume, BMap.get_insert_ne _ _ hne]
          | deleg _ _ => rfl
          | token _ _ _ => rfl
          | orderV0 _ _ _ => rfl
          | orderV1 _ _ => rfl
    · intro o ho s hs
      rcases List.mem_cons.1 ho with hi | hl
      · obtain ⟨hu, s', hs', hx⟩ := e1.registered o hi.symm s hs
        obtain ⟨s'', hs'', hx'⟩ := (e2.grow _).2 s' hs'
        exact ⟨hu, s'', hs'', hx' _ hx⟩
      · obtain ⟨s', hs', _⟩ := (e1.grow _).2 s hs
        exact e2.registered o hl s' hs'

theorem updateOutput_effect {cfg : Cfg} {best : Nat} {t : WTx} {already : Bool} {c c' : Cache} {x : Out × Nat}
    (h : updateOutput cfg best t already c x = .ok c') : c'.txs = c.txs ∧ c'.consumed = c.consumed ∧ c'.desc = c.desc := by
  unfold updateOutput at h
  dsimp only at h
  split at h
  · cases h; exact ⟨rfl, rfl, rfl⟩
  · split at h <;> cases h; exact ⟨rfl, rfl, rfl⟩
  · split at h
    · cases h; exact ⟨rfl, rfl, rfl⟩
    · split at h <;> cases h <;> exact ⟨rfl, rfl, rfl⟩
  · split at h
    · cases h; exact ⟨rfl, rfl, rfl⟩
    · split at h <;> cases h <;> exact ⟨rfl, rfl, rfl⟩
  · split at h <;> cases h <;> exact ⟨rfl, rfl, rfl⟩
  · split at h <;> cases h <;> exact ⟨rfl, rfl, rfl⟩
  · cases h; exact ⟨rfl, rfl, rfl⟩

theorem updateOutputs_effect {cfg : Cfg} {best : Nat} {t : WTx} {already : Bool} : ∀ {l : List (Out × Nat)} {c c' : Cache},
    l.foldlM (updateOutput cfg best t already) c = .ok c' → c'.txs = c.txs ∧ c'.consumed = c.consumed ∧ c'.desc = c.desc
  | [], c, c', h => by
    simp only [List.foldlM_nil, pure_eq_ok] at h
    subst h
    exact ⟨rfl, rfl, rfl⟩
  | i :: l, c, c', h => by
    simp only [List.foldlM_cons, bind_eq_ok] at h
    obtain ⟨c1, h1, h2⟩ := h
    obtain ⟨a1, a2, a3⟩ := updateOutput_effect h1
    obtain ⟨b1, b2, b3⟩ := updateOutputs_effect h2
    exact ⟨b1.trans a1, b2.trans a2, b3.trans a3⟩

/-- what adding a transaction does -/
structure AddEffect (c c' : Cache) (t : WTx) : Prop where
  txs : c'.txs = c.txs.insert t.id t
  consumed : ∀ o, c'.consumed.get o = if t.Spends o then some t.state else c.consumed.get o
  grow : Grow (enterDesc c.desc t.id t.state.isUnconfirmed) c'.desc
  registered : ∀ o, t.Spends o → ∀ s, (enterDesc c.desc t.id t.state.isUnconfirmed).get (ofLex o).1 = some s →
    t.state.isUnconfirmed = true ∧ ∃ s', c'.desc.get (ofLex o).1 = some s' ∧ (s'.get t.id).isSome

theorem addNew_effect {cfg : Cfg} {best : Nat} {c c' : Cache} {t : WTx} {already : Bool} (h : addNew cfg best c t already = .ok c') : AddEffect c c' t := by
  unfold addNew at h
  simp only [bind_eq_ok, pure_eq_ok] at h
  obtain ⟨c2, h2, c3, h3, rfl⟩ := h
  have e2 := updateInputs_effect h2
  obtain ⟨a1, a2, a3⟩ := updateOutputs_effect h3
  refine ⟨?_, ?_, ?_, ?_⟩
  · dsimp only
    rw [a1, e2.txs]
  · intro o
    dsimp only
    rw [a2, e2.consumed o]
    rfl
  · dsimp only
    rw [a3]
    exact e2.grow
  · dsimp only
    rw [a3]
    exact e2.registered

/-- what `addTx` does: nothing, or it adds the transaction -/
theorem addTx_effect {cfg : Cfg} {best : Nat} {c c' : Cache} {t : WTx} (h : addTx cfg best c t = .ok c') :
    (c' = c ∧ ∃ e, c.txs.get t.id = some e ∧ sameOrConfirmed e.state t.state = true) ∨
      (AddEffect c c' t ∧ ∀ e, c.txs.get t.id = some e → sameOrConfirmed e.state t.state = false) := by
  unfold addTx at h
  cases ht : c.txs.get t.id with
  | none =>
    rw [ht] at h
    exact .inr ⟨addNew_effect h, by nofun⟩
  | some e =>
    rw [ht] at h
    dsimp only at h
    split at h
    · rename_i hs
      cases h
      exact .inl ⟨rfl, e, rfl, hs⟩
    · rename_i hs
      refine .inr ⟨addNew_effect h, ?_⟩
      rintro _ ⟨⟩
      simpa using hs

/-- what undoing does -/
structure UndoEffect (c c' : Cache) (l : List WTx) : Prop where
  txs : c'.txs = c.txs
  desc : c'.desc = c.desc
  consumed : ∀ o, c'.consumed.get o = if ∃ u ∈ l, u.Spends o then none else c.consumed.get o

theorem rollbackInput_effect {id : Nat} {c c' : Cache} {i : Inp} (h : rollbackInput id c i = .ok c') :
    c'.txs = c.txs ∧ c'.desc = c.desc ∧ ∀ o, c'.consumed.get o = if Inp.utxo o = i then none else c.consumed.get o := by
  cases i with
  | utxo o =>
    cases h
    refine ⟨rfl, rfl, ?_⟩
    intro o'
    dsimp only
    rw [BMap.get_erase]
    by_cases ho : o' = o
    · rw [if_pos ho, if_pos (by rw [ho])]
    · rw [if_neg ho, if_neg (by rintro ⟨⟩; exact ho rfl)]
  | deleg d nonce =>
    rw [rollbackInput] at h
    split at h <;> cases h <;> exact ⟨rfl, rfl, fun o => (if_neg (by nofun)).symm⟩
  | token t nonce cmd =>
    rw [rollbackInput] at h
    split at h <;> cases h <;> exact ⟨rfl, rfl, fun o => (if_neg (by nofun)).symm⟩
  | orderV0 o nonce concl =>
    rw [rollbackInput] at h
    split at h
    · cases h
      exact ⟨rfl, rfl, fun o => (if_neg (by nofun)).symm⟩
    · simp only [bind_eq_ok, pure_eq_ok] at h
      obtain ⟨_, _, rfl⟩ := h
      exact ⟨rfl, rfl, fun o => (if_neg (by nofun)).symm⟩
  | orderV1 o cmd =>
    rw [rollbackInput] at h
    split at h
    · cases h
      exact ⟨rfl, rfl, fun o => (if_neg (by nofun)).symm⟩
    · simp only [bind_eq_ok, pure_eq_ok] at h
      obtain ⟨_, _, rfl⟩ := h
      exact ⟨rfl, rfl, fun o => (if_neg (by nofun)).symm⟩

theorem rollbackInputs_effect {id : Nat} : ∀ {l : List Inp} {c c' : Cache}, l.foldlM (rollbackInput id) c = .ok c' →
    c'.txs = c.txs ∧ c'.desc = c.desc ∧ ∀ o, c'.consumed.get o = if Inp.utxo o ∈ l then none else c.consumed.get o
  | [], c, c', h => by
    simp only [List.foldlM_nil, pure_eq_ok] at h
    subst h
    exact ⟨rfl, rfl, by simp⟩
  | i :: l, c, c', h => by
    simp only [List.foldlM_cons, bind_eq_ok] at h
    obtain ⟨c1, h1, h2⟩ := h
    obtain ⟨a1, a2, a3⟩ := rollbackInput_effect h1
    obtain ⟨b1, b2, b3⟩ := rollbackInputs_effect h2
    refine ⟨b1.trans a1, b2.trans a2, ?_⟩
    intro o
    rw [b3 o, a3 o]
    by_cases hl : Inp.utxo o ∈ l
    · rw [if_pos hl, if_pos (List.mem_cons_of_mem _ hl)]
    · rw [if_neg hl]
      by_cases hi : Inp.utxo o = i
      · rw [if_pos hi, if_pos (by rw [hi]; exact List.mem_cons_self)]
      · rw [if_neg hi, if_neg (by simp [hi, hl])]

theorem rollbackOutput_effect {cfg : Cfg} {t : WTx} {c c' : Cache} {x : Out} (h : rollbackOutput cfg t c x = .ok c') :
    c'.txs = c.txs ∧ c'.desc = c.desc ∧ c'.consumed = c.consumed := by
  unfold rollbackOutput at h
  split at h
  · cases h; exact ⟨rfl, rfl, rfl⟩
  · cases h; exact ⟨rfl, rfl, rfl⟩
  · cases h; exact ⟨rfl, rfl, rfl⟩
  · split at h
    · cases h; exact ⟨rfl, rfl, rfl⟩
    · split at h <;> cases h; exact ⟨rfl, rfl, rfl⟩
  · cases h; exact ⟨rfl, rfl, rfl⟩
  · split at h <;> cases h <;> exact ⟨rfl, rfl, rfl⟩
  · cases h; exact ⟨rfl, rfl, rfl⟩

theorem rollbackOutputs_effect {cfg : Cfg} {t : WTx} : ∀ {l : List Out} {c c' : Cache}, l.foldlM (rollbackOutput cfg t) c = .ok c' →
    c'.txs = c.txs ∧ c'.desc = c.desc ∧ c'.consumed = c.consumed
  | [], c, c', h => by
    simp only [List.foldlM_nil, pure_eq_ok] at h
    subst h
    exact ⟨rfl, rfl, rfl⟩
  | i :: l, c, c', h => by
    simp only [List.foldlM_cons, bind_eq_ok] at h
    obtain ⟨c1, h1, h2⟩ := h
    obtain ⟨a1, a2, a3⟩ := rollbackOutput_effect h1
    obtain ⟨b1, b2, b3⟩ := rollbackOutputs_effect h2
    exact ⟨b1.trans a1, b2.trans a2, b3.trans a3⟩

theorem rollback_effect {cfg : Cfg} {c c' : Cache} {t : WTx} (h : rollback cfg c t = .ok c') :
    c'.txs = c.txs ∧ c'.desc = c.desc ∧ ∀ o, c'.consumed.get o = if t.Spends o then none else c.consumed.get o := by
  unfold rollback at h
  simp only [bind_eq_ok] at h
  obtain ⟨c1, h1, h2⟩ := h
  obtain ⟨a1, a2, a3⟩ := rollbackInputs_effect h1
  obtain ⟨b1, b2, b3⟩ := rollbackOutputs_effect h2
  refine ⟨b1.trans a1, b2.trans a2, ?_⟩
  intro o
  rw [b3, a3 o]
  simp only [List.mem_reverse, WTx.Spends]

theorem rollbacks_effect {cfg : Cfg} : ∀ {l : List WTx} {c c' : Cache}, l.foldlM (rollback cfg) c = .ok c' → UndoEffect c c' l
  | [], c, c', h => by
    simp only [List.foldlM_nil, pure_eq_ok] at h
    subst h
    exact ⟨rfl, rfl, by simp⟩
  | i :: l, c, c', h => by
    simp only [List.foldlM_cons, bind_eq_ok] at h
    obtain ⟨c1, h1, h2⟩ := h
    obtain ⟨a1, a2, a3⟩ := rollback_effect h1
    have e := rollbacks_effect h2
    refine ⟨e.txs.trans a1, e.desc.trans a2, ?_⟩
    intro o
    rw [e.consumed o, a3 o]
    by_cases hl : ∃ u ∈ l, u.Spends o
    · rw [if_pos hl, if_pos]
      obtain ⟨u, hu, hs⟩ := hl
      exact ⟨u, List.mem_cons_of_mem _ hu, hs⟩
    · rw [if_neg hl]
      by_cases hi : i.Spends o
      · rw [if_pos hi, if_pos ⟨i, List.mem_cons_self, hi⟩]
      · rw [if_neg hi, if_neg]
        rintro ⟨u, hu, hs⟩
        rcases List.mem_cons.1 hu with rfl | hu
        · exact hi hs
        · exact hl ⟨u, hu, hs⟩

end Verif.Cache
