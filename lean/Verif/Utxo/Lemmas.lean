import Verif.Utxo.Spec

namespace Verif.Utxo
open Verif

set_option linter.unusedSectionVars false

variable {K V : Type} [LinearOrder K]

/-- invariant of one layer relative to what is below it -/
def LInv (parent : View K V) (l : Layer K V) : Prop := ∀ k e, l.utxos.get k = some e →
  e.valid = true ∧ (e.fresh = true → parent.utxo k = none) ∧ (e.dirty = false → e.utxo = parent.utxo k)

/-- invariant of a stack -/
def SInv (db : DB K V) : List (Layer K V) → Prop
  | [] => True
  | l :: ls => LInv (viewOf db ls) l ∧ SInv db ls

/-- a map with one value replaced -/
def upd (f : K → Option V) (k : K) (o : Option V) : K → Option V := fun k' => if k' = k then o else f k'

@[simp] theorem upd_same (f : K → Option V) (k : K) (o : Option V) : upd f k o k = o := by simp [upd]
theorem upd_ne (f : K → Option V) {k k' : K} (o : Option V) (h : k' ≠ k) : upd f k o k' = f k' := by simp [upd, h]

theorem upd_self (f : K → Option V) (k : K) : upd f k (f k) = f := by
  funext x; unfold upd; split
  · rename_i h; rw [h]
  · rfl

theorem upd_upd (f : K → Option V) (k : K) (a b : Option V) : upd (upd f k a) k b = upd f k b := by
  funext x; unfold upd; split <;> rfl

theorem upd_comm (f : K → Option V) {k k' : K} (h : k ≠ k') (a b : Option V) :
    upd (upd f k a) k' b = upd (upd f k' b) k a := by
  funext x; unfold upd
  by_cases h1 : x = k'
  · have h2 : x ≠ k := fun h2 => h (h2.symm.trans h1)
    rw [if_pos h1, if_neg h2, if_pos h1]
  · rw [if_neg h1]
    by_cases h2 : x = k
    · rw [if_pos h2, if_pos h2]
    · rw [if_neg h2, if_neg h2, if_neg h1]

theorem mkEntry_ok {u : Option V} {f d : Bool} {e : Entry V} :
    mkEntry u f d = .ok e ↔ e = ⟨u, f, d⟩ ∧ e.valid = true := by
  unfold mkEntry
  simp only
  split
  · rename_i h
    constructor
    · intro h'; cases h'; exact ⟨rfl, h⟩
    · rintro ⟨rfl, -⟩; rfl
  · rename_i h
    constructor
    · intro h'; cases h'
    · rintro ⟨rfl, h'⟩; exact absurd h' h

theorem new_inv (parent : View K V) : LInv parent (Layer.new parent) := by
  intro k e h; simp [Layer.new] at h

theorem new_view (parent : View K V) : (Layer.new parent).view parent = parent := rfl

theorem view_ext {v w : View K V} (h1 : ∀ k, v.utxo k = w.utxo k) (h2 : v.best = w.best) : v = w := by
  cases v; cases w
  have : _ = _ := funext h1
  simp only at this h2
  subst this; subst h2; rfl

/-- reading through a layer after writing an entry -/
theorem view_insert (parent : View K V) (l : Layer K V) (k : K) (e : Entry V) :
    (Layer.view { l with utxos := l.utxos.insert k e } parent).utxo = upd (l.view parent).utxo k e.utxo := by
  funext k'
  simp only [Layer.view, BMap.get_insert, upd]
  by_cases h : k' = k <;> simp [h]

/-- reading through a layer after removing an entry -/
theorem view_erase (parent : View K V) (l : Layer K V) (k : K) :
    (Layer.view { l with utxos := l.utxos.erase k } parent).utxo = upd (l.view parent).utxo k (parent.utxo k) := by
  funext k'
  simp only [Layer.view, BMap.get_erase, upd]
  by_cases h : k' = k <;> simp [h]

theorem inv_insert {parent : View K V} {l : Layer K V} {k : K} {e : Entry V} (hi : LInv parent l)
    (h1 : e.valid = true) (h2 : e.fresh = true → parent.utxo k = none) (h3 : e.dirty = false → e.utxo = parent.utxo k) :
    LInv parent { l with utxos := l.utxos.insert k e } := by
  intro k' e' he
  simp only [BMap.get_insert] at he
  by_cases hk : k' = k
  · subst hk; simp only [if_true, Option.some.injEq] at he; subst he; exact ⟨h1, h2, h3⟩
  · rw [if_neg hk] at he; exact hi k' e' he

theorem inv_erase {parent : View K V} {l : Layer K V} {k : K} (hi : LInv parent l) :
    LInv parent { l with utxos := l.utxos.erase k } := by
  intro k' e' he
  simp only [BMap.get_erase] at he
  by_cases hk : k' = k
  · rw [if_pos hk] at he; cases he
  · rw [if_neg hk] at he; exact hi k' e' he

theorem view_some {parent : View K V} {l : Layer K V} {k : K} {e : Entry V} (h : l.utxos.get k = some e) :
    (l.view parent).utxo k = e.utxo := by simp [Layer.view, h]

theorem view_none {parent : View K V} {l : Layer K V} {k : K} (h : l.utxos.get k = none) :
    (l.view parent).utxo k = parent.utxo k := by simp [Layer.view, h]

theorem fetch_spec {parent : View K V} {l : Layer K V} (hi : LInv parent l) (k : K) :
    ∃ l' oe, fetch parent l k = .ok (l', oe) ∧ LInv parent l' ∧ l'.view parent = l.view parent ∧
      l'.utxos.get k = oe ∧ (l.view parent).utxo k = oe.bind (·.utxo) := by
  unfold fetch
  cases hk : l.utxos.get k with
  | some e => exact ⟨l, some e, rfl, hi, rfl, hk, view_some hk⟩
  | none =>
    cases hp : parent.utxo k with
    | none => exact ⟨l, none, rfl, hi, rfl, hk, by rw [view_none hk, hp]; rfl⟩
    | some u =>
      refine ⟨{ l with utxos := l.utxos.insert k ⟨some u, false, false⟩ }, some ⟨some u, false, false⟩, rfl, ?_, ?_,
        by simp, by rw [view_none hk, hp]; rfl⟩
      · exact inv_insert hi rfl (by simp) (by simp [hp])
      · refine view_ext (fun k' => ?_) rfl
        rw [view_insert]
        simp only
        rw [← hp, ← view_none (l := l) hk, upd_self]

/-- `spend_utxo` on a layer = spending in a plain map; never panics -/
theorem spend_spec {parent : View K V} {l : Layer K V} (hi : LInv parent l) (k : K) :
    ∃ l' r, spendUtxo parent l k = .ok (l', r) ∧ LInv parent l' ∧ l'.best = l.best ∧
      (l'.view parent).utxo = upd (l.view parent).utxo k none ∧
      (∀ v, r = .ok v ↔ (l.view parent).utxo k = some v) := by
  obtain ⟨l1, oe, h1, h2, h3, h4, h5⟩ := fetch_spec hi k
  have hb : l1.best = l.best := congrArg View.best h3
  unfold spendUtxo
  rw [h1]
  simp only [bind, Except.bind]
  cases oe with
  | none =>
    refine ⟨l1, .error .noUtxoFound, rfl, h2, hb, ?_, ?_⟩
    · rw [h3]
      simp only [Option.bind_none] at h5
      rw [← h5, upd_self]
    · intro v; rw [h5]; simp
  | some e =>
    obtain ⟨g1, g2, g3⟩ := h2 k e h4
    simp only [Option.bind_some] at h5
    have hres : ∀ v, okOr e.utxo Err.utxoAlreadySpent = .ok v ↔ (l.view parent).utxo k = some v := by
      intro v; rw [h5, okOr_eq_ok]
    cases hf : e.fresh with
    | true =>
      refine ⟨{ l1 with utxos := l1.utxos.erase k }, _, by simp [pure, Except.pure, hf], inv_erase h2, hb, ?_, hres⟩
      rw [view_erase, g2 hf, h3]
    | false =>
      refine ⟨{ l1 with utxos := l1.utxos.insert k ⟨none, false, true⟩ }, _, ?_, ?_, hb, ?_, hres⟩
      · simp [pure, Except.pure, mkEntry, Entry.valid, hf]
      · exact inv_insert h2 rfl (by simp) (by simp)
      · rw [view_insert, h3]

/-- `add_utxo` on a layer = adding to a plain map, when the outpoint is absent or overwriting is allowed -/
theorem add_spec {parent : View K V} {l : Layer K V} (hi : LInv parent l) (k : K) (v : V) (ow : Bool)
    (h : ow = true ∨ (l.view parent).utxo k = none) :
    ∃ l', addUtxo l k v ow = .ok l' ∧ LInv parent l' ∧ l'.best = l.best ∧
      (l'.view parent).utxo = upd (l.view parent).utxo k (some v) := by
  have fin : ∀ f : Bool, (f = true → parent.utxo k = none) →
      ∃ l', (mkEntry (some v) f true >>= fun e => pure { l with utxos := l.utxos.insert k e } : Except Err (Layer K V))
        = .ok l' ∧ LInv parent l' ∧ l'.best = l.best ∧
        (l'.view parent).utxo = upd (l.view parent).utxo k (some v) := by
    intro f hf
    refine ⟨{ l with utxos := l.utxos.insert k ⟨some v, f, true⟩ }, ?_, ?_, rfl, view_insert _ _ _ _⟩
    · have : mkEntry (some v) f true = .ok ⟨some v, f, true⟩ := mkEntry_ok.2 ⟨rfl, by simp [Entry.valid]⟩
      rw [this]; rfl
    · exact inv_insert hi (by simp [Entry.valid]) hf (by simp)
  unfold addUtxo
  cases hk : l.utxos.get k with
  | none =>
    refine fin (!ow) ?_
    intro hf
    rcases h with rfl | h
    · simp at hf
    · rwa [view_none hk] at h
  | some cur =>
    obtain ⟨g1, g2, g3⟩ := hi k cur hk
    cases ow with
    | true => exact fin cur.fresh g2
    | false =>
      have hv : cur.utxo = none := by
        rcases h with h | h
        · cases h
        · rwa [view_some hk] at h
      simp only [Bool.not_false, if_true, hv, Option.isSome_none, Bool.false_eq_true, if_false]
      refine fin (!cur.dirty || cur.fresh) ?_
      intro hf
      cases hd : cur.dirty with
      | false => rw [← g3 hd, hv]
      | true => rw [hd] at hf; simp at hf; exact g2 hf

theorem touch_spec {parent : View K V} {l : Layer K V} (hi : LInv parent l) (k : K) :
    ∃ l', getMut parent l k = .ok (l', (l.view parent).utxo k) ∧ LInv parent l' ∧ l'.view parent = l.view parent := by
  obtain ⟨l1, oe, h1, h2, h3, h4, h5⟩ := fetch_spec hi k
  refine ⟨l1, ?_, h2, h3⟩
  unfold getMut
  rw [h1, h5]; rfl

theorem uncache_spec {parent : View K V} {l : Layer K V} (hi : LInv parent l) (k : K) :
    LInv parent (uncache l k).1 ∧ (uncache l k).1.view parent = l.view parent := by
  unfold uncache
  cases hk : l.utxos.get k with
  | none => exact ⟨hi, rfl⟩
  | some e =>
    simp only
    split
    · rename_i h
      refine ⟨inv_erase hi, view_ext (fun k' => ?_) rfl⟩
      simp only
      rw [view_erase]
      have hd : e.dirty = false := by simp only [Bool.and_eq_true, Bool.not_eq_true'] at h; exact h.2
      have := (hi k e hk).2.2 hd
      rw [← this, ← view_some (parent := parent) hk, upd_self]
    · exact ⟨hi, rfl⟩

/-- flushing a layer into the layer below -/
theorem batchWrite_spec {parent : View K V} {l child : Layer K V} (hl : LInv parent l)
    (hc : LInv (l.view parent) child) :
    ∃ l', batchWrite l child = .ok l' ∧ LInv parent l' ∧ l'.view parent = child.view (l.view parent) := by
  have hstep : ∀ k e, child.utxos.get k = some e → ∃ r, batchStep k (l.utxos.get k) e = .ok r ∧
      (match r with | some n => n.utxo | none => parent.utxo k) = e.utxo ∧
      (∀ n, r = some n → n.valid = true ∧ (n.fresh = true → parent.utxo k = none) ∧
        (n.dirty = false → n.utxo = parent.utxo k)) := by
    intro k e he
    obtain ⟨g1, g2, g3⟩ := hc k e he
    unfold batchStep
    cases hd : e.dirty with
    | false =>
      refine ⟨l.utxos.get k, rfl, ?_, ?_⟩
      · rw [g3 hd]; simp only [Layer.view]; cases l.utxos.get k <;> rfl
      · intro n hn; exact hl k n hn
    | true =>
      simp only [if_true]
      cases hk : l.utxos.get k with
      | none =>
        simp only
        cases hf : e.fresh with
        | true =>
          rw [view_none hk] at g2
          cases hu : e.utxo with
          | none => exact ⟨none, by simp, by simp [g2 hf], by simp⟩
          | some u =>
            refine ⟨some ⟨some u, true, true⟩, by simp [mkEntry, Entry.valid, bind, Except.bind], rfl, ?_⟩
            rintro n ⟨⟩
            exact ⟨rfl, fun _ => g2 hf, by simp⟩
        | false =>
          refine ⟨some ⟨e.utxo, false, true⟩, ?_, rfl, ?_⟩
          · have : mkEntry e.utxo false true = .ok ⟨e.utxo, false, true⟩ :=
              mkEntry_ok.2 ⟨rfl, by unfold Entry.valid; cases e.utxo <;> rfl⟩
            rw [this]; rfl
          · rintro n ⟨⟩
            exact ⟨by unfold Entry.valid; cases e.utxo <;> rfl, by simp, by simp⟩
      | some p =>
        obtain ⟨p1, p2, p3⟩ := hl k p hk
        rw [view_some hk] at g2 g3
        have hno : ¬ (e.fresh && !p.utxo.isNone) = true := by
          intro h
          simp only [Bool.and_eq_true, Bool.not_eq_true'] at h
          rw [g2 h.1] at h
          simp at h
        simp only
        rw [if_neg hno]
        by_cases h : (p.fresh && e.utxo.isNone) = true
        · rw [if_pos h]
          simp only [Bool.and_eq_true, Option.isNone_iff_eq_none] at h
          refine ⟨none, rfl, ?_, by simp⟩
          simp only
          rw [p2 h.1, h.2]
        · rw [if_neg h]
          have hv : (Entry.mk e.utxo p.fresh true).valid = true := by
            unfold Entry.valid
            cases hu : e.utxo with
            | some u => simp
            | none =>
              rw [hu] at h
              simp at h
              simp [h]
          refine ⟨some ⟨e.utxo, p.fresh, true⟩, ?_, rfl, ?_⟩
          · rw [mkEntry_ok.2 ⟨rfl, hv⟩]; rfl
          · rintro n ⟨⟩
            exact ⟨hv, p2, by simp⟩
  obtain ⟨m, hm⟩ := (BMap.mergeM_isOk_iff (batchStep (V := V)) l.utxos child.utxos).2 (by
    intro k e he
    obtain ⟨r, h, -⟩ := hstep k e he
    exact ⟨r, h⟩)
  have hk := (BMap.mergeM_ok_iff _ _ _ _).1 hm
  refine ⟨⟨m, child.best⟩, ?_, ?_, ?_⟩
  · unfold batchWrite; rw [hm]; rfl
  · intro k n hn
    have := hk k
    cases he : child.utxos.get k with
    | none =>
      rw [he] at this; simp only at this
      simp only at hn
      rw [this] at hn
      exact hl k n hn
    | some e =>
      rw [he] at this; simp only at this hn
      obtain ⟨r, h1, h2, h3⟩ := hstep k e he
      rw [h1] at this
      injection this with this
      exact h3 n (this.trans hn)
  · refine view_ext (fun k => ?_) rfl
    have := hk k
    cases he : child.utxos.get k with
    | none =>
      rw [he] at this; simp only at this
      rw [view_none (l := child) he]
      simp only [Layer.view]
      rw [this]
    | some e =>
      rw [he] at this; simp only at this
      obtain ⟨r, h1, h2, h3⟩ := hstep k e he
      rw [h1] at this
      injection this with this
      rw [view_some (l := child) he]
      simp only [Layer.view]
      rw [← this, ← h2]
      cases r <;> rfl

/-- flushing a layer into the database -/
theorem dbWrite_spec {db : DB K V} {child : Layer K V} (hc : LInv db.view child) :
    ∃ db', db.batchWrite child = .ok db' ∧ db'.view = child.view db.view := by
  obtain ⟨m, hm⟩ := (BMap.mergeM_isOk_iff (dbStep (K := K) (V := V)) db.utxos child.utxos).2 (by
    intro k e he
    unfold dbStep
    split
    · cases e.utxo <;> exact ⟨_, rfl⟩
    · exact ⟨_, rfl⟩)
  have hk := (BMap.mergeM_ok_iff _ _ _ _).1 hm
  refine ⟨⟨m, child.best⟩, by unfold DB.batchWrite; rw [hm]; rfl, view_ext (fun k => ?_) rfl⟩
  have := hk k
  cases he : child.utxos.get k with
  | none =>
    rw [he] at this; simp only at this
    rw [view_none he]
    exact this
  | some e =>
    rw [he] at this; simp only [dbStep] at this
    rw [view_some he]
    show m.get k = e.utxo
    split at this
    · cases hu : e.utxo <;> (rw [hu] at this; injection this with this; exact this.symm)
    · rename_i hd
      injection this with this
      rw [(hc k e he).2.2 (by simpa using hd), ← this]; rfl

theorem LInv.setBest {parent : View K V} {l : Layer K V} (h : LInv parent l) (b : Nat) :
    LInv parent { l with best := b } := h

/-! ### Refinement -/

/-- the plain map seen at the top of a stack -/
def Rel (s : Stack K V) (p : Plain K V) : Prop := p.utxo = s.view.utxo ∧ p.best = s.view.best

theorem agrees_spend {r : Except Err V} {o : Option V} (h : ∀ v, r = .ok v ↔ o = some v) : Agrees (some r) (some o) := by
  cases r with
  | ok v => rw [(h v).1 rfl]; rfl
  | error e =>
    cases o with
    | none => trivial
    | some v => cases (h v).2 rfl

theorem step_spec {s : Stack K V} {p : Plain K V} (hi : SInv s.db s.layers) (hr : Rel s p) (op : Op K V)
    {p' : Plain K V} {r : Option (Option V)} (hp : p.step s.layers.length op = some (p', r)) :
    ∃ s' r', s.step op = .ok (s', r') ∧ Agrees r' r ∧ SInv s'.db s'.layers ∧ Rel s' p' ∧
      s'.layers.length = depthAfter s.layers.length op := by
  obtain ⟨layers, db⟩ := s
  obtain ⟨hr1, hr2⟩ := hr
  cases layers with
  | nil =>
    cases op <;> simp only [Plain.step, List.length_nil, if_true, Option.some.injEq, Prod.mk.injEq] at hp <;>
      obtain ⟨rfl, rfl⟩ := hp
    case push => exact ⟨_, _, rfl, trivial, ⟨new_inv _, hi⟩, ⟨hr1, hr2⟩, rfl⟩
    all_goals exact ⟨_, _, rfl, trivial, hi, ⟨hr1, hr2⟩, rfl⟩
  | cons top rest =>
    obtain ⟨ht, hrest⟩ := hi
    have hne : (top :: rest).length ≠ 0 := by simp
    simp only [Stack.view, viewOf] at hr1 hr2
    cases op with
    | push =>
      simp only [Plain.step, Option.some.injEq, Prod.mk.injEq] at hp
      obtain ⟨rfl, rfl⟩ := hp
      exact ⟨_, _, rfl, trivial, ⟨new_inv _, ht, hrest⟩, ⟨hr1, hr2⟩, rfl⟩
    | add k v ow =>
      simp only [Plain.step, if_neg hne] at hp
      by_cases hc : (ow || (p.utxo k).isNone) = true
      · rw [if_pos hc] at hp
        simp only [Option.some.injEq, Prod.mk.injEq] at hp
        obtain ⟨rfl, rfl⟩ := hp
        have hc' : ow = true ∨ (top.view (viewOf db rest)).utxo k = none := by
          rw [Bool.or_eq_true, Option.isNone_iff_eq_none, hr1] at hc
          exact hc
        obtain ⟨l', h1, h2, h3, h4⟩ := add_spec ht k v ow hc'
        refine ⟨⟨l' :: rest, db⟩, none, ?_, trivial, ⟨h2, hrest⟩, ⟨?_, ?_⟩, rfl⟩
        · simp only [Stack.step]; rw [h1]; rfl
        · simp only [Stack.view, viewOf]; rw [h4, ← hr1]; rfl
        · simp only [Stack.view, viewOf]; rw [hr2]; simp [Layer.view, h3]
      · rw [if_neg hc] at hp; cases hp
    | spend k =>
      simp only [Plain.step, if_neg hne, Option.some.injEq, Prod.mk.injEq] at hp
      obtain ⟨rfl, rfl⟩ := hp
      obtain ⟨l', r', h1, h2, h3, h4, h5⟩ := spend_spec ht k
      refine ⟨⟨l' :: rest, db⟩, some r', ?_, agrees_spend ?_, ⟨h2, hrest⟩, ⟨?_, ?_⟩, rfl⟩
      · simp only [Stack.step]; rw [h1]; rfl
      · rw [hr1]; exact h5
      · simp only [Stack.view, viewOf]; rw [h4, ← hr1]; rfl
      · simp only [Stack.view, viewOf]; rw [hr2]; simp [Layer.view, h3]
    | touch k =>
      simp only [Plain.step, if_neg hne, Option.some.injEq, Prod.mk.injEq] at hp
      obtain ⟨rfl, rfl⟩ := hp
      obtain ⟨l', h1, h2, h3⟩ := touch_spec ht k
      refine ⟨⟨l' :: rest, db⟩, _, ?_, agrees_spend (o := p.utxo k) (r := okOr (p.utxo k) .noUtxoFound) ?_, ⟨h2, hrest⟩,
        ⟨?_, ?_⟩, rfl⟩
      · simp only [Stack.step]; rw [h1, hr1]; rfl
      · intro v; cases p.utxo k <;> simp [okOr]
      · simp only [Stack.view, viewOf]; rw [h3]; exact hr1
      · simp only [Stack.view, viewOf]; rw [h3]; exact hr2
    | uncache k =>
      simp only [Plain.step, Option.some.injEq, Prod.mk.injEq] at hp
      obtain ⟨rfl, rfl⟩ := hp
      obtain ⟨h2, h3⟩ := uncache_spec ht k
      refine ⟨_, _, rfl, trivial, ⟨h2, hrest⟩, ⟨?_, ?_⟩, rfl⟩
      · simp only [Stack.view, viewOf]; rw [h3]; exact hr1
      · simp only [Stack.view, viewOf]; rw [h3]; exact hr2
    | setBest h =>
      simp only [Plain.step, if_neg hne, Option.some.injEq, Prod.mk.injEq] at hp
      obtain ⟨rfl, rfl⟩ := hp
      exact ⟨_, _, rfl, trivial, ⟨ht, hrest⟩, ⟨hr1, rfl⟩, rfl⟩
    | flush =>
      simp only [Plain.step, Option.some.injEq, Prod.mk.injEq] at hp
      obtain ⟨rfl, rfl⟩ := hp
      cases rest with
      | nil =>
        obtain ⟨db', h1, h2⟩ := dbWrite_spec ht
        refine ⟨⟨[], db'⟩, none, ?_, trivial, trivial, ⟨?_, ?_⟩, rfl⟩
        · simp only [Stack.step]; rw [h1]; rfl
        · simp only [Stack.view, viewOf]; rw [h2]; exact hr1
        · simp only [Stack.view, viewOf]; rw [h2]; exact hr2
      | cons l ls =>
        obtain ⟨l', h1, h2, h3⟩ := batchWrite_spec hrest.1 ht
        refine ⟨⟨l' :: ls, db⟩, none, ?_, trivial, ⟨h2, hrest.2⟩, ⟨?_, ?_⟩, rfl⟩
        · simp only [Stack.step]; rw [h1]; rfl
        · simp only [Stack.view, viewOf]; rw [h3]; exact hr1
        · simp only [Stack.view, viewOf]; rw [h3]; exact hr2

theorem run_spec (ops : List (Op K V)) : ∀ {s : Stack K V} {p : Plain K V}, SInv s.db s.layers → Rel s p →
    ∀ {p' : Plain K V} {rs}, p.run s.layers.length ops = some (p', rs) →
    ∃ s' rs', s.run ops = .ok (s', rs') ∧ List.Forall₂ Agrees rs' rs ∧ SInv s'.db s'.layers ∧ Rel s' p' := by
  induction ops with
  | nil =>
    intro s p hi hr p' rs h
    simp only [Plain.run, Option.some.injEq, Prod.mk.injEq] at h
    obtain ⟨rfl, rfl⟩ := h
    exact ⟨s, [], rfl, .nil, hi, hr⟩
  | cons op ops ih =>
    intro s p hi hr p' rs h
    unfold Plain.run at h
    cases h1 : p.step s.layers.length op with
    | none => rw [h1] at h; cases h
    | some q =>
      obtain ⟨p1, r⟩ := q
      rw [h1] at h
      simp only at h
      obtain ⟨s1, r', g1, g2, g3, g4, g5⟩ := step_spec hi hr op h1
      rw [← g5] at h
      cases h2 : p1.run s1.layers.length ops with
      | none => rw [h2] at h; cases h
      | some q =>
        obtain ⟨p2, rs2⟩ := q
        rw [h2] at h
        simp only [Option.some.injEq, Prod.mk.injEq] at h
        obtain ⟨rfl, rfl⟩ := h
        obtain ⟨s2, rs', k1, k2, k3, k4⟩ := ih g3 g4 h2
        refine ⟨s2, r' :: rs', ?_, .cons g2 k2, k3, k4⟩
        unfold Stack.run
        rw [g1]
        simp only [bind, Except.bind]
        rw [k1]; rfl

/-- flushing every layer -/
theorem flushAll_spec : ∀ (n : Nat) {s : Stack K V}, SInv s.db s.layers → s.layers.length = n →
    ∃ db' rs, s.run (List.replicate n .flush) = .ok (⟨[], db'⟩, rs) ∧ db'.view = s.view := by
  intro n
  induction n with
  | zero =>
    intro s _ hl
    obtain ⟨layers, db⟩ := s
    have : layers = [] := List.length_eq_zero_iff.1 hl
    subst this
    exact ⟨db, [], rfl, rfl⟩
  | succ n ih =>
    intro s hi hl
    obtain ⟨s1, r, h1, -, h3, h4, h5⟩ := step_spec (p := ⟨s.view.utxo, s.view.best⟩) hi ⟨rfl, rfl⟩ .flush rfl
    rw [hl] at h5
    obtain ⟨db', rs, k1, k2⟩ := ih h3 h5
    refine ⟨db', r :: rs, ?_, ?_⟩
    · rw [List.replicate_succ]
      unfold Stack.run
      rw [h1]; simp only [bind, Except.bind]; rw [k1]; rfl
    · rw [k2]; exact view_ext (fun k => (congrFun h4.1 k).symm) h4.2.symm

/-! ### Sequences of additions and removals -/

/-- remove keys -/
def remAll (f : K → Option V) : List K → (K → Option V)
  | [] => f
  | k :: ks => remAll (upd f k none) ks

/-- set keys -/
def setAll (f : K → Option V) : List (K × V) → (K → Option V)
  | [] => f
  | (k, v) :: r => setAll (upd f k (some v)) r

theorem remAll_apply (ks : List K) : ∀ (f : K → Option V) (x : K),
    remAll f ks x = if x ∈ ks then none else f x := by
  induction ks with
  | nil => intro f x; simp [remAll]
  | cons k ks ih =>
    intro f x
    simp only [remAll, ih, List.mem_cons]
    by_cases h1 : x ∈ ks
    · simp [h1]
    · by_cases h2 : x = k
      · subst h2; simp
      · simp [h1, h2, upd_ne _ _ h2]

theorem setAll_notMem (kvs : List (K × V)) : ∀ (f : K → Option V) (x : K), x ∉ kvs.map Prod.fst →
    setAll f kvs x = f x := by
  induction kvs with
  | nil => intro f x _; rfl
  | cons p r ih =>
    obtain ⟨k, v⟩ := p
    intro f x hx
    simp only [List.map_cons, List.mem_cons, not_or] at hx
    simp only [setAll]
    rw [ih _ _ hx.2, upd_ne _ _ hx.1]

theorem setAll_mem (kvs : List (K × V)) : ∀ (f : K → Option V), (kvs.map Prod.fst).Nodup →
    ∀ p ∈ kvs, setAll f kvs p.1 = some p.2 := by
  induction kvs with
  | nil => intro f _ p hp; cases hp
  | cons q r ih =>
    obtain ⟨k, v⟩ := q
    intro f hn p hp
    simp only [List.map_cons, List.nodup_cons] at hn
    simp only [setAll]
    rcases List.mem_cons.1 hp with rfl | hp
    · rw [setAll_notMem _ _ _ hn.1, upd_same]
    · exact ih _ hn.2 p hp

theorem rem_set (kvs : List (K × V)) (f : K → Option V) (hf : ∀ p ∈ kvs, f p.1 = none) :
    remAll (setAll f kvs) (kvs.map Prod.fst) = f := by
  funext x
  rw [remAll_apply]
  by_cases h : x ∈ kvs.map Prod.fst
  · rw [if_pos h]
    obtain ⟨p, hp, rfl⟩ := List.mem_map.1 h
    exact (hf p hp).symm
  · rw [if_neg h, setAll_notMem _ _ _ h]

theorem set_rem (kvs : List (K × V)) (f : K → Option V) (hn : (kvs.map Prod.fst).Nodup)
    (hf : ∀ p ∈ kvs, f p.1 = some p.2) : setAll (remAll f (kvs.map Prod.fst)) kvs = f := by
  funext x
  by_cases h : x ∈ kvs.map Prod.fst
  · obtain ⟨p, hp, rfl⟩ := List.mem_map.1 h
    rw [setAll_mem _ _ hn p hp, hf p hp]
  · rw [setAll_notMem _ _ _ h, remAll_apply, if_neg h]

/-! ### Transactions -/

theorem txOut_inj {a i b j : Nat} : txOut a i = txOut b j ↔ a = b ∧ i = j := by
  unfold txOut
  rw [toLex_inj, Prod.mk.injEq, toLex_inj, Prod.mk.injEq]
  simp

theorem rewardOut_inj {a i b j : Nat} : rewardOut a i = rewardOut b j ↔ a = b ∧ i = j := by
  unfold rewardOut
  rw [toLex_inj, Prod.mk.injEq, toLex_inj, Prod.mk.injEq]
  simp

theorem txOut_ne_rewardOut {a i b j : Nat} : txOut a i ≠ rewardOut b j := by
  unfold txOut rewardOut
  rw [Ne, toLex_inj, Prod.mk.injEq, toLex_inj, Prod.mk.injEq]
  simp

section tx
variable {parent : View OutPoint Coin}

/-- key and UTXO of the UTXO inputs -/
def pairs (is : List (Option OutPoint)) (us : List (Option Coin)) : List (OutPoint × Coin) :=
  (is.zip us).filterMap fun p => match p with
    | (some k, some u) => some (k, u)
    | _ => none

/-- `us` has a UTXO exactly at the UTXO inputs -/
def Aligned : List (Option OutPoint) → List (Option Coin) → Prop := List.Forall₂ (fun i u => i.isSome = u.isSome)

theorem fm_some {α : Type} (k : α) (is : List (Option α)) : (some k :: is).filterMap id = k :: is.filterMap id := rfl

theorem pairs_fst {is : List (Option OutPoint)} {us : List (Option Coin)} (h : Aligned is us) :
    (pairs is us).map Prod.fst = is.filterMap id := by
  induction h with
  | nil => rfl
  | @cons i u is us h1 h2 ih =>
    cases i <;> cases u <;> simp_all [pairs]

theorem pairs_snd {is : List (Option OutPoint)} {us : List (Option Coin)} (h : Aligned is us) :
    (pairs is us).map Prod.snd = us.filterMap id := by
  induction h with
  | nil => rfl
  | @cons i u is us h1 h2 ih =>
    cases i <;> cases u <;> simp_all [pairs]

theorem spendInputs_spec (is : List (Option OutPoint)) : ∀ {l l1 : Layer OutPoint Coin} {us : List (Option Coin)},
    LInv parent l → spendInputs parent l is = .ok (l1, us) →
    LInv parent l1 ∧ l1.best = l.best ∧ Aligned is us ∧ (is.filterMap id).Nodup ∧
      (∀ p ∈ pairs is us, (l.view parent).utxo p.1 = some p.2) ∧
      (l1.view parent).utxo = remAll (l.view parent).utxo (is.filterMap id) := by
  induction is with
  | nil =>
    intro l l1 us hi h
    simp only [spendInputs, Except.ok.injEq, Prod.mk.injEq] at h
    obtain ⟨rfl, rfl⟩ := h
    exact ⟨hi, rfl, .nil, by simp, by simp [pairs], rfl⟩
  | cons i is ih =>
    intro l l1 us hi h
    cases i with
    | none =>
      simp only [spendInputs, bind_eq_ok, pure, Except.pure, Except.ok.injEq, Prod.mk.injEq, Prod.exists] at h
      obtain ⟨l2, us2, h1, rfl, rfl⟩ := h
      obtain ⟨g1, g2, g3, g4, g5, g6⟩ := ih hi h1
      exact ⟨g1, g2, .cons rfl g3, by simpa using g4, by simpa [pairs] using g5, by simpa using g6⟩
    | some k =>
      simp only [spendInputs, bind_eq_ok, pure, Except.pure, Except.ok.injEq, Prod.mk.injEq, Prod.exists] at h
      obtain ⟨l2, r, h1, u, h2, l3, us2, h3, rfl, rfl⟩ := h
      obtain ⟨l2', r', k1, k2, k3, k4, k5⟩ := spend_spec hi k
      rw [h1] at k1
      cases k1
      obtain ⟨g1, g2, g3, g4, g5, g6⟩ := ih k2 h3
      have hk := (k5 u).1 h2
      have hsome : ∀ x c, (l2.view parent).utxo x = some c → x ≠ k ∧ (l.view parent).utxo x = some c := by
        intro x c hx
        rw [k4] at hx
        have hne : x ≠ k := by rintro rfl; simp at hx
        rw [upd_ne _ _ hne] at hx
        exact ⟨hne, hx⟩
      refine ⟨g1, g2.trans k3, .cons rfl g3, ?_, ?_, ?_⟩
      · simp only [fm_some, List.nodup_cons]
        refine ⟨fun hm => ?_, g4⟩
        rw [← pairs_fst g3] at hm
        obtain ⟨p, hp, rfl⟩ := List.mem_map.1 hm
        exact (hsome _ _ (g5 p hp)).1 rfl
      · intro p hp
        have : pairs (some k :: is) (some u :: us2) = (k, u) :: pairs is us2 := rfl
        rw [this] at hp
        rcases List.mem_cons.1 hp with rfl | hp
        · exact hk
        · exact (hsome _ _ (g5 p hp)).2
      · rw [g6, k4]; rfl

theorem restoreInputs_spec {is : List (Option OutPoint)} {us : List (Option Coin)} (ha : Aligned is us) :
    ∀ {l : Layer OutPoint Coin}, LInv parent l → (is.filterMap id).Nodup →
    (∀ k ∈ is.filterMap id, (l.view parent).utxo k = none) →
    ∃ l1, restoreInputs l (is.zip us) = .ok l1 ∧ LInv parent l1 ∧ l1.best = l.best ∧
      (l1.view parent).utxo = setAll (l.view parent).utxo (pairs is us) := by
  induction ha with
  | nil => intro l hi _ _; exact ⟨l, rfl, hi, rfl, rfl⟩
  | @cons i u is us h1 h2 ih =>
    intro l hi hn habs
    cases i <;> cases u
    · obtain ⟨l1, g1, g2, g3, g4⟩ := ih hi (by simpa using hn) (by simpa using habs)
      exact ⟨l1, by simpa [restoreInputs] using g1, g2, g3, by rw [g4]; rfl⟩
    · simp at h1
    · simp at h1
    · rename_i k u
      simp only [fm_some, List.nodup_cons] at hn
      obtain ⟨l0, k1, k2, k3, k4⟩ := add_spec hi k u false (Or.inr (habs k (by simp)))
      obtain ⟨l1, g1, g2, g3, g4⟩ := ih k2 hn.2 (by
        intro x hx
        rw [k4, upd_ne _ _ (fun e : x = k => hn.1 (by rw [← e]; exact hx))]
        exact habs x (by simp only [fm_some]; exact List.mem_cons_of_mem _ hx))
      refine ⟨l1, ?_, g2, g3.trans k3, by rw [g4, k4]; rfl⟩
      simp only [List.zip_cons_cons, restoreInputs]
      rw [k1]; exact g1

/-- key and UTXO of the outputs entering the set -/
def outPairs (mk : Nat → OutPoint) (source : Nat) : Nat → List Output → List (OutPoint × Coin)
  | _, [] => []
  | i, o :: os => if o.inUtxoSet then (mk i, ⟨o, source⟩) :: outPairs mk source (i + 1) os
    else outPairs mk source (i + 1) os

theorem outPairs_mem {mk : Nat → OutPoint} {source : Nat} : ∀ {os : List Output} {i : Nat} {p : OutPoint × Coin},
    p ∈ outPairs mk source i os → ∃ j, i ≤ j ∧ p.1 = mk j := by
  intro os
  induction os with
  | nil => intro i p hp; cases hp
  | cons o os ih =>
    intro i p hp
    unfold outPairs at hp
    split at hp
    · rcases List.mem_cons.1 hp with rfl | hp
      · exact ⟨i, le_rfl, rfl⟩
      · obtain ⟨j, h1, h2⟩ := ih hp; exact ⟨j, by omega, h2⟩
    · obtain ⟨j, h1, h2⟩ := ih hp; exact ⟨j, by omega, h2⟩

theorem outPairs_nodup {mk : Nat → OutPoint} (hmk : ∀ i j, mk i = mk j → i = j) {source : Nat} :
    ∀ (os : List Output) (i : Nat), ((outPairs mk source i os).map Prod.fst).Nodup := by
  intro os
  induction os with
  | nil => intro i; exact .nil
  | cons o os ih =>
    intro i
    unfold outPairs
    split
    · simp only [List.map_cons, List.nodup_cons]
      refine ⟨fun hm => ?_, ih _⟩
      obtain ⟨p, hp, he⟩ := List.mem_map.1 hm
      obtain ⟨j, h1, h2⟩ := outPairs_mem hp
      have := hmk i j (he.symm.trans h2)
      omega
    · exact ih _

theorem addOutputs_spec {mk : Nat → OutPoint} (hmk : ∀ i j, mk i = mk j → i = j) {source : Nat} (check : Bool) :
    ∀ (os : List Output) (i : Nat) {l : Layer OutPoint Coin}, LInv parent l →
    (∀ j, i ≤ j → (l.view parent).utxo (mk j) = none) →
    ∃ l1, addOutputs parent l mk source check i os = .ok l1 ∧ LInv parent l1 ∧ l1.best = l.best ∧
      (l1.view parent).utxo = setAll (l.view parent).utxo (outPairs mk source i os) := by
  intro os
  induction os with
  | nil => intro i l hi _; exact ⟨l, rfl, hi, rfl, rfl⟩
  | cons o os ih =>
    intro i l hi habs
    unfold addOutputs outPairs
    by_cases ho : o.inUtxoSet = true
    · rw [if_pos ho, if_pos ho]
      obtain ⟨l0, k1, k2, k3, k4⟩ := add_spec hi (mk i) ⟨o, source⟩
        (check && ((l.view parent).utxo (mk i)).isSome) (Or.inr (habs i le_rfl))
      obtain ⟨l1, g1, g2, g3, g4⟩ := ih (i + 1) k2 (by
        intro j hj
        rw [k4, upd_ne _ _ (fun e => by have := hmk _ _ e; omega)]
        exact habs j (by omega))
      refine ⟨l1, ?_, g2, g3.trans k3, by rw [g4, k4]; rfl⟩
      simp only
      rw [k1]; exact g1
    · rw [if_neg ho, if_neg ho]
      exact ih (i + 1) hi (fun j hj => habs j (by omega))

theorem spendOutputs_spec {mk : Nat → OutPoint} (hmk : ∀ i j, mk i = mk j → i = j) {source : Nat} (all : Bool) :
    ∀ (os : List Output) (i : Nat) {l : Layer OutPoint Coin}, LInv parent l →
    (∀ o ∈ os, all = true → o.inUtxoSet = true) →
    (∀ p ∈ outPairs mk source i os, (l.view parent).utxo p.1 = some p.2) →
    ∃ l1, spendOutputs parent l mk all i os = .ok l1 ∧ LInv parent l1 ∧ l1.best = l.best ∧
      (l1.view parent).utxo = remAll (l.view parent).utxo ((outPairs mk source i os).map Prod.fst) := by
  intro os
  induction os with
  | nil => intro i l hi _ _; exact ⟨l, rfl, hi, rfl, rfl⟩
  | cons o os ih =>
    intro i l hi hall hin
    unfold spendOutputs
    unfold outPairs at hin ⊢
    by_cases ho : o.inUtxoSet = true
    · rw [if_pos ho] at hin ⊢
      rw [if_pos (by simp [ho])]
      obtain ⟨l0, r, k1, k2, k3, k4, k5⟩ := spend_spec hi (mk i)
      have hr : r = .ok ⟨o, source⟩ := (k5 _).2 (hin (mk i, ⟨o, source⟩) (by simp))
      obtain ⟨l1, g1, g2, g3, g4⟩ := ih (i + 1) k2 (fun o' ho' => hall o' (by simp [ho'])) (by
        intro p hp
        obtain ⟨j, h1, h2⟩ := outPairs_mem hp
        rw [k4, upd_ne _ _ (fun e => by have := hmk _ _ (h2.symm.trans e); omega)]
        exact hin p (by simp [hp]))
      refine ⟨l1, ?_, g2, g3.trans k3, by rw [g4, k4]; rfl⟩
      rw [k1, hr]; exact g1
    · rw [if_neg ho] at hin ⊢
      have : ¬ (all || o.inUtxoSet) = true := by
        intro h
        rw [Bool.or_eq_true] at h
        rcases h with h | h
        · exact ho (hall o (by simp) h)
        · exact ho h
      rw [if_neg this]
      exact ih (i + 1) hi (fun o' ho' => hall o' (by simp [ho'])) hin

/-- what connecting a transaction does to the view -/
theorem connectTx_spec {l l1 : Layer OutPoint Coin} {tx : Tx} {source : Nat} {us : List (Option Coin)}
    (hi : LInv parent l) (hf : TxFresh (l.view parent) tx.id) (h : connectTx parent l tx source = .ok (l1, us)) :
    LInv parent l1 ∧ l1.best = l.best ∧ Aligned tx.inputs us ∧ (tx.inputs.filterMap id).Nodup ∧
      (∀ p ∈ pairs tx.inputs us, (l.view parent).utxo p.1 = some p.2) ∧
      (l1.view parent).utxo = setAll (remAll (l.view parent).utxo (tx.inputs.filterMap id))
        (outPairs (txOut tx.id) source 0 tx.outputs) ∧
      (∀ j, remAll (l.view parent).utxo (tx.inputs.filterMap id) (txOut tx.id j) = none) := by
  simp only [connectTx, bind_eq_ok, pure, Except.pure, Except.ok.injEq, Prod.mk.injEq, Prod.exists] at h
  obtain ⟨l0, us0, h1, l2, h2, rfl, rfl⟩ := h
  obtain ⟨g1, g2, g3, g4, g5, g6⟩ := spendInputs_spec _ hi h1
  have habs : ∀ j, remAll (l.view parent).utxo (tx.inputs.filterMap id) (txOut tx.id j) = none := by
    intro j
    rw [remAll_apply]
    split
    · rfl
    · exact hf j
  obtain ⟨l2', k1, k2, k3, k4⟩ := addOutputs_spec (parent := parent) (mk := txOut tx.id) (source := source)
    (fun i j e => (txOut_inj.1 e).2) false tx.outputs 0 g1 (by intro j _; rw [g6]; exact habs j)
  rw [h2] at k1
  cases k1
  exact ⟨k2, k3.trans g2, g3, g4, g5, by rw [k4, g6], habs⟩

/-- disconnecting in any well-formed layer showing the same set restores the set -/
theorem disconnectTx_spec {parent2 : View OutPoint Coin} {l l1 c : Layer OutPoint Coin} {tx : Tx} {source : Nat}
    {us : List (Option Coin)} (hi : LInv parent l) (hf : TxFresh (l.view parent) tx.id)
    (h : connectTx parent l tx source = .ok (l1, us))
    (hc : LInv parent2 c) (hv : (c.view parent2).utxo = (l1.view parent).utxo) :
    ∃ c1, disconnectTx parent2 c tx us = .ok c1 ∧ LInv parent2 c1 ∧ c1.best = c.best ∧
      (c1.view parent2).utxo = (l.view parent).utxo := by
  obtain ⟨-, -, g3, g4, g5, g6, g7⟩ := connectTx_spec hi hf h
  have hmk : ∀ i j, txOut tx.id i = txOut tx.id j → i = j := fun i j e => (txOut_inj.1 e).2
  obtain ⟨c0, k1, k2, k3, k4⟩ := spendOutputs_spec (parent := parent2) hmk (source := source) false tx.outputs 0 hc
    (by intro _ _ h; cases h) (by
      intro p hp
      rw [hv, g6]
      exact setAll_mem _ _ (outPairs_nodup hmk _ _) p hp)
  rw [hv, g6, rem_set _ _ (by
    intro p hp
    obtain ⟨j, -, h2⟩ := outPairs_mem hp
    rw [h2]; exact g7 j)] at k4
  obtain ⟨c1, m1, m2, m3, m4⟩ := restoreInputs_spec g3 k2 g4 (by
    intro k hk; rw [k4, remAll_apply, if_pos hk])
  refine ⟨c1, ?_, m2, m3.trans k3, ?_⟩
  · unfold disconnectTx
    rw [k1]
    simp only [bind, Except.bind]
    rw [if_pos g3.length_eq]; exact m1
  · rw [m4, k4, ← pairs_fst g3]
    exact set_rem _ _ (by rw [pairs_fst g3]; exact g4) g5

/-- connecting one transaction keeps the outputs of another id out of the set -/
theorem connectTx_fresh {l l1 : Layer OutPoint Coin} {tx : Tx} {source : Nat} {us : List (Option Coin)}
    (hi : LInv parent l) (hf : TxFresh (l.view parent) tx.id) (h : connectTx parent l tx source = .ok (l1, us))
    {k : OutPoint} (hk : ∀ j, k ≠ txOut tx.id j) (hn : (l.view parent).utxo k = none) :
    (l1.view parent).utxo k = none := by
  obtain ⟨-, -, -, -, -, g6, -⟩ := connectTx_spec hi hf h
  rw [g6, setAll_notMem, remAll_apply]
  · split
    · rfl
    · exact hn
  · intro hm
    obtain ⟨p, hp, rfl⟩ := List.mem_map.1 hm
    obtain ⟨j, -, h2⟩ := outPairs_mem hp
    exact hk j h2

theorem connectTxs_spec {source : Nat} (txs : List Tx) : ∀ {l l1 : Layer OutPoint Coin} {us},
    LInv parent l → (∀ tx ∈ txs, TxFresh (l.view parent) tx.id) → (txs.map Tx.id).Nodup →
    connectTxs parent l source txs = .ok (l1, us) →
    LInv parent l1 ∧ l1.best = l.best ∧
      (∀ k, (∀ tx ∈ txs, ∀ j, k ≠ txOut tx.id j) → (l.view parent).utxo k = none → (l1.view parent).utxo k = none) ∧
      (∀ {parent2 : View OutPoint Coin} {c : Layer OutPoint Coin}, LInv parent2 c →
        (c.view parent2).utxo = (l1.view parent).utxo →
        ∃ c1, disconnectTxs parent2 c (txs.zip us) = .ok c1 ∧ LInv parent2 c1 ∧ c1.best = c.best ∧
          (c1.view parent2).utxo = (l.view parent).utxo) := by
  induction txs with
  | nil =>
    intro l l1 us hi _ _ h
    simp only [connectTxs, Except.ok.injEq, Prod.mk.injEq] at h
    obtain ⟨rfl, rfl⟩ := h
    exact ⟨hi, rfl, fun _ _ h => h, fun hc hv => ⟨_, rfl, hc, rfl, hv⟩⟩
  | cons tx txs ih =>
    intro l l1 us hi hf hn h
    simp only [connectTxs, bind_eq_ok, pure, Except.pure, Except.ok.injEq, Prod.mk.injEq, Prod.exists] at h
    obtain ⟨l0, u, h1, l2, us2, h2, rfl, rfl⟩ := h
    simp only [List.map_cons, List.nodup_cons] at hn
    have hf0 := hf tx (by simp)
    obtain ⟨g1, g2, -⟩ := connectTx_spec hi hf0 h1
    obtain ⟨k1, k2, k3, k4⟩ := ih g1 (by
      intro t ht j
      refine connectTx_fresh hi hf0 h1 (fun i e => ?_) (hf t (by simp [ht]) j)
      exact hn.1 (List.mem_map.2 ⟨t, ht, (txOut_inj.1 e).1⟩)) hn.2 h2
    refine ⟨k1, k2.trans g2, ?_, ?_⟩
    · intro k hk hnone
      exact k3 k (fun t ht => hk t (by simp [ht])) (connectTx_fresh hi hf0 h1 (hk tx (by simp)) hnone)
    · intro parent2 c hc hv
      obtain ⟨c1, m1, m2, m3, m4⟩ := k4 hc hv
      obtain ⟨c2, n1, n2, n3, n4⟩ := disconnectTx_spec hi hf0 h1 m2 m4
      refine ⟨c2, ?_, n2, n3.trans m3, n4⟩
      simp only [List.zip_cons_cons, disconnectTxs]
      rw [m1]; exact n1

/-! ### Block reward -/

theorem addRewardOutputs_eq {block height : Nat} : ∀ (os : List Output) (i : Nat) {l l1 : Layer OutPoint Coin},
    LInv parent l → (∀ j, i ≤ j → (l.view parent).utxo (rewardOut block j) = none) →
    addRewardOutputs l block height i os = .ok l1 →
    (∀ o ∈ os, o.inUtxoSet = true) ∧ addOutputs parent l (rewardOut block) height false i os = .ok l1 := by
  intro os
  induction os with
  | nil => intro i l l1 _ _ h; exact ⟨by simp, h⟩
  | cons o os ih =>
    intro i l l1 hi habs h
    unfold addRewardOutputs at h
    by_cases ho : o.inUtxoSet = true
    · rw [if_pos ho] at h
      obtain ⟨l0, k1, k2, k3, k4⟩ := add_spec hi (rewardOut block i) ⟨o, height⟩ false (Or.inr (habs i le_rfl))
      rw [k1] at h
      simp only [bind, Except.bind] at h
      obtain ⟨m1, m2⟩ := ih (i + 1) k2 (by
        intro j hj
        rw [k4, upd_ne _ _ (fun e => by have := (rewardOut_inj.1 e).2; omega)]
        exact habs j (by omega)) h
      refine ⟨by intro o' ho'; rcases List.mem_cons.1 ho' with rfl | h'; exacts [ho, m1 _ h'], ?_⟩
      unfold addOutputs
      rw [if_pos ho]
      simp only [Bool.false_and]
      rw [k1]; exact m2
    · rw [if_neg ho] at h; cases h

theorem restoreReward_eq : ∀ (is : List (Option OutPoint)) (us : List (Option Coin)) (l : Layer OutPoint Coin),
    Aligned is us → (∀ i ∈ is, i.isSome = true) →
    restoreRewardInputs l (is.zip (us.filterMap id)) = restoreInputs l (is.zip us) := by
  intro is us l h
  induction h generalizing l with
  | nil => intro _; rfl
  | @cons i u is us h1 h2 ih =>
    intro hall
    have hi := hall i (by simp)
    cases i with
    | none => cases hi
    | some k =>
      cases u with
      | none => cases h1
      | some u =>
        simp only [fm_some, List.zip_cons_cons, restoreRewardInputs, restoreInputs]
        congr 1
        funext l1
        exact ih l1 (fun i hi => hall i (by simp [hi]))

theorem connectReward_spec {l l1 : Layer OutPoint Coin} {r : Reward} {block height : Nat} {u : Option (List Coin)}
    (hi : LInv parent l) (hf : RewardFresh (l.view parent) block) (hr : r.utxoInputs)
    (h : connectReward parent l r block height = .ok (l1, u)) :
    LInv parent l1 ∧ l1.best = l.best ∧
      (∀ k, (∀ j, k ≠ rewardOut block j) → (l.view parent).utxo k = none → (l1.view parent).utxo k = none) ∧
      (∀ {parent2 : View OutPoint Coin} {c : Layer OutPoint Coin}, LInv parent2 c →
        (c.view parent2).utxo = (l1.view parent).utxo →
        ∃ c1, disconnectReward parent2 c r block u = .ok c1 ∧ LInv parent2 c1 ∧ c1.best = c.best ∧
          (c1.view parent2).utxo = (l.view parent).utxo) := by
  obtain ⟨inputs, outputs⟩ := r
  have hmk : ∀ i j, rewardOut block i = rewardOut block j → i = j := fun i j e => (rewardOut_inj.1 e).2
  -- outputs: from `l0` to `l1`
  have houts : ∀ {l0 : Layer OutPoint Coin}, LInv parent l0 → RewardFresh (l0.view parent) block →
      (match outputs with
        | some os => addRewardOutputs l0 block height 0 os
        | none => pure l0) = .ok l1 →
      LInv parent l1 ∧ l1.best = l0.best ∧
      (∀ k, (∀ j, k ≠ rewardOut block j) → (l1.view parent).utxo k = (l0.view parent).utxo k) ∧
      (∀ {parent2 : View OutPoint Coin} {c : Layer OutPoint Coin}, LInv parent2 c →
        (c.view parent2).utxo = (l1.view parent).utxo →
        ∃ c1, (match outputs with
          | some os => spendOutputs parent2 c (rewardOut block) true 0 os
          | none => pure c) = .ok c1 ∧ LInv parent2 c1 ∧ c1.best = c.best ∧
          (c1.view parent2).utxo = (l0.view parent).utxo) := by
    intro l0 hi0 hf0 h
    cases outputs with
    | none =>
      cases h
      exact ⟨hi0, rfl, fun _ _ => rfl, fun hc hv => ⟨_, rfl, hc, rfl, hv⟩⟩
    | some os =>
      simp only at h
      obtain ⟨m1, m2⟩ := addRewardOutputs_eq (parent := parent) os 0 hi0 (fun j _ => hf0 j) h
      obtain ⟨l1', k1, k2, k3, k4⟩ := addOutputs_spec (parent := parent) hmk (source := height) false os 0 hi0
        (fun j _ => hf0 j)
      rw [m2] at k1
      cases k1
      refine ⟨k2, k3, ?_, ?_⟩
      · intro k hk
        rw [k4, setAll_notMem]
        intro hm
        obtain ⟨p, hp, rfl⟩ := List.mem_map.1 hm
        obtain ⟨j, -, h2⟩ := outPairs_mem hp
        exact hk j h2
      · intro parent2 c hc hv
        obtain ⟨c0, n1, n2, n3, n4⟩ := spendOutputs_spec (parent := parent2) hmk (source := height) true os 0 hc
          (fun o ho _ => m1 o ho) (by
            intro p hp
            rw [hv, k4]
            exact setAll_mem _ _ (outPairs_nodup hmk _ _) p hp)
        refine ⟨c0, n1, n2, n3, ?_⟩
        rw [n4, hv, k4, rem_set _ _ (by
          intro p hp
          obtain ⟨j, -, h2⟩ := outPairs_mem hp
          rw [h2]; exact hf0 j)]
  unfold connectReward at h
  unfold disconnectReward
  cases inputs with
  | none =>
    simp only [bind, Except.bind, pure, Except.pure] at h
    cases ho : (match (generalizing := false) outputs with
        | some os => addRewardOutputs l block height 0 os
        | none => pure l : Except Err (Layer OutPoint Coin)) with
    | error e =>
      cases outputs with
      | none => cases ho
      | some os => simp only at ho h; rw [ho] at h; cases h
    | ok l2 =>
      have hl : l2 = l1 ∧ u = none := by
        cases outputs with
        | none => cases ho; cases h; exact ⟨rfl, rfl⟩
        | some os => simp only at ho h; rw [ho] at h; cases h; exact ⟨rfl, rfl⟩
      obtain ⟨rfl, rfl⟩ := hl
      obtain ⟨g1, g2, g3, g4⟩ := houts hi hf ho
      refine ⟨g1, g2, fun k hk hn => by rw [g3 k hk]; exact hn, ?_⟩
      intro parent2 c hc hv
      obtain ⟨c1, m1, m2, m3, m4⟩ := g4 hc hv
      refine ⟨c1, ?_, m2, m3, m4⟩
      cases outputs <;> simp only at m1 ⊢ <;> rw [m1] <;> rfl
  | some is =>
    obtain ⟨hne, hall⟩ := hr is rfl
    cases hs : spendInputs parent l is with
    | error e => simp only [hs, bind, Except.bind] at h; cases h
    | ok q =>
      obtain ⟨l0, us⟩ := q
      obtain ⟨g1, g2, g3, g4, g5, g6⟩ := spendInputs_spec _ hi hs
      simp only [hs, bind, Except.bind, pure, Except.pure] at h
      have hune : (us.filterMap id).isEmpty = false := by
        cases g3 with
        | nil => exact absurd rfl hne
        | @cons i u' is us h1 h2 =>
          have := hall i (by simp)
          cases u' with
          | none => rw [this] at h1; cases h1
          | some u' => simp
      rw [hune] at h
      have hf0 : RewardFresh (l0.view parent) block := by
        intro j
        rw [g6, remAll_apply]
        split
        · rfl
        · exact hf j
      cases ho : (match (generalizing := false) outputs with
          | some os => addRewardOutputs l0 block height 0 os
          | none => pure l0 : Except Err (Layer OutPoint Coin)) with
      | error e =>
        cases outputs with
        | none => cases ho
        | some os => simp only at ho h; rw [ho] at h; cases h
      | ok l2 =>
        have hl : l2 = l1 ∧ u = some (us.filterMap id) := by
          cases outputs with
          | none => cases ho; cases h; exact ⟨rfl, rfl⟩
          | some os => simp only at ho h; rw [ho] at h; cases h; exact ⟨rfl, rfl⟩
        obtain ⟨rfl, rfl⟩ := hl
        obtain ⟨k1, k2, k3, k4⟩ := houts g1 hf0 ho
        refine ⟨k1, k2.trans g2, ?_, ?_⟩
        · intro k hk hn
          rw [k3 k hk, g6, remAll_apply]
          split
          · rfl
          · exact hn
        · intro parent2 c hc hv
          obtain ⟨c1, m1, m2, m3, m4⟩ := k4 hc hv
          obtain ⟨c2, n1, n2, n3, n4⟩ := restoreInputs_spec g3 m2 g4 (by
            intro k hk; rw [m4, g6, remAll_apply, if_pos hk])
          refine ⟨c2, ?_, n2, n3.trans m3, ?_⟩
          · have : restoreRewardInputs c1 (is.zip (us.filterMap id)) = .ok c2 := by
              rw [restoreReward_eq _ _ _ g3 hall]; exact n1
            cases outputs <;> simp only [okOr] at m1 ⊢ <;> rw [m1] <;> exact this
          · rw [n4, m4, g6, ← pairs_fst g3]
            exact set_rem _ _ (by rw [pairs_fst g3]; exact g4) g5

theorem connectBlock_spec {l l1 : Layer OutPoint Coin} {b : Block} {u}
    (hi : LInv parent l) (hf : ∀ tx ∈ b.txs, TxFresh (l.view parent) tx.id) (hn : (b.txs.map Tx.id).Nodup)
    (hrf : RewardFresh (l.view parent) b.id) (hr : b.reward.utxoInputs)
    (h : connectBlock parent l b = .ok (l1, u)) :
    LInv parent l1 ∧ l1.best = b.id ∧
      (∀ k, (∀ tx ∈ b.txs, ∀ j, k ≠ txOut tx.id j) → (∀ j, k ≠ rewardOut b.id j) →
        (l.view parent).utxo k = none → (l1.view parent).utxo k = none) ∧
      (∀ {parent2 : View OutPoint Coin} {c : Layer OutPoint Coin}, LInv parent2 c →
        (c.view parent2).utxo = (l1.view parent).utxo →
        ∃ c1, disconnectBlock parent2 c b u = .ok c1 ∧ LInv parent2 c1 ∧
          c1.view parent2 = ⟨(l.view parent).utxo, b.prev⟩) := by
  simp only [connectBlock, bind_eq_ok, pure, Except.pure, Except.ok.injEq, Prod.mk.injEq, Prod.exists] at h
  obtain ⟨l0, us, h1, l2, ru, h2, rfl, rfl⟩ := h
  obtain ⟨g1, g2, g3, g4⟩ := connectTxs_spec _ hi hf hn h1
  obtain ⟨k1, k2, k3, k4⟩ := connectReward_spec g1 (fun j => g3 _ (fun tx _ i => txOut_ne_rewardOut.symm) (hrf j)) hr h2
  refine ⟨k1, rfl, fun k hk1 hk2 hn => k3 k hk2 (g3 k hk1 hn), ?_⟩
  intro parent2 c hc hv
  obtain ⟨c1, m1, m2, m3, m4⟩ := k4 hc hv
  obtain ⟨c2, n1, n2, n3, n4⟩ := g4 m2 m4
  refine ⟨{ c2 with best := b.prev }, ?_, n2, view_ext (fun k => congrFun n4 k) rfl⟩
  unfold disconnectBlock
  rw [m1]; simp only [bind, Except.bind]; rw [n1]; rfl

theorem DB.ext_view {a b : DB OutPoint Coin} (h : a.view = b.view) : a = b := by
  obtain ⟨u, x⟩ := a
  obtain ⟨v, y⟩ := b
  have h1 : u = v := BMap.ext_get fun k => congrFun (congrArg View.utxo h) k
  have h2 : x = y := congrArg View.best h
  rw [h1, h2]

theorem connectToDB_spec {db db' : DB OutPoint Coin} {b : Block} {u}
    (hf : ∀ tx ∈ b.txs, TxFresh db.view tx.id) (hn : (b.txs.map Tx.id).Nodup)
    (hrf : RewardFresh db.view b.id) (hr : b.reward.utxoInputs) (hp : b.prev = db.best)
    (h : connectToDB db b = .ok (db', u)) :
    db'.best = b.id ∧ disconnectFromDB db' b u = .ok db ∧
      (∀ k, (∀ tx ∈ b.txs, ∀ j, k ≠ txOut tx.id j) → (∀ j, k ≠ rewardOut b.id j) →
        db.view.utxo k = none → db'.view.utxo k = none) := by
  simp only [connectToDB, bind_eq_ok, pure, Except.pure, Except.ok.injEq, Prod.mk.injEq, Prod.exists] at h
  obtain ⟨l, us, ru, h1, db1, h2, rfl, rfl⟩ := h
  obtain ⟨g1, g2, g3, g4⟩ := connectBlock_spec (new_inv db.view) hf hn hrf hr h1
  obtain ⟨db2, k1, k2⟩ := dbWrite_spec g1
  rw [h2] at k1
  cases k1
  obtain ⟨c1, m1, m2, m3⟩ := g4 (new_inv db1.view) (by rw [new_view, k2])
  obtain ⟨db3, n1, n2⟩ := dbWrite_spec m2
  refine ⟨?_, ?_, ?_⟩
  · have : db1.view.best = l.best := by rw [k2]; rfl
    exact this.trans g2
  · unfold disconnectFromDB
    rw [m1]; simp only [bind, Except.bind]; rw [n1]
    have : db3 = db := DB.ext_view (by
      rw [n2, m3]
      exact view_ext (fun k => rfl) hp)
    rw [this]
  · intro k hk1 hk2 hnone
    rw [k2]; exact g3 k hk1 hk2 hnone

theorem connectChain_spec (bs : List Block) : ∀ {db db' : DB OutPoint Coin} {us},
    (∀ b ∈ bs, ∀ tx ∈ b.txs, TxFresh db.view tx.id) → (bs.flatMap fun b => b.txs.map Tx.id).Nodup →
    (∀ b ∈ bs, RewardFresh db.view b.id) → (bs.map Block.id).Nodup → (∀ b ∈ bs, b.reward.utxoInputs) →
    Linked db.best bs → connectChain db bs = .ok (db', us) →
    disconnectChain db' (bs.zip us) = .ok db := by
  induction bs with
  | nil =>
    intro db db' us _ _ _ _ _ _ h
    simp only [connectChain, Except.ok.injEq, Prod.mk.injEq] at h
    obtain ⟨rfl, rfl⟩ := h
    rfl
  | cons b bs ih =>
    intro db db' us hf hn hrf hbn hr hl h
    simp only [connectChain, bind_eq_ok, pure, Except.pure, Except.ok.injEq, Prod.mk.injEq, Prod.exists] at h
    obtain ⟨db1, u1, u2, h1, db2, us2, h2, rfl, rfl⟩ := h
    simp only [List.flatMap_cons, List.nodup_append] at hn
    simp only [List.map_cons, List.nodup_cons] at hbn
    obtain ⟨g1, g2, g3⟩ := connectToDB_spec (hf b (by simp)) hn.1 (hrf b (by simp)) (hr b (by simp)) hl.1 h1
    have hrec := ih (db := db1) (by
      intro b' hb' tx htx j
      refine g3 _ (fun t ht i e => ?_) (fun i => txOut_ne_rewardOut) (hf b' (by simp [hb']) tx htx j)
      refine hn.2.2 t.id (List.mem_map.2 ⟨t, ht, rfl⟩) tx.id ?_ (txOut_inj.1 e).1.symm
      exact List.mem_flatMap.2 ⟨b', hb', List.mem_map.2 ⟨tx, htx, rfl⟩⟩) hn.2.1 (by
      intro b' hb' j
      refine g3 _ (fun t ht i e => txOut_ne_rewardOut e.symm) (fun i e => ?_) (hrf b' (by simp [hb']) j)
      exact hbn.1 (List.mem_map.2 ⟨b', hb', (rewardOut_inj.1 e).1⟩)) hbn.2
      (fun b' hb' => hr b' (by simp [hb'])) (by rw [g1]; exact hl.2) h2
    simp only [List.zip_cons_cons, disconnectChain]
    rw [hrec]; exact g2

theorem connectTxs_nodup {source : Nat} (txs : List Tx) : ∀ {l l1 : Layer OutPoint Coin} {us},
    LInv parent l → (∀ tx ∈ txs, TxFresh (l.view parent) tx.id) → (txs.map Tx.id).Nodup →
    connectTxs parent l source txs = .ok (l1, us) →
    (spentBy txs).Nodup ∧
      (∀ k ∈ spentBy txs, (l.view parent).utxo k ≠ none ∨ ∃ tx ∈ txs, ∃ j, k = txOut tx.id j) ∧
      (∀ k ∈ spentBy txs, (l1.view parent).utxo k = none) := by
  induction txs with
  | nil => intro l l1 us _ _ _ _; simp [spentBy]
  | cons tx txs ih =>
    intro l l1 us hi hf hn h
    simp only [connectTxs, bind_eq_ok, pure, Except.pure, Except.ok.injEq, Prod.mk.injEq, Prod.exists] at h
    obtain ⟨l0, u, h1, l2, us2, h2, rfl, rfl⟩ := h
    simp only [List.map_cons, List.nodup_cons] at hn
    have hf0 := hf tx (by simp)
    obtain ⟨g1, g2, g3, g4, g5, g6, g7⟩ := connectTx_spec hi hf0 h1
    have hfr : ∀ t ∈ txs, TxFresh (l0.view parent) t.id := by
      intro t ht j
      refine connectTx_fresh hi hf0 h1 (fun i e => ?_) (hf t (by simp [ht]) j)
      exact hn.1 (List.mem_map.2 ⟨t, ht, (txOut_inj.1 e).1⟩)
    obtain ⟨k1, k2, k3⟩ := ih g1 hfr hn.2 h2
    obtain ⟨-, -, n3, -⟩ := connectTxs_spec _ g1 hfr hn.2 h2
    -- inputs of `tx` are present in `l`, are not outputs of `tx` or of later transactions
    have hin : ∀ k ∈ tx.inputs.filterMap id, (l.view parent).utxo k ≠ none := by
      intro k hk
      rw [← pairs_fst g3] at hk
      obtain ⟨p, hp, rfl⟩ := List.mem_map.1 hk
      rw [g5 p hp]; exact Option.some_ne_none _
    have hself : ∀ k ∈ tx.inputs.filterMap id, ∀ j, k ≠ txOut tx.id j := by
      intro k hk j e
      exact hin k hk (e ▸ hf0 j)
    have hlater : ∀ k ∈ tx.inputs.filterMap id, ∀ t ∈ txs, ∀ j, k ≠ txOut t.id j := by
      intro k hk t ht j e
      exact hin k hk (e ▸ hf t (by simp [ht]) j)
    have hgone : ∀ k ∈ tx.inputs.filterMap id, (l0.view parent).utxo k = none := by
      intro k hk
      rw [g6, setAll_notMem, remAll_apply, if_pos hk]
      intro hm
      obtain ⟨p, hp, he⟩ := List.mem_map.1 hm
      obtain ⟨j, -, h2⟩ := outPairs_mem hp
      exact hself k hk j (he.symm.trans h2)
    have hdisj : ∀ k ∈ tx.inputs.filterMap id, k ∉ spentBy txs := by
      intro k hk hm
      rcases k2 k hm with h | ⟨t, ht, j, e⟩
      · exact h (hgone k hk)
      · exact hlater k hk t ht j e
    refine ⟨?_, ?_, ?_⟩
    · simp only [spentBy, List.flatMap_cons, List.nodup_append]
      exact ⟨g4, k1, fun a ha b hb e => hdisj a ha (e ▸ hb)⟩
    · intro k hk
      simp only [spentBy, List.flatMap_cons, List.mem_append] at hk
      rcases hk with hk | hk
      · exact .inl (hin k hk)
      · rcases k2 k hk with h | ⟨t, ht, j, e⟩
        · by_cases hown : ∃ j, k = txOut tx.id j
          · obtain ⟨j, e⟩ := hown; exact .inr ⟨tx, by simp, j, e⟩
          · refine .inl (fun hnone => h ?_)
            exact connectTx_fresh hi hf0 h1 (fun j e => hown ⟨j, e⟩) hnone
        · exact .inr ⟨t, by simp [ht], j, e⟩
    · intro k hk
      simp only [spentBy, List.flatMap_cons, List.mem_append] at hk
      rcases hk with hk | hk
      · exact n3 k (hlater k hk) (hgone k hk)
      · exact k3 k hk

end tx

end Verif.Utxo
