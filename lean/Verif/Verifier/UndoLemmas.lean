import Mathlib.Logic.Function.Basic
import Verif.Verifier.UndoCache

/-!
# What the undo caches show
-/

namespace Verif.Verifier
open Verif

theorem get_filterMapV {K A B : Type} [LinearOrder K] (m : BMap K A) (f : K → A → Option B) (k : K) :
    (m.filterMapV f).get k = (m.get k).bind (f k) := by
  apply Option.ext
  intro b
  rw [← BMap.mem_entries]
  simp only [BMap.filterMapV, List.mem_filterMap, Prod.exists, Option.map_eq_some_iff, Prod.mk.injEq, Option.bind_eq_some_iff]
  constructor
  · rintro ⟨k', a, h1, b', h2, rfl, rfl⟩
    exact ⟨a, BMap.mem_entries.1 h1, h2⟩
  · rintro ⟨a, h1, h2⟩
    exact ⟨k, a, BMap.mem_entries.2 h1, b, h2, rfl, rfl⟩

theorem get_live {K A : Type} [LinearOrder K] (m : BMap K (COp A)) (k : K) :
    (live m).get k = (m.get k).bind COp.get := get_filterMapV _ _ _

/-- what a cached map shows -/
def shown {K A : Type} [LinearOrder K] (base : K → Option A) (c : BMap K (COp A)) (k : K) : Option A :=
  match c.get k with
  | none => base k
  | some op => op.get

theorem applyOps_spec {K A : Type} [LinearOrder K] {store : BMap K A} {c : BMap K (COp A)}
    (hr : ∀ k a, c.get k = some (.read a) → store.get k = some a) :
    ∃ store', applyOps store c = .ok store' ∧ ∀ k, store'.get k = shown store.get c k := by
  obtain ⟨m, hm⟩ := (BMap.mergeM_isOk_iff (fun _ cur op => match op with
    | .write a => (.ok (some a) : Except UErr (Option A))
    | .read _ => .ok cur
    | .erase => .ok none) store c).2 (by
      intro k op _
      cases op <;> exact ⟨_, rfl⟩)
  refine ⟨m, hm, fun k => ?_⟩
  have := (BMap.mergeM_ok_iff _ _ _ _).1 hm k
  unfold shown
  cases h : c.get k with
  | none => rw [h] at this; exact this
  | some op =>
    rw [h] at this
    cases op with
    | write a => exact (Except.ok.inj this).symm
    | read a =>
      have h2 := Except.ok.inj this
      rw [← h2, hr k a h]; rfl
    | erase => exact (Except.ok.inj this).symm

variable {R T : Type}

theorem CBlockUndo.isEmpty_iff (b : CBlockUndo R T) :
    b.isEmpty = true ↔ b.rw = none ∧ ∀ id, b.tx id = none := by
  unfold CBlockUndo.isEmpty CBlockUndo.tx
  simp only [Bool.and_eq_true, Option.isNone_iff_eq_none, List.all_eq_true, Prod.forall]
  refine and_congr_right fun _ => ⟨fun h id => ?_, fun h k op hm => ?_⟩
  · cases e : b.txs.get id with
    | none => rfl
    | some op => exact h _ _ (BMap.mem_entries.2 e)
  · have := h k
    rw [BMap.mem_entries.1 hm] at this
    exact this

@[simp] theorem CBlockUndo.tx_ofStored (b : BlockUndo R T) (id : Nat) :
    (CBlockUndo.ofStored b).tx id = b.txs.get id := by
  unfold CBlockUndo.tx CBlockUndo.ofStored
  rw [BMap.get_mapV]
  cases b.txs.get id <;> rfl

@[simp] theorem CBlockUndo.rw_ofStored (b : BlockUndo R T) : (CBlockUndo.ofStored b).rw = b.reward := by
  unfold CBlockUndo.rw CBlockUndo.ofStored
  cases b.reward <;> rfl

@[simp] theorem CBlockUndo.tx_consume (b : CBlockUndo R T) (id : Nat) : (b.consume).txs.get id = b.tx id := get_live _ _

theorem CBlockUndo.ofStored_not_erase (b : BlockUndo R T) (id : Nat) :
    (CBlockUndo.ofStored b).txs.get id ≠ some .erase := by
  unfold CBlockUndo.ofStored
  rw [BMap.get_mapV]
  cases b.txs.get id <;> simp

/-- the cache shows these undos for `src`, and nothing of any other source is touched -/
structure URep (c : UndoCache R T) (base : Source → Option (CBlockUndo R T)) (src : Source) (txs : Nat → Option T)
    (rw : Option R) : Prop where
  tx : ∀ id, (c.cur base src).bind (·.tx id) = txs id
  rw : (c.cur base src).bind (·.rw) = rw
  nf : ∀ b, c.cur base src = some b → b.isEmpty = false
  only : ∀ s, s ≠ src → c.get s = none
  noRead : ∀ b, c.get src ≠ some (.read b)

/-- the undo of `id` was taken before -/
def Dead (c : UndoCache R T) (base : Source → Option (CBlockUndo R T)) (src : Source) (id : Nat) : Prop :=
  ∃ b, c.cur base src = some b ∧ b.txs.get id = some .erase

theorem cur_insert (c : UndoCache R T) (base : Source → Option (CBlockUndo R T)) (src : Source) (op) :
    UndoCache.cur (c.insert src op) base src = op.get := by
  unfold UndoCache.cur; rw [BMap.get_insert_self]

theorem startOf_eq {c : UndoCache R T} {base : Source → Option (CBlockUndo R T)} {src : Source} (hb : base src = none) :
    startOf c src = (c.cur base src).getD .empty := by
  unfold startOf UndoCache.cur
  cases c.get src <;> simp [hb]

theorem getD_tx (o : Option (CBlockUndo R T)) (id : Nat) : (o.getD .empty).tx id = o.bind (·.tx id) := by
  cases o <;> simp [CBlockUndo.empty, CBlockUndo.tx]

theorem getD_rw (o : Option (CBlockUndo R T)) : (o.getD .empty).rw = o.bind (·.rw) := by
  cases o <;> simp [CBlockUndo.empty, CBlockUndo.rw]

theorem URep.insertWrite {c : UndoCache R T} {base : Source → Option (CBlockUndo R T)} {src : Source}
    {txs : Nat → Option T} {rw : Option R} (h : URep c base src txs rw) {b : CBlockUndo R T} {txs' : Nat → Option T}
    {rw' : Option R} (h1 : ∀ id, b.tx id = txs' id) (h2 : b.rw = rw') (h3 : b.isEmpty = false) :
    URep (c.insert src (.write b)) base src txs' rw' where
  tx id := by rw [cur_insert]; exact h1 id
  rw := by rw [cur_insert]; exact h2
  nf b' hb := by rw [cur_insert] at hb; cases hb; exact h3
  only s hs := by rw [BMap.get_insert_ne _ _ hs]; exact h.only s hs
  noRead b' := by rw [BMap.get_insert_self]; simp

theorem tx_insert (b : CBlockUndo R T) (id : Nat) (op : COp T) (x : Nat) :
    CBlockUndo.tx { b with txs := b.txs.insert id op } x = Function.update b.tx id op.get x := by
  unfold CBlockUndo.tx
  simp only [BMap.get_insert, Function.update_apply]
  split <;> rfl

theorem URep.of_addTx {c c' : UndoCache R T} {base : Source → Option (CBlockUndo R T)} {src : Source}
    {txs : Nat → Option T} {rw : Option R} {id : Nat} {t : T} (h : URep c base src txs rw) (hb : base src = none)
    (ha : c.addTx src id t = .ok c') : txs id = none ∧ URep c' base src (Function.update txs id (some t)) rw := by
  simp only [UndoCache.addTx, bind_eq_ok, pure_eq_ok] at ha
  obtain ⟨b, h1, rfl⟩ := ha
  rw [startOf_eq hb] at h1
  unfold CBlockUndo.insertTx at h1
  split at h1
  · rename_i h2
    cases h1
    have ht : ∀ x, ((c.cur base src).getD .empty).tx x = txs x := fun x => by rw [getD_tx]; exact h.tx x
    refine ⟨?_, h.insertWrite (fun x => ?_) ?_ ?_⟩
    · rw [← ht]
      unfold CBlockUndo.tx
      rw [Option.isNone_iff_eq_none.1 h2]; rfl
    · rw [tx_insert]
      simp only [Function.update_apply, ht, COp.get]
    · show ((c.cur base src).getD .empty).rw = rw
      rw [getD_rw]; exact h.rw
    · rw [← Bool.not_eq_true, CBlockUndo.isEmpty_iff]
      rintro ⟨-, h3⟩
      have := h3 id
      rw [tx_insert] at this
      simp [COp.get] at this
  · cases h1

theorem URep.of_addReward {c c' : UndoCache R T} {base : Source → Option (CBlockUndo R T)} {src : Source}
    {txs : Nat → Option T} {rw : Option R} {r : R} (h : URep c base src txs rw) (hb : base src = none)
    (ha : c.addReward src r = .ok c') : rw = none ∧ URep c' base src txs (some r) := by
  simp only [UndoCache.addReward, bind_eq_ok, pure_eq_ok] at ha
  obtain ⟨b, h1, rfl⟩ := ha
  rw [startOf_eq hb] at h1
  unfold CBlockUndo.setReward at h1
  split at h1
  · rename_i h2
    cases h1
    refine ⟨?_, h.insertWrite (fun x => ?_) rfl ?_⟩
    · rw [← h.rw, ← getD_rw]
      unfold CBlockUndo.rw
      rw [Option.isNone_iff_eq_none.1 h2]; rfl
    · show ((c.cur base src).getD .empty).tx x = txs x
      rw [getD_tx]; exact h.tx x
    · rw [← Bool.not_eq_true, CBlockUndo.isEmpty_iff]
      rintro ⟨h3, -⟩
      cases h3
  · cases h1

theorem URep.put {c : UndoCache R T} {base : Source → Option (CBlockUndo R T)} {src : Source}
    {txs : Nat → Option T} {rw : Option R} (h : URep c base src txs rw) {b : CBlockUndo R T} {txs' : Nat → Option T}
    {rw' : Option R} (h1 : ∀ id, b.tx id = txs' id) (h2 : b.rw = rw') :
    URep (c.put src b) base src txs' rw' ∧ ∀ id, Dead (c.put src b) base src id → b.txs.get id = some .erase := by
  unfold UndoCache.put
  split
  · rename_i he
    obtain ⟨e1, e2⟩ := b.isEmpty_iff.1 he
    refine ⟨?_, ?_⟩
    · constructor
      · intro id; rw [cur_insert, ← h1, e2]; rfl
      · rw [cur_insert, ← h2, e1]; rfl
      · intro b' hb; rw [cur_insert] at hb; cases hb
      · intro s hs; rw [BMap.get_insert_ne _ _ hs]; exact h.only s hs
      · intro b'; rw [BMap.get_insert_self]; simp
    · rintro id ⟨b', hb, -⟩
      rw [cur_insert] at hb; cases hb
  · rename_i he
    refine ⟨h.insertWrite h1 h2 (by simpa using he), ?_⟩
    rintro id ⟨b', hb, hd⟩
    rw [cur_insert] at hb; cases hb
    exact hd

theorem URep.takeTx_some {c : UndoCache R T} {base : Source → Option (CBlockUndo R T)} {src : Source}
    {txs : Nat → Option T} {rw : Option R} {id : Nat} {t : T} (h : URep c base src txs rw) (ht : txs id = some t) :
    ∃ c', c.takeTx base src id = .ok (c', some t) ∧ URep c' base src (Function.update txs id none) rw ∧
      ∀ x, Dead c' base src x → x = id ∨ Dead c base src x := by
  have h1 := h.tx id
  rw [ht, Option.bind_eq_some_iff] at h1
  obtain ⟨b, hb, h1⟩ := h1
  unfold CBlockUndo.tx at h1
  rw [Option.bind_eq_some_iff] at h1
  obtain ⟨op, ho, h1⟩ := h1
  obtain ⟨r1, r2⟩ := h.put (b := { b with txs := b.txs.insert id .erase }) (txs' := Function.update txs id none)
    (rw' := rw) (fun x => by
      rw [tx_insert]
      have := h.tx x
      rw [hb] at this
      simp only [Function.update_apply, COp.get, ← this, Option.bind_some]) (by
      have := h.rw
      rw [hb] at this
      exact this)
  refine ⟨_, ?_, r1, ?_⟩
  · unfold UndoCache.takeTx CBlockUndo.takeTx
    simp only [hb, ho, h1]
    rfl
  · intro x hx
    have := r2 x hx
    simp only [BMap.get_insert] at this
    by_cases hxi : x = id
    · exact Or.inl hxi
    · rw [if_neg hxi] at this
      exact Or.inr ⟨b, hb, this⟩

theorem URep.takeTx_none {c : UndoCache R T} {base : Source → Option (CBlockUndo R T)} {src : Source}
    {txs : Nat → Option T} {rw : Option R} {id : Nat} (h : URep c base src txs rw) (ht : txs id = none)
    (hd : ¬ Dead c base src id) : c.takeTx base src id = .ok (c, none) := by
  unfold UndoCache.takeTx
  cases hb : c.cur base src with
  | none => rfl
  | some b =>
    have h1 := h.tx id
    rw [hb, ht] at h1
    have h2 : b.txs.get id = none := by
      cases h3 : b.txs.get id with
      | none => rfl
      | some op =>
        exfalso
        simp only [CBlockUndo.tx, h3, Option.bind_some] at h1
        cases op with
        | write a => cases h1
        | read a => cases h1
        | erase => exact hd ⟨b, hb, h3⟩
    simp only [CBlockUndo.takeTx, h2]
    rfl

theorem URep.takeTx {c : UndoCache R T} {base : Source → Option (CBlockUndo R T)} {src : Source}
    {txs : Nat → Option T} {rw : Option R} {id : Nat} (h : URep c base src txs rw)
    (hd : ¬ Dead c base src id) :
    ∃ c', c.takeTx base src id = .ok (c', txs id) ∧ URep c' base src (Function.update txs id none) rw ∧
      ∀ x, Dead c' base src x → x = id ∨ Dead c base src x := by
  cases ht : txs id with
  | some t => exact h.takeTx_some ht
  | none =>
    refine ⟨c, h.takeTx_none ht hd, ?_, fun x hx => Or.inr hx⟩
    rw [Function.update_eq_self_iff.2 ht.symm]
    exact h

theorem URep.takeReward {c : UndoCache R T} {base : Source → Option (CBlockUndo R T)} {src : Source}
    {txs : Nat → Option T} {rw : Option R} (h : URep c base src txs rw) :
    ∃ c', c.takeReward base src = (c', rw) ∧ URep c' base src txs none ∧
      ∀ x, Dead c' base src x → Dead c base src x := by
  unfold UndoCache.takeReward
  cases hb : c.cur base src with
  | none =>
    have hr := h.rw
    rw [hb] at hr
    subst hr
    exact ⟨c, rfl, h, fun _ hx => hx⟩
  | some b =>
    have hr := h.rw
    rw [hb] at hr
    simp only [Option.bind_some] at hr
    simp only [CBlockUndo.takeReward, hr]
    cases rw with
    | none => exact ⟨c, rfl, h, fun _ hx => hx⟩
    | some r =>
      obtain ⟨r1, r2⟩ := h.put (b := { b with reward := none }) (txs' := txs) (rw' := none) (fun x => by
        have := h.tx x
        rw [hb] at this
        exact this) rfl
      exact ⟨_, rfl, r1, fun x hx => ⟨b, hb, r2 x hx⟩⟩

theorem URep.empty {base : Source → Option (CBlockUndo R T)} {src : Source} (hb : base src = none) :
    URep (BMap.empty : UndoCache R T) base src (fun _ => none) none where
  tx id := by simp [UndoCache.cur, hb]
  rw := by simp [UndoCache.cur, hb]
  nf b h := by simp [UndoCache.cur, hb] at h
  only s _ := by simp
  noRead b := by simp

/-- flushing to the storage: the storage then shows the same undos, other sources are untouched -/
theorem URep.flush {store : BMap Source (BlockUndo R T)} {c : UndoCache R T} {src : Source}
    {txs : Nat → Option T} {rw : Option R} (h : URep c (ofStore store) src txs rw) :
    ∃ store', c.flush store = .ok store' ∧ (∀ s, s ≠ src → store'.get s = store.get s) ∧
      URep BMap.empty (ofStore store') src txs rw ∧
      ((∀ id, txs id = none) → rw = none → store'.get src = none) := by
  obtain ⟨m, hm⟩ := (BMap.mergeM_isOk_iff (flushStep (R := R) (T := T)) store c).2 (by
    intro k op _
    cases op <;> exact ⟨_, rfl⟩)
  have hk := (BMap.mergeM_ok_iff _ _ _ _).1 hm
  have hcur : ∀ b, UndoCache.cur (BMap.empty : UndoCache R T) (ofStore m) src = some b →
      ∃ b', c.cur (ofStore store) src = some b' ∧ (∀ id, b.tx id = b'.tx id) ∧ b.rw = b'.rw := by
    intro b hb
    simp only [UndoCache.cur, BMap.get_empty, ofStore, Option.map_eq_some_iff] at hb
    obtain ⟨sb, h1, rfl⟩ := hb
    have := hk src
    cases hc : c.get src with
    | none =>
      rw [hc] at this
      refine ⟨.ofStored sb, ?_, fun _ => rfl, rfl⟩
      simp only [UndoCache.cur, hc, ofStore]
      rw [← (this : m.get src = store.get src), h1]; rfl
    | some op =>
      rw [hc] at this
      cases op with
      | write b' =>
        have e := Except.ok.inj this
        rw [h1] at e
        cases e
        refine ⟨b', by simp [UndoCache.cur, hc, COp.get], fun id => ?_, ?_⟩
        · rw [CBlockUndo.tx_ofStored, CBlockUndo.tx_consume]
        · rw [CBlockUndo.rw_ofStored]; rfl
      | read b' => exact absurd hc (h.noRead b')
      | erase =>
        have e := Except.ok.inj this
        rw [h1] at e; cases e
  have hnone : UndoCache.cur (BMap.empty : UndoCache R T) (ofStore m) src = none →
      c.cur (ofStore store) src = none := by
    intro hb
    simp only [UndoCache.cur, BMap.get_empty, ofStore, Option.map_eq_none_iff] at hb
    have := hk src
    cases hc : c.get src with
    | none =>
      rw [hc] at this
      simp only [UndoCache.cur, hc, ofStore]
      rw [← (this : m.get src = store.get src), hb]; rfl
    | some op =>
      rw [hc] at this
      cases op with
      | write b' =>
        have e := Except.ok.inj this
        rw [hb] at e; cases e
      | read b' => exact absurd hc (h.noRead b')
      | erase => simp [UndoCache.cur, hc, COp.get]
  have hrep : URep BMap.empty (ofStore m) src txs rw := by
    constructor
    · intro id
      rw [← h.tx id]
      cases hb : UndoCache.cur (BMap.empty : UndoCache R T) (ofStore m) src with
      | none => rw [hnone hb]
      | some b =>
        obtain ⟨b', e1, e2, -⟩ := hcur b hb
        rw [e1]; exact e2 id
    · rw [← h.rw]
      cases hb : UndoCache.cur (BMap.empty : UndoCache R T) (ofStore m) src with
      | none => rw [hnone hb]
      | some b =>
        obtain ⟨b', e1, -, e2⟩ := hcur b hb
        rw [e1]; exact e2
    · intro b hb
      obtain ⟨b', e1, e2, e3⟩ := hcur b hb
      have := h.nf b' e1
      rw [← Bool.not_eq_true, CBlockUndo.isEmpty_iff] at this ⊢
      simpa only [e2, e3] using this
    · intro s _; simp
    · intro b; simp
  refine ⟨m, hm, fun s hs => ?_, hrep, fun h1 h2 => ?_⟩
  · have := hk s
    rw [h.only s hs] at this
    exact this
  · cases hb : m.get src with
    | none => rfl
    | some sb =>
      exfalso
      have hc : UndoCache.cur (BMap.empty : UndoCache R T) (ofStore m) src = some (.ofStored sb) := by
        simp [UndoCache.cur, ofStore, hb]
      have := hrep.nf _ hc
      rw [← Bool.not_eq_true, CBlockUndo.isEmpty_iff] at this
      apply this
      have e1 := hrep.rw
      rw [hc, h2] at e1
      refine ⟨e1, fun id => ?_⟩
      have e2 := hrep.tx id
      rw [hc, h1] at e2
      exact e2

/-- right after a flush nothing has been taken -/
theorem not_dead_empty (store : BMap Source (BlockUndo R T)) (src : Source) (id : Nat) :
    ¬ Dead (BMap.empty : UndoCache R T) (ofStore store) src id := by
  rintro ⟨b, hb, hd⟩
  simp only [UndoCache.cur, BMap.get_empty, ofStore, Option.map_eq_some_iff] at hb
  obtain ⟨sb, -, rfl⟩ := hb
  exact CBlockUndo.ofStored_not_erase _ _ hd

/-! ### UTXO -/

/-- a live dependency of `ch` on `p` -/
def CUtxoUndo.dep (b : CUtxoUndo R T) (p ch : Nat) : Prop := (b.deps.get (toLex (p, ch))).bind COp.get = some ()

/-- the cache shows these undos and dependencies for `src`, and nothing of any other source is touched -/
structure UURep (c : UtxoUndoCache R T) (base : Source → Option (CUtxoUndo R T)) (src : Source) (txs : Nat → Option T)
    (rw : Option R) (deps : Nat → Nat → Prop) : Prop where
  tx : ∀ id, (c.cur base src).bind (·.u.tx id) = txs id
  rw : (c.cur base src).bind (·.u.rw) = rw
  dep : ∀ b, c.cur base src = some b → ∀ p ch, b.dep p ch ↔ deps p ch
  nodep : c.cur base src = none → ∀ p ch, ¬ deps p ch
  child : ∀ p ch, deps p ch → (txs ch).isSome = true
  nf : ∀ b, c.cur base src = some b → b.u.isEmpty = false
  only : ∀ s, s ≠ src → c.get s = none
  noRead : ∀ b, c.get src ≠ some (.read b)

theorem ucur_insert (c : UtxoUndoCache R T) (base : Source → Option (CUtxoUndo R T)) (src : Source) (op) :
    UtxoUndoCache.cur (c.insert src op) base src = op.get := by
  unfold UtxoUndoCache.cur; rw [BMap.get_insert_self]

theorem utxoStart_eq {c : UtxoUndoCache R T} {base : Source → Option (CUtxoUndo R T)} {src : Source}
    (hb : base src = none) : utxoStart c src = (c.cur base src).getD .empty := by
  unfold utxoStart UtxoUndoCache.cur
  cases c.get src <;> simp [hb]

theorem ugetD_tx (o : Option (CUtxoUndo R T)) (id : Nat) : (o.getD .empty).u.tx id = o.bind (·.u.tx id) := by
  cases o <;> simp [CUtxoUndo.empty, CBlockUndo.empty, CBlockUndo.tx]

theorem ugetD_rw (o : Option (CUtxoUndo R T)) : (o.getD .empty).u.rw = o.bind (·.u.rw) := by
  cases o <;> simp [CUtxoUndo.empty, CBlockUndo.empty, CBlockUndo.rw]

theorem UURep.start_dep {c : UtxoUndoCache R T} {base : Source → Option (CUtxoUndo R T)} {src : Source}
    {txs : Nat → Option T} {rw : Option R} {deps : Nat → Nat → Prop} (h : UURep c base src txs rw deps) (p ch : Nat) :
    ((c.cur base src).getD .empty).dep p ch ↔ deps p ch := by
  cases hb : c.cur base src with
  | none =>
    simp only [Option.getD_none, h.nodep hb p ch, iff_false]
    simp [CUtxoUndo.dep, CUtxoUndo.empty]
  | some b => exact h.dep b hb p ch

theorem addDeps_get (id : Nat) : ∀ (ps : List Nat) (m : BMap (Nat ×ₗ Nat) (COp Unit)) (k : Nat ×ₗ Nat),
    (addDeps m id ps).get k = if (ofLex k).2 = id ∧ (ofLex k).1 ∈ ps then some (.write ()) else m.get k
  | [], m, k => by simp [addDeps]
  | p :: ps, m, k => by
    rw [addDeps, addDeps_get id ps]
    rw [BMap.get_insert]
    have hk : k = toLex (p, id) ↔ (ofLex k).1 = p ∧ (ofLex k).2 = id := by
      constructor
      · rintro rfl; exact ⟨rfl, rfl⟩
      · rintro ⟨h1, h2⟩
        apply ofLex_inj.1
        exact Prod.ext h1 h2
    by_cases h1 : (ofLex k).2 = id ∧ (ofLex k).1 ∈ ps
    · rw [if_pos h1, if_pos ⟨h1.1, List.mem_cons_of_mem _ h1.2⟩]
    · rw [if_neg h1]
      by_cases h2 : k = toLex (p, id)
      · rw [if_pos h2, if_pos ⟨(hk.1 h2).2, by rw [(hk.1 h2).1]; exact List.mem_cons_self⟩]
      · rw [if_neg h2, if_neg]
        rintro ⟨e1, e2⟩
        rcases List.mem_cons.1 e2 with e2 | e2
        · exact h2 (hk.2 ⟨e2, e1⟩)
        · exact h1 ⟨e1, e2⟩

theorem UURep.insertWrite {c : UtxoUndoCache R T} {base : Source → Option (CUtxoUndo R T)} {src : Source}
    {txs : Nat → Option T} {rw : Option R} {deps : Nat → Nat → Prop} (h : UURep c base src txs rw deps)
    {b : CUtxoUndo R T} {txs' : Nat → Option T} {rw' : Option R} {deps' : Nat → Nat → Prop}
    (h1 : ∀ id, b.u.tx id = txs' id) (h2 : b.u.rw = rw') (h3 : b.u.isEmpty = false)
    (h4 : ∀ p ch, b.dep p ch ↔ deps' p ch) (h5 : ∀ p ch, deps' p ch → (txs' ch).isSome = true) :
    UURep (c.insert src (.write b)) base src txs' rw' deps' where
  tx id := by rw [ucur_insert]; exact h1 id
  rw := by rw [ucur_insert]; exact h2
  dep b' hb := by rw [ucur_insert] at hb; cases hb; exact h4
  nodep hb := by rw [ucur_insert] at hb; cases hb
  child := h5
  nf b' hb := by rw [ucur_insert] at hb; cases hb; exact h3
  only s hs := by rw [BMap.get_insert_ne _ _ hs]; exact h.only s hs
  noRead b' := by rw [BMap.get_insert_self]; simp

theorem UURep.of_addTx {c c' : UtxoUndoCache R T} {base : Source → Option (CUtxoUndo R T)} {src : Source}
    {txs : Nat → Option T} {rw : Option R} {deps : Nat → Nat → Prop} {id : Nat} {t : T} {ps : List Nat}
    (h : UURep c base src txs rw deps) (hb : base src = none) (ha : c.addTx src id t ps = .ok c') :
    txs id = none ∧ UURep c' base src (Function.update txs id (some t)) rw
      (fun p ch => deps p ch ∨ (ch = id ∧ p ∈ ps)) := by
  simp only [UtxoUndoCache.addTx, CUtxoUndo.insertTx, bind_eq_ok, pure_eq_ok] at ha
  obtain ⟨b, ⟨u, h1, rfl⟩, rfl⟩ := ha
  rw [utxoStart_eq hb] at h1 ⊢
  unfold CBlockUndo.insertTx at h1
  split at h1
  · rename_i h2
    cases h1
    have ht : ∀ x, ((c.cur base src).getD .empty).u.tx x = txs x := fun x => by rw [ugetD_tx]; exact h.tx x
    have hn : txs id = none := by
      rw [← ht]
      unfold CBlockUndo.tx
      rw [Option.isNone_iff_eq_none.1 h2]; rfl
    refine ⟨hn, h.insertWrite (fun x => ?_) ?_ ?_ (fun p ch => ?_) (fun p ch hd => ?_)⟩
    · dsimp only
      rw [tx_insert]
      simp only [Function.update_apply, ht, COp.get]
    · show ((c.cur base src).getD .empty).u.rw = rw
      rw [ugetD_rw]; exact h.rw
    · dsimp only
      rw [← Bool.not_eq_true, CBlockUndo.isEmpty_iff]
      rintro ⟨-, h3⟩
      have := h3 id
      rw [tx_insert] at this
      simp [COp.get] at this
    · unfold CUtxoUndo.dep
      dsimp only
      rw [addDeps_get]
      rw [← h.start_dep p ch]
      unfold CUtxoUndo.dep
      by_cases hc : ch = id ∧ p ∈ ps
      · rw [if_pos (show (ofLex (toLex (p, ch))).2 = id ∧ (ofLex (toLex (p, ch))).1 ∈ ps from hc)]; simp [hc, COp.get]
      · rw [if_neg (show ¬ ((ofLex (toLex (p, ch))).2 = id ∧ (ofLex (toLex (p, ch))).1 ∈ ps) from hc)]; simp [hc]
    · rcases hd with hd | ⟨rfl, -⟩
      · have := h.child p ch hd
        rw [Function.update_apply]
        split
        · rfl
        · exact this
      · simp
  · cases h1

theorem UURep.of_addReward {c c' : UtxoUndoCache R T} {base : Source → Option (CUtxoUndo R T)} {src : Source}
    {txs : Nat → Option T} {rw : Option R} {deps : Nat → Nat → Prop} {r : R}
    (h : UURep c base src txs rw deps) (hb : base src = none) (ha : c.addReward src r = .ok c') :
    rw = none ∧ UURep c' base src txs (some r) deps := by
  simp only [UtxoUndoCache.addReward, bind_eq_ok, pure_eq_ok] at ha
  obtain ⟨b, h1, rfl⟩ := ha
  rw [utxoStart_eq hb] at h1 ⊢
  unfold CBlockUndo.setReward at h1
  split at h1
  · rename_i h2
    cases h1
    refine ⟨?_, h.insertWrite (fun x => ?_) rfl ?_ h.start_dep h.child⟩
    · rw [← h.rw, ← ugetD_rw]
      unfold CBlockUndo.rw
      rw [Option.isNone_iff_eq_none.1 h2]; rfl
    · show ((c.cur base src).getD .empty).u.tx x = txs x
      rw [ugetD_tx]; exact h.tx x
    · dsimp only
      rw [← Bool.not_eq_true, CBlockUndo.isEmpty_iff]
      rintro ⟨h3, -⟩
      cases h3
  · cases h1

theorem UURep.put {c : UtxoUndoCache R T} {base : Source → Option (CUtxoUndo R T)} {src : Source}
    {txs : Nat → Option T} {rw : Option R} {deps : Nat → Nat → Prop} (h : UURep c base src txs rw deps)
    {b : CUtxoUndo R T} {txs' : Nat → Option T} {rw' : Option R} {deps' : Nat → Nat → Prop}
    (h1 : ∀ id, b.u.tx id = txs' id) (h2 : b.u.rw = rw')
    (h4 : ∀ p ch, b.dep p ch ↔ deps' p ch) (h5 : ∀ p ch, deps' p ch → (txs' ch).isSome = true) :
    UURep (c.put src b) base src txs' rw' deps' := by
  unfold UtxoUndoCache.put
  split
  · rename_i he
    obtain ⟨e1, e2⟩ := b.u.isEmpty_iff.1 he
    constructor
    · intro id; rw [ucur_insert, ← h1, e2]; rfl
    · rw [ucur_insert, ← h2, e1]; rfl
    · intro b' hb; rw [ucur_insert] at hb; cases hb
    · intro _ p ch hd
      have := h5 p ch hd
      rw [← h1, e2] at this
      cases this
    · exact h5
    · intro b' hb; rw [ucur_insert] at hb; cases hb
    · intro s hs; rw [BMap.get_insert_ne _ _ hs]; exact h.only s hs
    · intro b'; rw [BMap.get_insert_self]; simp
  · rename_i he
    exact h.insertWrite h1 h2 (by simpa using he) h4 h5

theorem hasChildren_iff (b : CUtxoUndo R T) (id : Nat) : b.hasChildren id = true ↔ ∃ ch, b.dep id ch := by
  unfold CUtxoUndo.hasChildren CUtxoUndo.dep
  simp only [List.any_eq_true, Bool.and_eq_true, beq_iff_eq, Prod.exists, Option.bind_eq_some_iff]
  constructor
  · rintro ⟨k, op, hm, h1, h2⟩
    obtain ⟨⟨⟩, hu⟩ := Option.isSome_iff_exists.1 h2
    refine ⟨(ofLex k).2, op, ?_, hu⟩
    rw [← h1]
    exact BMap.mem_entries.1 hm
  · rintro ⟨ch, op, h1, h2⟩
    exact ⟨_, op, BMap.mem_entries.2 h1, rfl, by rw [h2]; rfl⟩

theorem UURep.takeTx {c : UtxoUndoCache R T} {base : Source → Option (CUtxoUndo R T)} {src : Source}
    {txs : Nat → Option T} {rw : Option R} {deps : Nat → Nat → Prop} {id : Nat} {t : T}
    (h : UURep c base src txs rw deps) (ht : txs id = some t) (hd : ∀ ch, ¬ deps id ch) :
    ∃ c', c.takeTx base src id = .ok (c', t) ∧
      UURep c' base src (Function.update txs id none) rw (fun p ch => deps p ch ∧ ch ≠ id) := by
  have h1 := h.tx id
  rw [ht, Option.bind_eq_some_iff] at h1
  obtain ⟨b, hb, h1⟩ := h1
  have hch : b.hasChildren id = false := by
    rw [← Bool.not_eq_true, hasChildren_iff]
    rintro ⟨ch, hc⟩
    exact hd ch ((h.dep b hb id ch).1 hc)
  have hr := h.put (b := ⟨{ b.u with txs := b.u.txs.insert id .erase }, eraseParents b.deps id⟩)
    (txs' := Function.update txs id none) (rw' := rw) (deps' := fun p ch => deps p ch ∧ ch ≠ id)
    (fun x => by
      rw [tx_insert]
      have := h.tx x
      rw [hb] at this
      simp only [Function.update_apply, COp.get, ← this, Option.bind_some]) (by
      have := h.rw
      rw [hb] at this
      exact this) (fun p ch => by
      rw [← h.dep b hb p ch]
      unfold CUtxoUndo.dep eraseParents
      rw [BMap.get_mapV]
      cases b.deps.get (toLex (p, ch)) with
      | none => simp
      | some op =>
        simp only [Option.map_some, Option.bind_some, ofLex_toLex, Bool.and_eq_true, beq_iff_eq]
        by_cases hc : ch = id
        · cases op <;> simp [hc, COp.get]
        · simp [hc]) (fun p ch => by
      rintro ⟨h1, h2⟩
      rw [Function.update_apply, if_neg h2]
      exact h.child p ch h1)
  refine ⟨_, ?_, hr⟩
  unfold UtxoUndoCache.takeTx
  have hsel : c.pick base src = .ok b := by
    unfold UtxoUndoCache.pick
    unfold UtxoUndoCache.cur at hb
    cases hc : c.get src with
    | none => rw [hc] at hb; simp only at hb; rw [hb]; rfl
    | some op => rw [hc] at hb; simp only at hb ⊢; rw [hb]; rfl
  simp only [bind_eq_ok, pure_eq_ok]
  refine ⟨b, hsel, _, by unfold CUtxoUndo.takeTx; rw [hch]; rfl, t, by rw [h1]; rfl, rfl⟩

theorem UURep.takeReward {c : UtxoUndoCache R T} {base : Source → Option (CUtxoUndo R T)} {src : Source}
    {txs : Nat → Option T} {rw : Option R} {deps : Nat → Nat → Prop} (h : UURep c base src txs rw deps) :
    ∃ c', c.takeReward base src = (c', rw) ∧ UURep c' base src txs none deps := by
  unfold UtxoUndoCache.takeReward
  cases hb : c.cur base src with
  | none =>
    have hr := h.rw
    rw [hb] at hr
    subst hr
    exact ⟨c, rfl, h⟩
  | some b =>
    have hr := h.rw
    rw [hb] at hr
    simp only [Option.bind_some] at hr
    simp only [CBlockUndo.takeReward, hr]
    cases rw with
    | none => exact ⟨c, rfl, h⟩
    | some r =>
      refine ⟨_, rfl, h.put (fun x => ?_) rfl (h.dep b hb) h.child⟩
      have := h.tx x
      rw [hb] at this
      exact this

theorem UURep.empty {base : Source → Option (CUtxoUndo R T)} {src : Source} (hb : base src = none) :
    UURep (BMap.empty : UtxoUndoCache R T) base src (fun _ => none) none (fun _ _ => False) where
  tx id := by simp [UtxoUndoCache.cur, hb]
  rw := by simp [UtxoUndoCache.cur, hb]
  dep b h := by simp [UtxoUndoCache.cur, hb] at h
  nodep _ _ _ := id
  child _ _ h := h.elim
  nf b h := by simp [UtxoUndoCache.cur, hb] at h
  only s _ := by simp
  noRead b := by simp

theorem UURep.flush {store : BMap Source (UtxoBlockUndo R T)} {c : UtxoUndoCache R T} {src : Source}
    {txs : Nat → Option T} {rw : Option R} {deps : Nat → Nat → Prop} (h : UURep c (utxoOfStore store) src txs rw deps) :
    ∃ store', c.flush store = .ok store' ∧ (∀ s, s ≠ src → store'.get s = store.get s) ∧
      UURep BMap.empty (utxoOfStore store') src txs rw deps ∧
      ((∀ id, txs id = none) → rw = none → store'.get src = none) := by
  obtain ⟨m, hm⟩ := (BMap.mergeM_isOk_iff (utxoFlushStep (R := R) (T := T)) store c).2 (by
    intro k op _
    cases op <;> exact ⟨_, rfl⟩)
  have hk := (BMap.mergeM_ok_iff _ _ _ _).1 hm
  have hcur : ∀ b, UtxoUndoCache.cur (BMap.empty : UtxoUndoCache R T) (utxoOfStore m) src = some b →
      ∃ b', c.cur (utxoOfStore store) src = some b' ∧ (∀ id, b.u.tx id = b'.u.tx id) ∧ b.u.rw = b'.u.rw ∧
        ∀ p ch, b.dep p ch ↔ b'.dep p ch := by
    intro b hb
    simp only [UtxoUndoCache.cur, BMap.get_empty, utxoOfStore, Option.map_eq_some_iff] at hb
    obtain ⟨sb, h1, rfl⟩ := hb
    have := hk src
    cases hc : c.get src with
    | none =>
      rw [hc] at this
      refine ⟨.ofStored sb, ?_, fun _ => rfl, rfl, fun _ _ => Iff.rfl⟩
      simp only [UtxoUndoCache.cur, hc, utxoOfStore]
      rw [← (this : m.get src = store.get src), h1]; rfl
    | some op =>
      rw [hc] at this
      cases op with
      | write b' =>
        have e := Except.ok.inj this
        rw [h1] at e
        cases e
        refine ⟨b', by simp [UtxoUndoCache.cur, hc, COp.get], fun id => ?_, ?_, fun p ch => ?_⟩
        · show (CBlockUndo.ofStored b'.u.consume).tx id = _
          rw [CBlockUndo.tx_ofStored, CBlockUndo.tx_consume]
        · show (CBlockUndo.ofStored b'.u.consume).rw = _
          rw [CBlockUndo.rw_ofStored]; rfl
        · unfold CUtxoUndo.dep CUtxoUndo.ofStored CUtxoUndo.consume
          simp only [BMap.get_mapV, get_live]
          cases b'.deps.get (toLex (p, ch)) with
          | none => simp
          | some op => cases op <;> simp [COp.get]
      | read b' => exact absurd hc (h.noRead b')
      | erase =>
        have e := Except.ok.inj this
        rw [h1] at e; cases e
  have hnone : UtxoUndoCache.cur (BMap.empty : UtxoUndoCache R T) (utxoOfStore m) src = none →
      c.cur (utxoOfStore store) src = none := by
    intro hb
    simp only [UtxoUndoCache.cur, BMap.get_empty, utxoOfStore, Option.map_eq_none_iff] at hb
    have := hk src
    cases hc : c.get src with
    | none =>
      rw [hc] at this
      simp only [UtxoUndoCache.cur, hc, utxoOfStore]
      rw [← (this : m.get src = store.get src), hb]; rfl
    | some op =>
      rw [hc] at this
      cases op with
      | write b' =>
        have e := Except.ok.inj this
        rw [hb] at e; cases e
      | read b' => exact absurd hc (h.noRead b')
      | erase => simp [UtxoUndoCache.cur, hc, COp.get]
  have hrep : UURep BMap.empty (utxoOfStore m) src txs rw deps := by
    constructor
    · intro id
      rw [← h.tx id]
      cases hb : UtxoUndoCache.cur (BMap.empty : UtxoUndoCache R T) (utxoOfStore m) src with
      | none => rw [hnone hb]
      | some b =>
        obtain ⟨b', e1, e2, -⟩ := hcur b hb
        rw [e1]; exact e2 id
    · rw [← h.rw]
      cases hb : UtxoUndoCache.cur (BMap.empty : UtxoUndoCache R T) (utxoOfStore m) src with
      | none => rw [hnone hb]
      | some b =>
        obtain ⟨b', e1, -, e2, -⟩ := hcur b hb
        rw [e1]; exact e2
    · intro b hb p ch
      obtain ⟨b', e1, -, -, e2⟩ := hcur b hb
      rw [e2]; exact h.dep b' e1 p ch
    · intro hb
      exact h.nodep (hnone hb)
    · exact h.child
    · intro b hb
      obtain ⟨b', e1, e2, e3, -⟩ := hcur b hb
      have := h.nf b' e1
      rw [← Bool.not_eq_true, CBlockUndo.isEmpty_iff] at this ⊢
      simpa only [e2, e3] using this
    · intro s _; simp
    · intro b; simp
  refine ⟨m, hm, fun s hs => ?_, hrep, fun h1 h2 => ?_⟩
  · have := hk s
    rw [h.only s hs] at this
    exact this
  · cases hb : m.get src with
    | none => rfl
    | some sb =>
      exfalso
      have hc : UtxoUndoCache.cur (BMap.empty : UtxoUndoCache R T) (utxoOfStore m) src = some (.ofStored sb) := by
        simp [UtxoUndoCache.cur, utxoOfStore, hb]
      have := hrep.nf _ hc
      rw [← Bool.not_eq_true, CBlockUndo.isEmpty_iff] at this
      apply this
      have e1 := hrep.rw
      rw [hc, h2] at e1
      refine ⟨e1, fun id => ?_⟩
      have e2 := hrep.tx id
      rw [hc, h1] at e2
      exact e2

end Verif.Verifier
