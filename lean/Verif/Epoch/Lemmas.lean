import Verif.Epoch.Spec
import Verif.Pos.Props
import Verif.Pos.Rep

/-!
# Lemmas about the sealed staking state
-/

namespace Verif.Epoch
open Verif Verif.Pos Verif.Accounting
open Verif.Stake (Net epochOf lastInEpoch subIn)

/-- what a database shows -/
def sv (db : DB) : Sv := ⟨db.poolData.get, bal db.poolBalances, bal db.shares, bal db.delegationBalances, db.delegationData.get⟩

theorem I128_eq' : (I128 : Int) = 2 ^ 127 := by norm_num [I128]

theorem Sound.rep {db : DB} (h : Sound db) : DBRep db (sv db) where
  poolData := fun _ => rfl
  poolBal := fun _ => rfl
  share := fun _ => rfl
  delBal := fun _ => rfl
  delData := fun _ => rfl
  poolBalPos := h.pos
  sharePos := h.sharePos
  delBalPos := h.delPos
  poolBalLt := fun k => by rw [I128_eq']; exact_mod_cast h.lt k
  shareLt := fun k => by rw [I128_eq']; exact_mod_cast h.shareLt k
  delBalLt := fun k => by rw [I128_eq']; exact_mod_cast h.delLt k

/-- `d` takes `a` to `b` -/
def Takes (a : DB) (d : Delta) (b : DB) : Prop := Rep ⟨a.view, d⟩ (sv b)

theorem repB_of_merge {K : Type} [LinearOrder K] {store r : BMap K Nat} {d u : AmountColl K} (hlt : ∀ k, bal store k < 2 ^ 127)
    (hpos : ∀ k, store.get k ≠ some 0) (hd : ∀ k, d.get k ≠ some 0)
    (h : dbMergeBalances store d = .ok (r, u)) : RepB (E := Pos.Err) (fun k => .ok (bal store k)) d (bal r) ∧ (∀ k, bal r k < 2 ^ 127) ∧ ∀ k, r.get k ≠ some 0 := by
  have key : ∀ k, (bal r k : Int) = bal store k + dval (d.get k) ∧ bal r k < 2 ^ 127 ∧ r.get k ≠ some 0 := by
    intro k
    have hk := (dbMergeBalances_get h k).2
    cases hx : d.get k with
    | none =>
      rw [hx] at hk
      have : bal r k = bal store k := by unfold bal; rw [hk]
      rw [this, hk]
      exact ⟨by simp, hlt k, hpos k⟩
    | some x =>
      rw [hx] at hk
      have h1 := combineAmountDelta_ok.1 hk.1
      rw [I128_eq'] at h1
      refine ⟨by simp; omega, ?_, hk.2⟩
      have : (bal r k : Int) < 2 ^ 127 := by omega
      exact_mod_cast this
  have hl : ∀ k, (bal store k : Int) < 2 ^ 127 := fun k => by exact_mod_cast hlt k
  refine ⟨⟨fun k x hx => ⟨fun h0 => hd k (h0 ▸ hx), ?_⟩, fun k => ⟨bal store k, rfl, ?_, (key k).1, ?_⟩⟩, fun k => (key k).2.1, fun k => (key k).2.2⟩
  · have h1 := (key k).1
    have h2 := (key k).2.1
    have h3 := hl k
    rw [hx, dval_some] at h1
    have h2' : (bal r k : Int) < 2 ^ 127 := by exact_mod_cast h2
    unfold SAmt.InRange
    rw [I128_eq']
    constructor <;> omega
  · rw [I128_eq']; exact hl k
  · rw [I128_eq']; exact_mod_cast (key k).2.1

theorem repD_of_merge {K T : Type} [LinearOrder K] [DecidableEq T] {store r : BMap K T} {d u : DataColl K T} (h : dbMergeData store d = .ok (r, u)) :
    RepD (E := Pos.Err) (fun k => .ok (store.get k)) d r.get := by
  refine ⟨fun k e he => ?_, fun k => getVal_flush h k⟩
  have := (dbMergeData_get h k).2
  rw [he] at this
  rw [this.1]

theorem takes_of_merge {a b : DB} {d u : Delta} (ha : Sound a) (hd : Clean d) (h : a.mergeWithDelta d = .ok (b, u)) : Takes a d b ∧ Sound b := by
  simp only [DB.mergeWithDelta, bind_eq_ok, lift_ok, pure_eq_ok] at h
  obtain ⟨⟨pd, pdu⟩, h1, ⟨dd, ddu⟩, h2, ⟨pb, pbu⟩, h3, ⟨dlb, dlbu⟩, h4, ⟨sh, shu⟩, h5, e⟩ := h
  cases e
  obtain ⟨b3, l3, z3⟩ := repB_of_merge ha.lt ha.pos hd.pool h3
  obtain ⟨b4, l4, z4⟩ := repB_of_merge ha.delLt ha.delPos hd.del h4
  obtain ⟨b5, l5, z5⟩ := repB_of_merge ha.shareLt ha.sharePos hd.share h5
  exact ⟨⟨repD_of_merge h1, b3, b5, b4, repD_of_merge h2⟩, ⟨z3, z5, z4, l3, l5, l4⟩⟩

theorem takes_refl {a : DB} (ha : Sound a) : Takes a Delta.empty a := ha.rep.new

theorem takes_trans {a b c : DB} {d d' : Delta} (h : Takes a d b) (h' : Takes b d' c) : ∃ m u, d.mergeWithDelta d' = .ok (m, u) ∧ Takes a m c := by
  have e : Rep ⟨(Cache.mk a.view d).view, d'⟩ (sv c) := by
    obtain ⟨h1, h2, h3, h4, h5⟩ := h'
    refine ⟨?_, ?_, ?_, ?_, ?_⟩
    · have : (Cache.mk a.view d).view.poolData = b.view.poolData := funext fun k => h.vPoolData k
      simp only [this]; exact h1
    · have : (Cache.mk a.view d).view.poolBalance = b.view.poolBalance := funext fun k => h.vPoolBal k
      simp only [this]; exact h2
    · have : (Cache.mk a.view d).view.share = b.view.share := funext fun k => h.vShare k
      simp only [this]; exact h3
    · have : (Cache.mk a.view d).view.delegationBalance = b.view.delegationBalance := funext fun k => h.vDelBal k
      simp only [this]; exact h4
    · have : (Cache.mk a.view d).view.delegationData = b.view.delegationData := funext fun k => h.vDelData k
      simp only [this]; exact h5
  exact Rep.layer (c := ⟨a.view, d⟩) (d := ⟨(Cache.mk a.view d).view, d'⟩) h rfl e

theorem takes_flush {a b : DB} {d : Delta} (ha : Sound a) (hb : Sound b) (h : Takes a d b) : ∃ u, a.mergeWithDelta d = .ok (b, u) := by
  obtain ⟨db', u, e, hr⟩ := Rep.flush ha.rep (c := ⟨a.view, d⟩) rfl h
  cases hr.ext hb.rep
  exact ⟨u, e⟩

theorem rollback_exact {a b : DB} {d u : Delta} (ha : Sound a) (h : a.mergeWithDelta d = .ok (b, u)) : b.undoMergeWithDelta u = .ok a := by
  obtain ⟨x, h1, -, h2⟩ := C05_rollback a b d u h
  rw [h1, h2 ha.pos ha.delPos ha.sharePos]

theorem clean_empty : Clean Delta.empty := ⟨fun k => by simp [Delta.empty], fun k => by simp [Delta.empty], fun k => by simp [Delta.empty]⟩

theorem CleanOpt.getD {d : Option Delta} (h : CleanOpt d) : Clean (d.getD Delta.empty) := by
  cases d with
  | none => exact clean_empty
  | some x => exact h x rfl

/-- the flush of a block extends the delta of its epoch -/
theorem flush_ok {n : Net} {st : Store} {h : Nat} {d : Option Delta} {a t' : DB} {u : Delta} (ht : Sound st.tip) (hd : CleanOpt d)
    (hm : st.tip.mergeWithDelta (d.getD Delta.empty) = .ok (t', u))
    (hE : Takes a ((st.deltas.get (epochOf n h)).getD Delta.empty) st.tip) :
    ∃ st1, flush n st h d = .ok st1 ∧ st1.tip = t' ∧ st1.sealed = st.sealed ∧ st1.undos = st.undos ∧
      (∀ e, e ≠ epochOf n h → st1.deltas.get e = st.deltas.get e) ∧ Takes a ((st1.deltas.get (epochOf n h)).getD Delta.empty) t' := by
  obtain ⟨h1, hs⟩ := takes_of_merge ht hd.getD hm
  cases d with
  | none =>
    refine ⟨{ st with tip := t' }, ?_, rfl, rfl, rfl, fun _ _ => rfl, ?_⟩
    · simp only [flush, bind_eq_ok]
      exact ⟨_, hm, rfl⟩
    · obtain ⟨v, hv⟩ := takes_flush ht ht (takes_refl ht)
      simp only [Option.getD_none] at hm
      rw [hv] at hm
      simp only [Except.ok.injEq, Prod.mk.injEq] at hm
      rw [← hm.1]
      exact hE
  | some x =>
    obtain ⟨m, v, hv, hT⟩ := takes_trans hE h1
    refine ⟨{ st with tip := t', deltas := st.deltas.insert (epochOf n h) m }, ?_, rfl, rfl, rfl, fun e he => ?_, ?_⟩
    · simp only [flush, bind_eq_ok, applyEpoch]
      exact ⟨_, hm, _, hv, rfl⟩
    · simp only [BMap.get_insert_ne _ _ he]
    · simp only [BMap.get_insert_self, Option.getD_some]
      exact hT

/-! ### the invariant -/

structure Inv (n : Net) (c : List DB) (st : Store) : Prop where
  ne : 0 < c.length
  tip : c[c.length - 1]? = some st.tip
  sound : ∀ x ∈ c, Sound x
  noDelta : ∀ e, c.length ≤ e * n.epochLength → st.deltas.get e = none
  delta : ∀ e, e * n.epochLength < c.length → ∃ a b, c[e * n.epochLength - 1]? = some a ∧
    c[min ((e + 1) * n.epochLength) c.length - 1]? = some b ∧ Takes a ((st.deltas.get e).getD Delta.empty) b
  noUndo : ∀ e, c.length / n.epochLength - n.sealDistance ≤ e → st.undos.get e = none
  undo : ∀ e, e < c.length / n.epochLength - n.sealDistance → ∃ a b, c[e * n.epochLength - 1]? = some a ∧ c[(e + 1) * n.epochLength - 1]? = some b ∧
    (st.undos.get e = none ∧ a = b ∨ ∃ u d, st.undos.get e = some u ∧ a.mergeWithDelta d = .ok (b, u))
  sealed : c[(c.length / n.epochLength - n.sealDistance) * n.epochLength - 1]? = some st.sealed

theorem inv_genesis {n : Net} (hL : 0 < n.epochLength) {g : DB} (hg : Sound g) : Inv n [g] ⟨g, g, BMap.empty, BMap.empty⟩ where
  ne := by simp
  tip := by simp
  sound := by simpa using hg
  noDelta := by simp
  delta := by
    intro e he
    simp only [List.length_singleton] at he
    have h0 : e * n.epochLength = 0 := by omega
    have e0 : e = 0 := by
      rcases Nat.mul_eq_zero.1 h0 with h | h
      · exact h
      · omega
    subst e0
    refine ⟨g, g, by simp, ?_, by simpa using takes_refl hg⟩
    have : min ((0 + 1) * n.epochLength) [g].length - 1 = 0 := by simp
    rw [this]; rfl
  noUndo := by simp
  undo := by
    intro e he
    simp only [List.length_singleton] at he
    have h1 : 1 / n.epochLength ≤ 1 := Nat.div_le_self _ _
    have e0 : e = 0 := by omega
    have hl : n.epochLength = 1 := by
      by_contra hne
      have : 1 / n.epochLength = 0 := Nat.div_eq_of_lt (by omega)
      omega
    subst e0
    exact ⟨g, g, by simp, by simp [hl], .inl ⟨by simp, rfl⟩⟩
  sealed := by
    simp only [List.length_singleton]
    have : (1 / n.epochLength - n.sealDistance) * n.epochLength - 1 = 0 := by
      by_cases hl : n.epochLength = 1
      · simp [hl]
      · have : 1 / n.epochLength = 0 := Nat.div_eq_of_lt (by omega)
        simp [this]
    rw [this]; rfl

/-- arithmetic of heights -/
theorem epoch_bounds {L h : Nat} (hL : 0 < L) : h / L * L ≤ h ∧ h < (h / L + 1) * L := by
  have := Nat.div_add_mod h L
  have h2 := Nat.mod_lt h hL
  have h3 : h / L * L = L * (h / L) := Nat.mul_comm _ _
  have h4 : (h / L + 1) * L = h / L * L + L := by ring
  omega

theorem succ_le_of_lt {L e e0 h : Nat} (he : e < e0) (h0 : e0 * L ≤ h) : (e + 1) * L ≤ h :=
  le_trans (Nat.mul_le_mul_right L he) h0

theorem lt_epoch_of_ne {L e h : Nat} (hL : 0 < L) (he : e * L ≤ h) (hne : e ≠ h / L) : e < h / L := by
  have := (Nat.le_div_iff_mul_le hL).2 he
  omega

theorem last_iff {n : Net} {h : Nat} (hL : 0 < n.epochLength) : lastInEpoch n h = true ↔ h + 1 = (h / n.epochLength + 1) * n.epochLength := by
  obtain ⟨h1, h2⟩ := epoch_bounds (h := h) hL
  simp only [lastInEpoch, beq_iff_eq]
  constructor
  · intro h0
    obtain ⟨k, hk⟩ := Nat.dvd_of_mod_eq_zero h0
    have hk' : h + 1 = k * n.epochLength := by rw [hk, Nat.mul_comm]
    have : k = h / n.epochLength + 1 := by
      have a : h / n.epochLength < k := by
        by_contra hc
        have := Nat.mul_le_mul_right n.epochLength (Nat.le_of_not_lt hc)
        omega
      have b : k ≤ h / n.epochLength + 1 := by
        by_contra hc
        have := Nat.mul_le_mul_right n.epochLength (show h / n.epochLength + 1 + 1 ≤ k by omega)
        have e : (h / n.epochLength + 1 + 1) * n.epochLength = (h / n.epochLength + 1) * n.epochLength + n.epochLength := by ring
        omega
      omega
    rw [hk', this]
  · intro h0
    rw [h0]
    exact Nat.mul_mod_left _ _

theorem div_succ {L h : Nat} (hL : 0 < L) : (h + 1) / L = if h + 1 = (h / L + 1) * L then h / L + 1 else h / L := by
  obtain ⟨h1, h2⟩ := epoch_bounds (h := h) hL
  split
  · rename_i h0
    rw [h0]
    exact Nat.mul_div_cancel _ hL
  · rename_i h0
    have h3 : h + 1 < (h / L + 1) * L := by omega
    exact Nat.div_eq_of_lt_le (by omega) h3

theorem get_append {c : List DB} {t : DB} {i : Nat} {x : DB} (h : c[i]? = some x) : (c ++ [t])[i]? = some x := by
  obtain ⟨hi, -⟩ := List.getElem?_eq_some_iff.1 h
  rw [List.getElem?_append_left hi, h]

theorem get_front {c : List DB} {t : DB} {i : Nat} (h : i < c.length) : (c ++ [t])[i]? = c[i]? := List.getElem?_append_left h

theorem Inv.tipSound {n : Net} {c : List DB} {st : Store} (h : Inv n c st) : Sound st.tip := h.sound _ (List.mem_of_getElem? h.tip)

/-- the delta of the epoch of the next block leads from the end of the epoch before to the tip -/
theorem Inv.current {n : Net} {c : List DB} {st : Store} (hL : 0 < n.epochLength) (h : Inv n c st) :
    ∃ a, c[epochOf n c.length * n.epochLength - 1]? = some a ∧ Takes a ((st.deltas.get (epochOf n c.length)).getD Delta.empty) st.tip := by
  obtain ⟨h1, h2⟩ := epoch_bounds (h := c.length) hL
  unfold epochOf
  rcases Nat.lt_or_ge (c.length / n.epochLength * n.epochLength) c.length with hlt | hge
  · obtain ⟨a, b, ha, hb, hT⟩ := h.delta _ hlt
    rw [Nat.min_eq_right (Nat.le_of_lt h2), h.tip] at hb
    cases hb
    exact ⟨a, ha, hT⟩
  · have he : c.length / n.epochLength * n.epochLength = c.length := le_antisymm h1 hge
    rw [h.noDelta _ hge, he]
    exact ⟨st.tip, h.tip, takes_refl h.tipSound⟩

theorem inv_connect {n : Net} {c : List DB} {st : Store} {d : Option Delta} {t' : DB} {u : Delta} (hL : 0 < n.epochLength) (hI : Inv n c st) (hd : CleanOpt d)
    (hm : st.tip.mergeWithDelta (d.getD Delta.empty) = .ok (t', u)) :
    ∃ st', connect n st c.length d = .ok st' ∧ st'.tip = t' ∧ Inv n (c ++ [t']) st' := by
  obtain ⟨a0, ha0, hT0⟩ := hI.current hL
  obtain ⟨st1, hf, f1, f2, f3, f4, f5⟩ := flush_ok (h := c.length) hI.tipSound hd hm hT0
  have hs' := (takes_of_merge hI.tipSound hd.getD hm).2
  obtain ⟨b1, b2⟩ := epoch_bounds (h := c.length) hL
  have hne := hI.ne
  -- facts about the new chain with the deltas of `st1`
  have sound' : ∀ x ∈ c ++ [t'], Sound x := by
    intro x hx
    rcases List.mem_append.1 hx with hx | hx
    · exact hI.sound x hx
    · simp only [List.mem_singleton] at hx; exact hx ▸ hs'
  have tip' : (c ++ [t'])[(c ++ [t']).length - 1]? = some st1.tip := by simp [f1]
  have noDelta' : ∀ e, (c ++ [t']).length ≤ e * n.epochLength → st1.deltas.get e = none := by
    intro e he
    simp only [List.length_append, List.length_singleton] at he
    rw [f4 e (by rintro rfl; unfold epochOf at he; omega)]
    exact hI.noDelta e (by omega)
  have delta' : ∀ e, e * n.epochLength < (c ++ [t']).length → ∃ a b, (c ++ [t'])[e * n.epochLength - 1]? = some a ∧
      (c ++ [t'])[min ((e + 1) * n.epochLength) (c ++ [t']).length - 1]? = some b ∧ Takes a ((st1.deltas.get e).getD Delta.empty) b := by
    intro e he
    simp only [List.length_append, List.length_singleton] at he ⊢
    by_cases hee : e = epochOf n c.length
    · subst hee
      refine ⟨a0, t', get_append ha0, ?_, f5⟩
      have : min ((epochOf n c.length + 1) * n.epochLength) (c.length + 1) - 1 = c.length := by
        unfold epochOf; omega
      rw [this]; simp
    · have hlt := lt_epoch_of_ne hL (by omega : e * n.epochLength ≤ c.length) hee
      have h3 := succ_le_of_lt hlt b1
      have h4 : (e + 1) * n.epochLength = e * n.epochLength + n.epochLength := by ring
      obtain ⟨a, b, ha, hb, hT⟩ := hI.delta e (by omega)
      refine ⟨a, b, get_append ha, ?_, by rw [f4 e hee]; exact hT⟩
      rw [Nat.min_eq_left (by omega)]
      rw [Nat.min_eq_left h3] at hb
      exact get_append hb
  by_cases hdue : due n c.length = true
  · -- an epoch is sealed
    have hdue' := hdue
    simp only [due, Bool.and_eq_true, decide_eq_true_eq] at hdue'
    obtain ⟨hl, hge⟩ := hdue'
    have hlast := (last_iff hL).1 hl
    have hk : (c.length + 1) / n.epochLength = c.length / n.epochLength + 1 := by rw [div_succ hL, if_pos hlast]
    generalize hE : c.length / n.epochLength = E at *
    have hEo : epochOf n c.length = E := hE
    rw [hEo] at hge
    -- the sealed epoch
    have hkn : E + 1 - n.sealDistance = (E - n.sealDistance) + 1 := by omega
    obtain ⟨a, b, ha, hb, hT⟩ := delta' (E - n.sealDistance) (by
      have : (E - n.sealDistance) * n.epochLength ≤ E * n.epochLength := Nat.mul_le_mul_right _ (by omega)
      simp only [List.length_append, List.length_singleton]; omega)
    have hfull : (E - n.sealDistance + 1) * n.epochLength ≤ (c ++ [t']).length := by
      have : (E - n.sealDistance + 1) * n.epochLength ≤ (E + 1) * n.epochLength := Nat.mul_le_mul_right _ (by omega)
      simp only [List.length_append, List.length_singleton]; omega
    rw [Nat.min_eq_left hfull] at hb
    have hsealed : a = st.sealed := by
      have := get_append (t := t') hI.sealed
      rw [hE, ha] at this
      exact Option.some.inj this
    subst hsealed
    have sa := sound' _ (List.mem_of_getElem? ha)
    have sb := sound' _ (List.mem_of_getElem? hb)
    obtain ⟨v, hv⟩ := takes_flush sa sb hT
    have hsub : subIn (epochOf n c.length) n.sealDistance = some (E - n.sealDistance) := by simp [subIn, hEo, hge]
    -- the new store
    have hadv : ∃ st2, advance n st1 c.length = .ok st2 ∧ st2.tip = st1.tip ∧ st2.deltas = st1.deltas ∧ st2.sealed = b ∧
        (∀ e, e ≠ E - n.sealDistance → st2.undos.get e = st.undos.get e) ∧
        (st2.undos.get (E - n.sealDistance) = none ∧ st.sealed = b ∨ ∃ u d, st2.undos.get (E - n.sealDistance) = some u ∧ st.sealed.mergeWithDelta d = .ok (b, u)) := by
      cases hg : st1.deltas.get (E - n.sealDistance) with
      | none =>
        rw [hg] at hv
        obtain ⟨w, hw⟩ := takes_flush sa sa (takes_refl sa)
        simp only [Option.getD_none] at hv
        rw [hw] at hv
        simp only [Except.ok.injEq, Prod.mk.injEq] at hv
        refine ⟨st1, ?_, rfl, rfl, by rw [f2]; exact hv.1, fun e _ => by rw [f3], .inl ⟨?_, hv.1⟩⟩
        · simp only [advance, bind_eq_ok, okOr_eq_ok]
          exact ⟨_, hsub, by rw [hg]⟩
        · rw [f3]
          exact hI.noUndo _ (by rw [hE])
      | some D =>
        rw [hg] at hv
        simp only [Option.getD_some] at hv
        refine ⟨{ st1 with sealed := b, undos := st1.undos.insert (E - n.sealDistance) v }, ?_, rfl, rfl, rfl, fun e he => ?_, .inr ⟨v, D, ?_, hv⟩⟩
        · simp only [advance, bind_eq_ok, okOr_eq_ok]
          refine ⟨_, hsub, ?_⟩
          rw [hg]
          simp only [bind_eq_ok]
          exact ⟨(b, v), by rw [f2]; exact hv, rfl⟩
        · simp only [BMap.get_insert_ne _ _ he, f3]
        · simp only [BMap.get_insert_self]
    obtain ⟨st2, g1, g2, g3, g4, g5, g6⟩ := hadv
    refine ⟨st2, ?_, by rw [g2, f1], ⟨by simp, by rw [g2]; exact tip', sound', by rw [g3]; exact noDelta', by rw [g3]; exact delta', ?_, ?_, ?_⟩⟩
    · simp only [connect, bind_eq_ok]
      exact ⟨st1, hf, by rw [hdue]; exact g1⟩
    · intro e he
      simp only [List.length_append, List.length_singleton, hk, hkn] at he
      rw [g5 e (by omega)]
      exact hI.noUndo e (by rw [hE]; omega)
    · intro e he
      simp only [List.length_append, List.length_singleton, hk, hkn] at he
      by_cases hee : e = E - n.sealDistance
      · subst hee
        exact ⟨st.sealed, b, ha, hb, g6⟩
      · obtain ⟨x, y, hx, hy, hxy⟩ := hI.undo e (by rw [hE]; omega)
        rw [g5 e hee]
        exact ⟨x, y, get_append hx, get_append hy, hxy⟩
    · simp only [List.length_append, List.length_singleton, hk, hkn]
      rw [g4]; exact hb
  · -- nothing is sealed
    have hk : (c.length + 1) / n.epochLength - n.sealDistance = c.length / n.epochLength - n.sealDistance := by
      rw [div_succ hL]
      split
      · rename_i hl
        have : ¬ n.sealDistance ≤ c.length / n.epochLength := by
          intro hge
          exact hdue (by simp only [due, Bool.and_eq_true, decide_eq_true_eq]; exact ⟨(last_iff hL).2 hl, hge⟩)
        omega
      · rfl
    refine ⟨st1, ?_, f1, ⟨by simp, tip', sound', noDelta', delta', ?_, ?_, ?_⟩⟩
    · simp only [connect, bind_eq_ok]
      exact ⟨st1, hf, by rw [if_neg hdue]; rfl⟩
    · intro e he
      simp only [List.length_append, List.length_singleton, hk] at he
      rw [f3]; exact hI.noUndo e he
    · intro e he
      simp only [List.length_append, List.length_singleton, hk] at he
      obtain ⟨x, y, hx, hy, hxy⟩ := hI.undo e he
      rw [f3]
      exact ⟨x, y, get_append hx, get_append hy, hxy⟩
    · simp only [List.length_append, List.length_singleton, hk]
      rw [f2]; exact get_append hI.sealed

theorem inv_disconnect {n : Net} {c : List DB} {t t' : DB} {st : Store} {d : Option Delta} {u : Delta} (hL : 0 < n.epochLength) (hI : Inv n (c ++ [t]) st)
    (hd : CleanOpt d) (hc : c.getLast? = some t') (hm : st.tip.mergeWithDelta (d.getD Delta.empty) = .ok (t', u)) :
    ∃ st', disconnect n st c.length d = .ok st' ∧ st'.tip = t' ∧ Inv n c st' := by
  have hpos : 0 < c.length := by
    cases c with
    | nil => simp at hc
    | cons x c => simp
  obtain ⟨b1, b2⟩ := epoch_bounds (h := c.length) hL
  have htip : t = st.tip := by
    have := hI.tip
    simpa using this
  have hlen : (c ++ [t]).length = c.length + 1 := by simp
  obtain ⟨a0, x, ha0, hx, hT0⟩ := hI.delta (epochOf n c.length) (by rw [hlen]; unfold epochOf; omega)
  have hmin : min ((epochOf n c.length + 1) * n.epochLength) (c ++ [t]).length - 1 = c.length := by
    rw [hlen]; unfold epochOf; omega
  rw [hmin] at hx
  have hx' : x = st.tip := by
    rw [← htip]
    simpa [eq_comm] using hx
  subst hx'
  obtain ⟨st1, hf, f1, f2, f3, f4, f5⟩ := flush_ok (h := c.length) hI.tipSound hd hm hT0
  have hlt' : ∀ {i x}, i < c.length → (c ++ [t])[i]? = some x → c[i]? = some x := fun hi hx => by rwa [get_front hi] at hx
  have sound' : ∀ x ∈ c, Sound x := fun x hx => hI.sound x (List.mem_append_left _ hx)
  have tip' : c[c.length - 1]? = some t' := by rwa [List.getLast?_eq_getElem?] at hc
  -- the store after the seal was rolled back
  have hroll : ∃ st2, unsealAt n st1 c.length = .ok st2 ∧ st2.tip = t' ∧ st2.deltas = st1.deltas ∧
      (∀ e, c.length / n.epochLength - n.sealDistance ≤ e → st2.undos.get e = none) ∧
      (∀ e, e < c.length / n.epochLength - n.sealDistance → ∃ a b, c[e * n.epochLength - 1]? = some a ∧ c[(e + 1) * n.epochLength - 1]? = some b ∧
        (st2.undos.get e = none ∧ a = b ∨ ∃ u d, st2.undos.get e = some u ∧ a.mergeWithDelta d = .ok (b, u))) ∧
      c[(c.length / n.epochLength - n.sealDistance) * n.epochLength - 1]? = some st2.sealed := by
    have hlow : ∀ e, e < c.length / n.epochLength → (e + 1) * n.epochLength - 1 < c.length ∧ e * n.epochLength - 1 < c.length := by
      intro e he
      have h3 := succ_le_of_lt he b1
      have h4 : (e + 1) * n.epochLength = e * n.epochLength + n.epochLength := by ring
      omega
    have hidx : ∀ k, k ≤ c.length / n.epochLength → k * n.epochLength - 1 < c.length := by
      intro k hk
      have : k * n.epochLength ≤ c.length / n.epochLength * n.epochLength := Nat.mul_le_mul_right _ hk
      omega
    by_cases hdue : due n c.length = true
    · have hdue' := hdue
      simp only [due, Bool.and_eq_true, decide_eq_true_eq] at hdue'
      obtain ⟨hl, hge⟩ := hdue'
      have hlast := (last_iff hL).1 hl
      have hk : (c ++ [t]).length / n.epochLength = c.length / n.epochLength + 1 := by rw [hlen, div_succ hL, if_pos hlast]
      have hundo := hI.undo
      have hnoUndo := hI.noUndo
      have hsealed := hI.sealed
      rw [hk] at hundo hnoUndo hsealed
      generalize hE : c.length / n.epochLength = E at *
      have hEo : epochOf n c.length = E := hE
      rw [hEo] at hge
      have hkn : E + 1 - n.sealDistance = (E - n.sealDistance) + 1 := by omega
      rw [hkn] at hundo hnoUndo hsealed
      obtain ⟨a, b, ha, hb, hab⟩ := hundo (E - n.sealDistance) (by omega)
      have hbs : b = st.sealed := by rw [hb] at hsealed; exact Option.some.inj hsealed
      subst hbs
      have hsub : subIn (epochOf n c.length) n.sealDistance = some (E - n.sealDistance) := by simp [subIn, hEo, hge]
      have ha' := hlt' (hidx (E - n.sealDistance) (by omega)) ha
      have others : ∀ e, e < E - n.sealDistance → ∃ a b, c[e * n.epochLength - 1]? = some a ∧ c[(e + 1) * n.epochLength - 1]? = some b ∧
          (st.undos.get e = none ∧ a = b ∨ ∃ u d, st.undos.get e = some u ∧ a.mergeWithDelta d = .ok (b, u)) := by
        intro e he
        obtain ⟨x, y, hx, hy, hxy⟩ := hundo e (by omega)
        have := hlow e (by omega)
        exact ⟨x, y, hlt' this.2 hx, hlt' this.1 hy, hxy⟩
      unfold unsealAt
      rw [if_pos hdue]
      rcases hab with ⟨hn, rfl⟩ | ⟨v, D, hv, hD⟩
      · refine ⟨st1, ?_, f1, rfl, ?_, ?_, by rw [f2]; exact ha'⟩
        · simp only [rollback, bind_eq_ok, okOr_eq_ok]
          refine ⟨_, hsub, ?_⟩
          rw [f3, hn]
        · intro e he
          rw [f3]
          by_cases hee : e = E - n.sealDistance
          · rw [hee]; exact hn
          · exact hnoUndo e (by omega)
        · rw [f3]; exact others
      · have hr := rollback_exact (hI.sound _ (List.mem_of_getElem? ha)) hD
        refine ⟨{ st1 with sealed := a, undos := st1.undos.erase (E - n.sealDistance) }, ?_, f1, rfl, ?_, ?_, ha'⟩
        · simp only [rollback, bind_eq_ok, okOr_eq_ok]
          refine ⟨_, hsub, ?_⟩
          rw [f3, hv]
          simp only [bind_eq_ok]
          exact ⟨a, by rw [f2]; exact hr, rfl⟩
        · intro e he
          by_cases hee : e = E - n.sealDistance
          · rw [hee]; simp [BMap.get_erase]
          · simp only [BMap.get_erase, hee, if_false, f3]
            exact hnoUndo e (by omega)
        · intro e he
          have hee : e ≠ E - n.sealDistance := by omega
          simp only [BMap.get_erase, hee, if_false, f3]
          exact others e he
    · have hk : (c ++ [t]).length / n.epochLength - n.sealDistance = c.length / n.epochLength - n.sealDistance := by
        rw [hlen, div_succ hL]
        split
        · rename_i hl
          have : ¬ n.sealDistance ≤ c.length / n.epochLength := by
            intro hge
            exact hdue (by simp only [due, Bool.and_eq_true, decide_eq_true_eq]; exact ⟨(last_iff hL).2 hl, hge⟩)
          omega
        · rfl
      unfold unsealAt
      rw [if_neg hdue]
      refine ⟨st1, rfl, f1, rfl, fun e he => by rw [f3]; exact hI.noUndo e (by rw [hk]; exact he), fun e he => ?_, ?_⟩
      · obtain ⟨x, y, hx, hy, hxy⟩ := hI.undo e (by rw [hk]; exact he)
        have := hlow e (Nat.lt_of_lt_of_le he (Nat.sub_le _ _))
        rw [f3]
        exact ⟨x, y, hlt' this.2 hx, hlt' this.1 hy, hxy⟩
      · rw [f2]
        have := hI.sealed
        rw [hk] at this
        exact hlt' (hidx _ (Nat.sub_le _ _)) this
  obtain ⟨st2, g1, g2, g3, g4, g5, g6⟩ := hroll
  have hfirst : lastInEpoch n (c.length - 1) = true ↔ c.length = c.length / n.epochLength * n.epochLength := by
    simp only [lastInEpoch, beq_iff_eq, Nat.sub_add_cancel hpos]
    constructor
    · intro h
      exact (Nat.div_mul_cancel (Nat.dvd_of_mod_eq_zero h)).symm
    · intro h
      rw [h]; exact Nat.mul_mod_left _ _
  have hdelta : ∀ e, e * n.epochLength < c.length → e ≠ epochOf n c.length → ∃ a b, c[e * n.epochLength - 1]? = some a ∧
      c[min ((e + 1) * n.epochLength) c.length - 1]? = some b ∧ Takes a ((st1.deltas.get e).getD Delta.empty) b := by
    intro e he hee
    have hlt := lt_epoch_of_ne hL (by omega : e * n.epochLength ≤ c.length) hee
    have h3 := succ_le_of_lt hlt b1
    have h4 : (e + 1) * n.epochLength = e * n.epochLength + n.epochLength := by ring
    obtain ⟨a, b, ha, hb, hT⟩ := hI.delta e (by rw [hlen]; omega)
    rw [Nat.min_eq_left (by rw [hlen]; omega)] at hb
    rw [Nat.min_eq_left h3]
    exact ⟨a, b, hlt' (by omega) ha, hlt' (by omega) hb, by rw [f4 e hee]; exact hT⟩
  refine ⟨forget n st2 c.length, ?_, ?_, ?_⟩
  · simp only [disconnect, bind_eq_ok]
    exact ⟨st1, hf, st2, g1, rfl⟩
  · unfold forget; split <;> exact g2
  · by_cases hl : lastInEpoch n (c.length - 1) = true
    · have he0 := hfirst.1 hl
      have e1 : forget n st2 c.length = { st2 with deltas := st2.deltas.erase (epochOf n c.length) } := by unfold forget; rw [if_pos hl]
      rw [e1]
      refine ⟨hpos, by rw [tip']; simp [g2], sound', fun e he => ?_, fun e he => ?_, g4, g5, g6⟩
      · by_cases hee : e = epochOf n c.length
        · rw [hee]; simp [BMap.get_erase]
        · simp only [BMap.get_erase, hee, if_false, g3]
          rw [f4 e hee]
          refine hI.noDelta e ?_
          rw [hlen]
          by_contra hcon
          have : e * n.epochLength = c.length := by omega
          exact hee (Nat.eq_of_mul_eq_mul_right hL (by unfold epochOf; rw [this]; exact he0))
      · have hee : e ≠ epochOf n c.length := by rintro rfl; unfold epochOf at he; omega
        simp only [BMap.get_erase, hee, if_false, g3]
        exact hdelta e he hee
    · have he0 := fun h => hl (hfirst.2 h)
      have e1 : forget n st2 c.length = st2 := by unfold forget; rw [if_neg hl]
      rw [e1]
      refine ⟨hpos, by rw [tip', g2], sound', fun e he => ?_, fun e he => ?_, g4, g5, g6⟩
      · have hne : e * n.epochLength ≠ c.length := by
          intro h
          exact he0 (by rw [← h, Nat.mul_div_cancel _ hL])
        rw [g3, f4 e (by rintro rfl; unfold epochOf at he hne; omega)]
        exact hI.noDelta e (by rw [hlen]; omega)
      · rw [g3]
        by_cases hee : e = epochOf n c.length
        · subst hee
          have : min ((epochOf n c.length + 1) * n.epochLength) c.length - 1 = c.length - 1 := by unfold epochOf; omega
          rw [this]
          exact ⟨a0, t', hlt' (by omega) ha0, tip', f5⟩
        · exact hdelta e he hee

theorem reach_inv {n : Net} {g : DB} {c : List DB} {st : Store} (hL : 0 < n.epochLength) (hg : Sound g) (h : Reach n g c st) : Inv n c st := by
  induction h with
  | genesis => exact inv_genesis hL hg
  | @connect chain st st' d _ hd hc ih =>
    have hc' := hc
    simp only [connect, flush, bind_eq_ok, Prod.exists] at hc'
    obtain ⟨st1, ⟨t', u, hm, -⟩, -⟩ := hc'
    obtain ⟨st2, e1, e2, e3⟩ := inv_connect hL ih hd hm
    rw [hc] at e1
    cases e1
    rw [e2]; exact e3
  | @disconnect chain t st st' d _ hd hc hl ih =>
    have hc' := hc
    simp only [disconnect, flush, bind_eq_ok, Prod.exists] at hc'
    obtain ⟨st1, ⟨t', u, hm, hfl⟩, st2, hr, hfo⟩ := hc'
    have htip : st'.tip = t' := by
      have h1 : st1.tip = t' := by
        cases d with
        | none => cases hfl; rfl
        | some x =>
          simp only [applyEpoch, bind_eq_ok, pure_eq_ok] at hfl
          obtain ⟨_, _, rfl⟩ := hfl
          rfl
      have h2 : st2.tip = st1.tip := by
        unfold unsealAt at hr
        split at hr
        · simp only [rollback, bind_eq_ok] at hr
          obtain ⟨e, -, hr⟩ := hr
          split at hr
          · cases hr; rfl
          · simp only [bind_eq_ok, pure_eq_ok] at hr
            obtain ⟨_, _, rfl⟩ := hr
            rfl
        · cases hr; rfl
      cases hfo
      rw [← h1, ← h2]
      unfold forget
      split <;> rfl
    obtain ⟨st2, e1, e2, e3⟩ := inv_disconnect hL ih hd (htip ▸ hl) hm
    rw [hc] at e1
    cases e1
    exact e3

/-- an undo leaves no balance change of zero -/
theorem undo_inv {c c' : Cache} {u : Undo} (hi : Pos.Inv c) (h : undo c u = .ok c') : Pos.Inv c' := by
  obtain ⟨h1, h2, h3⟩ := hi
  cases u <;> simp only [undo, bind_eq_ok, pure_eq_ok, lift_ok, ensure_eq_ok, okOr_eq_ok] at h
  case createPool =>
    obtain ⟨_, _, _, _, pb, hpb, _, _, _, _, pd, _, rfl⟩ := h
    exact ⟨h1.sub hpb, h2, h3⟩
  case decommissionPool =>
    obtain ⟨_, _, _, _, _, _, _, _, pb, hpb, pd, _, rfl⟩ := h
    exact ⟨h1.add hpb, h2, h3⟩
  case createDelegationId =>
    obtain ⟨_, _, _, _, dd, _, rfl⟩ := h
    exact ⟨h1, h2, h3⟩
  case deleteDelegationId =>
    obtain ⟨_, _, _, _, dd, _, rfl⟩ := h
    exact ⟨h1, h2, h3⟩
  case delegateStaking =>
    obtain ⟨_, _, _, _, sh, hsh, pb, hpb, db, hdb, rfl⟩ := h
    exact ⟨h1.sub hpb, h2.sub hsh, h3.sub hdb⟩
  case spendFromShare =>
    obtain ⟨_, _, _, _, db, hdb, ex, _, h⟩ := h
    split at h
    · simp only [bind_eq_ok, pure_eq_ok, lift_ok] at h
      obtain ⟨pb, hpb, sh, hsh, rfl⟩ := h
      exact ⟨h1.add hpb, h2.add hsh, h3.add hdb⟩
    · simp only [bind_eq_ok, pure_eq_ok, lift_ok] at h
      obtain ⟨pb, rfl, sh, hsh, rfl⟩ := h
      exact ⟨h1, h2.add hsh, h3.add hdb⟩
  case increaseStakerRewards =>
    obtain ⟨pd, _, pb, hpb, rfl⟩ := h
    exact ⟨h1.sub hpb, h2, h3⟩

end Verif.Epoch
