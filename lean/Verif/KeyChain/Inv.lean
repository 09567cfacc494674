import Verif.KeyChain.Spec

/-!
# The keys of a chain are those up to `look` after the last used one
-/

namespace Verif.KeyChain
open Verif

/-- the number of keys of a chain -/
def width (look : Nat) : Option Nat → Nat
  | none => min maxKeys look
  | some v => min maxKeys (v + look + 1)

/-- the maps of a chain hold its first `n` keys -/
structure Filled (env : Env) (p : Purpose) (n : Nat) (l : Leaf) : Prop where
  purpose : l.purpose = p
  le : n ≤ maxKeys
  keys : ∀ i, l.keys.get i = if i < n then some (env.key p i) else none
  addrs : ∀ i, l.addrs.get i = if i < n then some (env.hash (env.key p i)) else none
  byKey : ∀ k i, l.byKey.get k = some i ↔ i < n ∧ env.key p i = k
  byHash : ∀ h i, l.byHash.get h = some i ↔ i < n ∧ env.hash (env.key p i) = h
  dbKeys : l.db.keys = l.keys
  dbAddrs : l.db.addrs = l.addrs

/-- a chain between two operations -/
structure Good (env : Env) (p : Purpose) (look : Nat) (l : Leaf) : Prop where
  filled : Filled env p (width look l.usage.used) l
  used : ∀ v, l.usage.used = some v → v < maxKeys ∧ ∃ w, l.usage.issued = some w ∧ v ≤ w
  issued : ∀ w, l.usage.issued = some w → w < width look l.usage.used
  dbUsage : l.db.usage = some l.usage

theorem inj_key {env : Env} (hi : env.Inj) {p i j} (h1 : i < maxKeys) (h2 : j < maxKeys) (h : env.key p i = env.key p j) : i = j :=
  (hi p p i j h1 h2 (by rw [h])).2

theorem filled_new (env : Env) (p : Purpose) : Filled env p 0 (Leaf.new p) := by
  refine ⟨rfl, Nat.zero_le _, ?_, ?_, ?_, ?_, rfl, rfl⟩
  · intro i; simp only [Nat.not_lt_zero, if_false]; rfl
  · intro i; simp only [Nat.not_lt_zero, if_false]; rfl
  · intro k i
    constructor
    · intro h; cases h
    · intro h; exact absurd h.1 (Nat.not_lt_zero _)
  · intro k i
    constructor
    · intro h; cases h
    · intro h; exact absurd h.1 (Nat.not_lt_zero _)

theorem filled_addKey {env : Env} (hi : env.Inj) {p n l} (h : Filled env p n l) (hn : n < maxKeys) : Filled env p (n + 1) (l.addKey env n) := by
  have hp := h.purpose
  refine ⟨hp, hn, ?_, ?_, ?_, ?_, ?_, ?_⟩
  · intro i
    simp only [Leaf.addKey, hp]
    rw [BMap.get_insert]
    by_cases e : i = n
    · rw [if_pos e, if_pos (by omega), e]
    · rw [if_neg e, h.keys]
      by_cases e' : i < n
      · rw [if_pos e', if_pos (by omega)]
      · rw [if_neg e', if_neg (by omega)]
  · intro i
    simp only [Leaf.addKey, hp]
    rw [BMap.get_insert]
    by_cases e : i = n
    · rw [if_pos e, if_pos (by omega), e]
    · rw [if_neg e, h.addrs]
      by_cases e' : i < n
      · rw [if_pos e', if_pos (by omega)]
      · rw [if_neg e', if_neg (by omega)]
  · intro k i
    simp only [Leaf.addKey, hp]
    rw [BMap.get_insert]
    by_cases e : k = env.key p n
    · rw [if_pos e]
      constructor
      · intro hh
        cases hh
        exact ⟨by omega, e.symm⟩
      · rintro ⟨h1, h2⟩
        rw [e] at h2
        have := inj_key hi (by omega) hn h2
        rw [this]
    · rw [if_neg e, h.byKey]
      constructor
      · rintro ⟨h1, h2⟩; exact ⟨by omega, h2⟩
      · rintro ⟨h1, h2⟩
        refine ⟨?_, h2⟩
        rcases Nat.lt_succ_iff_lt_or_eq.1 h1 with h1 | h1
        · exact h1
        · rw [h1] at h2; exact absurd h2.symm e
  · intro k i
    simp only [Leaf.addKey, hp]
    rw [BMap.get_insert]
    by_cases e : k = env.hash (env.key p n)
    · rw [if_pos e]
      constructor
      · intro hh
        cases hh
        exact ⟨by omega, e.symm⟩
      · rintro ⟨h1, h2⟩
        rw [e] at h2
        have := (hi p p i n (by omega) hn h2).2
        rw [this]
    · rw [if_neg e, h.byHash]
      constructor
      · rintro ⟨h1, h2⟩; exact ⟨by omega, h2⟩
      · rintro ⟨h1, h2⟩
        refine ⟨?_, h2⟩
        rcases Nat.lt_succ_iff_lt_or_eq.1 h1 with h1 | h1
        · exact h1
        · rw [h1] at h2; exact absurd h2.symm e
  · simp only [Leaf.addKey]; rw [h.dbKeys]
  · simp only [Leaf.addKey]; rw [h.dbAddrs]

/-- a key that is there is not derived again -/
theorem derive_old {env : Env} {p n l} (h : Filled env p n l) {i} (hin : i < n) : l.derive env i = l := by
  unfold Leaf.derive
  rw [h.keys, if_pos hin]

theorem derive_new {env : Env} {p n l} (h : Filled env p n l) : l.derive env n = l.addKey env n := by
  unfold Leaf.derive
  rw [h.keys, if_neg (Nat.lt_irrefl n)]

theorem addKey_usage (env : Env) (l : Leaf) (i : Nat) : (l.addKey env i).usage = l.usage := rfl

theorem addKey_dbUsage (env : Env) (l : Leaf) (i : Nat) : (l.addKey env i).db.usage = l.db.usage := rfl

theorem topStep_past {env : Env} (l : Leaf) {i} (h : maxKeys ≤ i) : l.topStep env i = l := by
  unfold Leaf.topStep
  rw [if_neg (Nat.not_lt.2 h)]

theorem fold_past {env : Env} (l : Leaf) : ∀ (k s : Nat), maxKeys ≤ s → (List.range' s k).foldl (Leaf.topStep env) l = l
  | 0, _, _ => rfl
  | k + 1, s, h => by
    rw [List.range'_succ, List.foldl_cons, topStep_past l h]
    exact fold_past l k (s + 1) (by omega)

theorem fold_filled {env : Env} (hi : env.Inj) {p} : ∀ (k n : Nat) (l : Leaf), Filled env p n l →
    Filled env p (min maxKeys (n + k)) ((List.range' n k).foldl (Leaf.topStep env) l) ∧
    ((List.range' n k).foldl (Leaf.topStep env) l).usage = l.usage ∧
    ((List.range' n k).foldl (Leaf.topStep env) l).db.usage = l.db.usage
  | 0, n, l, h => by
    have : min maxKeys (n + 0) = n := by have := h.le; omega
    rw [this]
    exact ⟨h, rfl, rfl⟩
  | k + 1, n, l, h => by
    by_cases hn : n < maxKeys
    · rw [List.range'_succ, List.foldl_cons]
      have hs : l.topStep env n = l.addKey env n := by
        unfold Leaf.topStep
        rw [if_pos hn, derive_new h]
      rw [hs]
      have := fold_filled hi k (n + 1) _ (filled_addKey hi h hn)
      rw [show n + (k + 1) = n + 1 + k by omega]
      exact this
    · rw [fold_past l (k + 1) n (by omega)]
      have e : min maxKeys (n + (k + 1)) = n := by have := h.le; omega
      rw [e]
      exact ⟨h, rfl, rfl⟩

/-- the last key -/
theorem lastDerived_filled {env : Env} {p n l} (h : Filled env p n l) : l.lastDerived = if n = 0 then none else some (n - 1) := by
  unfold Leaf.lastDerived
  by_cases e : n = 0
  · rw [if_pos e]
    have : l.keys = BMap.empty := by
      apply BMap.ext_get
      intro i
      rw [h.keys, if_neg (by omega)]
      rfl
    rw [this]
    rfl
  · rw [if_neg e]
    have hm : (n - 1, env.key p (n - 1)) ∈ l.keys.entries := by
      rw [BMap.mem_entries, h.keys, if_pos (by omega)]
    have hne : l.keys.entries ≠ [] := List.ne_nil_of_mem hm
    rw [List.getLast?_eq_some_getLast hne, Option.map_some]
    congr 1
    have hl := List.getLast_mem hne
    have h1 : (l.keys.entries.getLast hne).1 < n := by
      have h2 : l.keys.get (l.keys.entries.getLast hne).1 = some (l.keys.entries.getLast hne).2 := BMap.mem_entries.1 hl
      rw [h.keys] at h2
      by_contra hc
      rw [if_neg hc] at h2
      cases h2
    have h3 : n - 1 ≤ (l.keys.entries.getLast hne).1 := by
      have hs := l.keys.sorted
      obtain ⟨k, hk, e1⟩ := List.getElem_of_mem hm
      have e2 : l.keys.entries.getLast hne = l.keys.entries[l.keys.entries.length - 1]'(by omega) := List.getLast_eq_getElem hne
      rw [e2]
      rcases Nat.lt_or_ge k (l.keys.entries.length - 1) with hlt | hge
      · have := List.pairwise_iff_getElem.1 hs k (l.keys.entries.length - 1) hk (by omega) hlt
        rw [e1] at this
        exact Nat.le_of_lt this
      · have : k = l.keys.entries.length - 1 := by omega
        subst this
        rw [e1]
    omega

theorem topStart_filled {env : Env} {p n l} (h : Filled env p n l) : l.topStart = n := by
  unfold Leaf.topStart
  rw [lastDerived_filled h]
  by_cases e : n = 0
  · rw [if_pos e]; exact e.symm
  · rw [if_neg e]
    show n - 1 + 1 = n
    omega

theorem topEnd_ok {look : Nat} (hl : look < maxKeys) {u : Usage} (hu : ∀ v, u.used = some v → v < maxKeys) :
    ∃ e, topEnd u look = .ok e ∧ min maxKeys e = width look u.used := by
  unfold topEnd
  cases hv : u.used with
  | none => exact ⟨look, rfl, rfl⟩
  | some v =>
    have := hu v hv
    refine ⟨v + look + 1, ?_, rfl⟩
    show (if v + look + 1 ≥ u32Size then _ else _) = _
    rw [if_neg]
    unfold u32Size
    unfold maxKeys at *
    omega

/-- after `topUp` the keys reach up to `look` after the last used one -/
theorem topUp_good {env : Env} (hi : env.Inj) {p n look} (hl : look < maxKeys) {l : Leaf} (h : Filled env p n l)
    (hn : n ≤ width look l.usage.used) (hu : ∀ v, l.usage.used = some v → v < maxKeys ∧ ∃ w, l.usage.issued = some w ∧ v ≤ w)
    (hw : ∀ w, l.usage.issued = some w → w < width look l.usage.used) (hd : l.db.usage = some l.usage) :
    ∃ l', l.topUp env look = .ok l' ∧ Good env p look l' ∧ l'.usage = l.usage := by
  obtain ⟨e, he, hwe⟩ := topEnd_ok hl (fun v hv => (hu v hv).1)
  obtain ⟨h1, h2, h3⟩ := fold_filled hi (e - n) n l h
  refine ⟨_, ?_, ⟨?_, ?_, ?_, ?_⟩, h2⟩
  · show (Leaf.topUp env l look) = _
    unfold Leaf.topUp
    rw [he]
    show Except.ok _ = _
    rw [topStart_filled h]
  · rw [h2]
    have : width look l.usage.used = min maxKeys (n + (e - n)) := by rw [← hwe] at hn ⊢; have := h.le; omega
    rw [this]
    exact h1
  · rw [h2]; exact hu
  · rw [h2]; exact hw
  · rw [h3, h2]; exact hd

theorem width_mono {look : Nat} {u u' : Option Nat} (h : ∀ v, u = some v → ∃ v', u' = some v' ∧ v ≤ v') : width look u ≤ width look u' := by
  cases u with
  | none =>
    cases u' with
    | none => exact Nat.le_refl _
    | some v' => simp only [width]; omega
  | some v =>
    obtain ⟨v', e, hv⟩ := h v rfl
    subst e
    simp only [width]
    omega

theorem width_le (look : Nat) (u : Option Nat) : width look u ≤ maxKeys := by
  cases u <;> simp only [width] <;> omega

theorem new_good {env : Env} (hi : env.Inj) {look} (hl : look < maxKeys) (p : Purpose) :
    ∃ l, (Leaf.new p).topUp env look = .ok l ∧ Good env p look l ∧ l.usage = ⟨none, none⟩ := by
  have := topUp_good (n := 0) hi hl (filled_new env p) (Nat.zero_le _) (by intro v h; cases h) (by intro v h; cases h) rfl
  exact this

/-! ## Marking a key as used -/

theorem use_used (u : Usage) (i : Nat) :
    (u.use i).used = some (match u.used with | none => i | some v => max v i) := by
  unfold Usage.use below Usage.issue
  cases h : u.used with
  | none => simp only [if_true]; split <;> rfl
  | some v =>
    simp only [decide_eq_true_eq]
    by_cases e : v < i
    · rw [if_pos e]
      have : max v i = i := by omega
      rw [this]
      split <;> rfl
    · rw [if_neg e, h]
      have : max v i = v := by omega
      rw [this]

theorem use_issued (u : Usage) (i : Nat) (hu : ∀ v, u.used = some v → ∃ w, u.issued = some w ∧ v ≤ w) :
    (u.use i).issued = some (match u.issued with | none => i | some w => max w i) := by
  unfold Usage.use below Usage.issue below
  cases h : u.used with
  | none =>
    simp only [if_true]
    cases hw : u.issued with
    | none => simp only [if_true]
    | some w =>
      simp only [decide_eq_true_eq]
      by_cases e : w < i
      · rw [if_pos e]; have : max w i = i := by omega
        rw [this]
      · rw [if_neg e]; have : max w i = w := by omega
        rw [this]
  | some v =>
    obtain ⟨w, hw, hvw⟩ := hu v h
    simp only [decide_eq_true_eq]
    by_cases e : v < i
    · rw [if_pos e, hw]
      simp only [decide_eq_true_eq]
      by_cases e' : w < i
      · rw [if_pos e']; have : max w i = i := by omega
        rw [this]
      · rw [if_neg e']; have : max w i = w := by omega
        rw [this]
    · rw [if_neg e, hw]
      have : max w i = w := by omega
      show some w = some (max w i)
      rw [this]

theorem filled_usage {env : Env} {p n l} (h : Filled env p n l) (u : Usage) : Filled env p n (({ l with usage := u } : Leaf).save) :=
  ⟨h.purpose, h.le, h.keys, h.addrs, h.byKey, h.byHash, h.dbKeys, h.dbAddrs⟩

theorem markIndex_good {env : Env} (hi : env.Inj) {p look} (hl : look < maxKeys) {l : Leaf} (h : Good env p look l) {i : Nat}
    (hin : i < width look l.usage.used) :
    ∃ l', l.markIndex env i look = .ok l' ∧ Good env p look l' ∧ l'.usage = l.usage.use i := by
  have hlt : i < maxKeys := Nat.lt_of_lt_of_le hin (width_le _ _)
  have hused := use_used l.usage i
  have hissued := use_issued l.usage i (fun v hv => (h.used v hv).2)
  have hmono : width look l.usage.used ≤ width look (l.usage.use i).used := by
    apply width_mono
    intro v hv
    rw [hused, hv]
    exact ⟨_, rfl, Nat.le_max_left _ _⟩
  unfold Leaf.markIndex
  refine topUp_good hi hl (filled_usage h.filled _) hmono ?_ ?_ rfl
  · intro v hv
    have hv : (l.usage.use i).used = some v := hv
    show v < maxKeys ∧ ∃ w, (l.usage.use i).issued = some w ∧ v ≤ w
    rw [hused] at hv
    rw [hissued]
    cases hv
    cases hu : l.usage.used with
    | none =>
      refine ⟨hlt, _, rfl, ?_⟩
      cases l.usage.issued with
      | none => exact Nat.le_refl _
      | some w => exact Nat.le_max_right _ _
    | some v =>
      obtain ⟨h1, w, h2, h3⟩ := h.used v hu
      rw [h2]
      refine ⟨by show max v i < maxKeys; omega, _, rfl, ?_⟩
      show max v i ≤ max w i
      omega
  · intro w hw
    have hw : (l.usage.use i).issued = some w := hw
    show w < width look (l.usage.use i).used
    rw [hissued] at hw
    cases hw
    cases hw : l.usage.issued with
    | none => exact Nat.lt_of_lt_of_le hin hmono
    | some w =>
      have := h.issued w hw
      show max w i < _
      omega

/-! ## Giving out addresses -/

theorem issue_used (u : Usage) (i : Nat) : (u.issue i).used = u.used := by
  unfold Usage.issue
  split <;> rfl

theorem issue_issued (u : Usage) (i : Nat) : (u.issue i).issued = some (match u.issued with | none => i | some w => max w i) := by
  unfold Usage.issue below
  cases h : u.issued with
  | none => simp only [if_true]
  | some w =>
    simp only [decide_eq_true_eq]
    by_cases e : w < i
    · rw [if_pos e]; have : max w i = i := by omega
      rw [this]
    · rw [if_neg e]; have : max w i = w := by omega
      rw [this]; exact h

theorem answer_filled {env : Env} {p n l} (h : Filled env p n l) {i} (hin : i < n) :
    l.answer i = .ok ⟨i, env.key p i, env.hash (env.key p i)⟩ := by
  unfold Leaf.answer
  rw [h.keys, h.addrs, if_pos hin, if_pos hin]

theorem good_issue {env : Env} {p look l} (h : Good env p look l) {i} (hin : i < width look l.usage.used) :
    Good env p look (({ l with usage := l.usage.issue i } : Leaf).save) := by
  have h1 : (({ l with usage := l.usage.issue i } : Leaf).save).usage = l.usage.issue i := rfl
  refine ⟨?_, ?_, ?_, rfl⟩
  · rw [h1, issue_used]; exact filled_usage h.filled _
  · rw [h1, issue_used, issue_issued]
    intro v hv
    obtain ⟨h2, w, h3, h4⟩ := h.used v hv
    rw [h3]
    exact ⟨h2, _, rfl, Nat.le_trans h4 (Nat.le_max_left _ _)⟩
  · rw [h1, issue_used, issue_issued]
    intro w hw
    cases hw
    cases hw : l.usage.issued with
    | none => exact hin
    | some w =>
      have := h.issued w hw
      show max w i < _
      omega

theorem nextIndex_eq {o : Option Nat} {i : Nat} : nextIndex o = .ok i ↔ i < maxKeys ∧ i = (match o with | none => 0 | some v => v + 1) := by
  unfold nextIndex
  cases o with
  | none =>
    constructor
    · intro h; cases h; exact ⟨by unfold maxKeys; omega, rfl⟩
    · rintro ⟨_, h⟩; rw [h]
  | some v =>
    simp only
    by_cases e : v + 1 < maxKeys
    · rw [if_pos e]
      constructor
      · intro h; cases h; exact ⟨e, rfl⟩
      · rintro ⟨_, h⟩; rw [h]
    · rw [if_neg e]
      constructor
      · intro h; cases h
      · rintro ⟨h1, h2⟩; omega

/-- what `issueNew` gives -/
theorem issueNew_ok {env : Env} {p look} {l : Leaf} (h : Good env p look l) {r : Leaf × Issued} (hr : l.issueNew env look = .ok r) :
    Good env p look r.1 ∧ r.2 = ⟨r.2.index, env.key p r.2.index, env.hash (env.key p r.2.index)⟩ ∧ r.2.index < width look l.usage.used ∧
    r.2.index = (match l.usage.issued with | none => 0 | some w => w + 1) ∧
    r.1 = ({ l with usage := l.usage.issue r.2.index } : Leaf).save := by
  unfold Leaf.issueNew at hr
  simp only [bind_eq_ok] at hr
  obtain ⟨i, hi, u, hc, x, hx, hr⟩ := hr
  obtain ⟨h1, h2⟩ := nextIndex_eq.1 hi
  have hin : i < width look l.usage.used := by
    unfold checkLookahead at hc
    cases hu : l.usage.used with
    | none =>
      rw [hu] at hc
      simp only at hc
      split at hc
      · cases hc
      · simp only [width]; omega
    | some v =>
      rw [hu] at hc
      simp only at hc
      split at hc
      · cases hc
      · split at hc
        · cases hc
        · simp only [width]; omega
  rw [derive_old h.filled hin] at hx hr
  rw [answer_filled h.filled hin] at hx
  cases hx
  cases hr
  exact ⟨good_issue h hin, rfl, hin, h2, rfl⟩

/-- what `nextUnused` gives -/
theorem nextUnused_ok {env : Env} {p look} (hl : 1 ≤ look) {l : Leaf} (h : Good env p look l) {r : Leaf × Issued} (hr : l.nextUnused env = .ok r) :
    Good env p look r.1 ∧ r.2 = ⟨r.2.index, env.key p r.2.index, env.hash (env.key p r.2.index)⟩ ∧ r.2.index < width look l.usage.used ∧
    r.2.index = (match l.usage.used with | none => 0 | some w => w + 1) ∧
    (r.1 = ({ l with usage := l.usage.issue r.2.index } : Leaf).save ∨ r.1 = l) ∧ ∃ w, r.1.usage.issued = some w ∧ r.2.index ≤ w := by
  unfold Leaf.nextUnused at hr
  simp only [bind_eq_ok] at hr
  obtain ⟨i, hi, x, hx, hr⟩ := hr
  obtain ⟨h1, h2⟩ := nextIndex_eq.1 hi
  have hin : i < width look l.usage.used := by
    cases hu : l.usage.used with
    | none => rw [hu] at h2; simp only at h2; simp only [width]; omega
    | some v => rw [hu] at h2; simp only at h2; simp only [width]; omega
  rw [derive_old h.filled hin] at hx hr
  rw [answer_filled h.filled hin] at hx
  cases hx
  cases hr
  refine ⟨?_, rfl, hin, h2, ?_, ?_⟩
  · simp only
    split
    · exact good_issue h hin
    · exact h
  · simp only
    split
    · exact Or.inl rfl
    · exact Or.inr rfl
  · simp only
    split
    · rename_i e
      have : (({ l with usage := l.usage.issue i } : Leaf).save).usage = l.usage.issue i := rfl
      rw [this, issue_issued]
      refine ⟨_, rfl, ?_⟩
      cases l.usage.issued with
      | none => exact Nat.le_refl _
      | some w => exact Nat.le_max_right _ _
    · rename_i e
      cases hu : l.usage.used with
      | none =>
        rw [hu] at e h2
        cases hw : l.usage.issued with
        | none => rw [hw] at e; exact absurd rfl e
        | some w => simp only at h2; exact ⟨w, rfl, by omega⟩
      | some v =>
        obtain ⟨_, w, hw, hvw⟩ := h.used v hu
        rw [hu, hw] at e
        rw [hu] at h2
        simp only at h2
        refine ⟨w, hw, ?_⟩
        have : v ≠ w := fun hh => e (by rw [hh])
        omega

/-! ## The database -/

theorem load_good {env : Env} (hi : env.Inj) {p look} {l : Leaf} (h : Good env p look l) : Leaf.load env p l.db = .ok l := by
  unfold Leaf.load
  rw [h.dbUsage]
  show Except.ok _ = _
  congr 1
  have hof : ∀ (xs : List (Nat × Nat)) (m : BMap Nat Nat) (k i : Nat),
      (xs.foldl (fun m kv => m.insert kv.1 kv.2) m).get k = some i → (k, i) ∈ xs ∨ m.get k = some i := by
    intro xs
    induction xs with
    | nil => intro m k i hh; exact Or.inr hh
    | cons x xs ih =>
      intro m k i hh
      rcases ih _ k i hh with hh | hh
      · exact Or.inl (List.mem_cons_of_mem _ hh)
      · rw [BMap.get_insert] at hh
        split at hh
        · rename_i e
          cases hh
          exact Or.inl (by rw [e]; exact List.mem_cons_self)
        · exact Or.inr hh
  have hof2 : ∀ (xs : List (Nat × Nat)) (m : BMap Nat Nat) (k : Nat), ((∃ i, (k, i) ∈ xs) ∨ ∃ i, m.get k = some i) →
      ∃ i, (xs.foldl (fun m kv => m.insert kv.1 kv.2) m).get k = some i := by
    intro xs
    induction xs with
    | nil =>
      intro m k hh
      rcases hh with ⟨i, hh⟩ | hh
      · cases hh
      · exact hh
    | cons x xs ih =>
      intro m k hh
      apply ih
      rcases hh with ⟨i, hh⟩ | ⟨i, hh⟩
      · rcases List.mem_cons.1 hh with e | hh
        · right
          refine ⟨i, ?_⟩
          rw [← e, BMap.get_insert, if_pos rfl]
        · exact Or.inl ⟨i, hh⟩
      · right
        by_cases e : k = x.1
        · exact ⟨x.2, by rw [BMap.get_insert, if_pos e]⟩
        · exact ⟨i, by rw [BMap.get_insert, if_neg e]; exact hh⟩
  -- the map from keys
  have hk : BMap.ofList (l.db.keys.entries.map fun e => (e.2, e.1)) = l.byKey := by
    rw [h.filled.dbKeys]
    apply BMap.ext_get
    intro k
    have hfwd : ∀ i, (BMap.ofList (l.keys.entries.map fun e => (e.2, e.1))).get k = some i → l.byKey.get k = some i := by
      intro i hh
      rcases hof _ _ k i hh with hh | hh
      · obtain ⟨e, he, e1⟩ := List.mem_map.1 hh
        cases e1
        have := BMap.mem_entries.1 (show (e.1, e.2) ∈ l.keys.entries from he)
        rw [h.filled.keys] at this
        split at this
        · exact (h.filled.byKey _ _).2 ⟨by assumption, Option.some.inj this⟩
        · cases this
      · cases hh
    cases hg : l.byKey.get k with
    | none =>
      cases hh : (BMap.ofList (l.keys.entries.map fun e => (e.2, e.1))).get k with
      | none => rfl
      | some i => rw [hfwd i hh] at hg; cases hg
    | some i =>
      obtain ⟨h1, h2⟩ := (h.filled.byKey k i).1 hg
      obtain ⟨j, hj⟩ := hof2 (l.keys.entries.map fun e => (e.2, e.1)) BMap.empty k (Or.inl ⟨i, List.mem_map.2 ⟨(i, k), by
        rw [BMap.mem_entries, h.filled.keys, if_pos h1, h2], rfl⟩⟩)
      have := hfwd j hj
      rw [hg] at this
      cases this
      exact hj
  have hh : BMap.ofList (l.byKey.entries.map fun e => (env.hash e.1, e.2)) = l.byHash := by
    apply BMap.ext_get
    intro k
    have hfwd : ∀ i, (BMap.ofList (l.byKey.entries.map fun e => (env.hash e.1, e.2))).get k = some i → l.byHash.get k = some i := by
      intro i hh
      rcases hof _ _ k i hh with hh | hh
      · obtain ⟨e, he, e1⟩ := List.mem_map.1 hh
        cases e1
        have := BMap.mem_entries.1 (show (e.1, e.2) ∈ l.byKey.entries from he)
        obtain ⟨h1, h2⟩ := (h.filled.byKey _ _).1 this
        exact (h.filled.byHash _ _).2 ⟨h1, by rw [h2]⟩
      · cases hh
    cases hg : l.byHash.get k with
    | none =>
      cases hh : (BMap.ofList (l.byKey.entries.map fun e => (env.hash e.1, e.2))).get k with
      | none => rfl
      | some i => rw [hfwd i hh] at hg; cases hg
    | some i =>
      obtain ⟨h1, h2⟩ := (h.filled.byHash k i).1 hg
      obtain ⟨j, hj⟩ := hof2 (l.byKey.entries.map fun e => (env.hash e.1, e.2)) BMap.empty k (Or.inl ⟨i, List.mem_map.2 ⟨(env.key p i, i), by
        rw [BMap.mem_entries]; exact (h.filled.byKey _ _).2 ⟨h1, rfl⟩, by rw [← h2]⟩⟩)
      have := hfwd j hj
      rw [hg] at this
      cases this
      exact hj
  rw [hk, hh, h.filled.dbKeys, h.filled.dbAddrs, ← h.filled.purpose]

/-- two chains with the same last used key hold the same keys -/
theorem filled_unique {env : Env} {p n l l'} (h : Filled env p n l) (h' : Filled env p n l') :
    l.keys = l'.keys ∧ l.addrs = l'.addrs ∧ l.byKey = l'.byKey ∧ l.byHash = l'.byHash := by
  refine ⟨?_, ?_, ?_, ?_⟩
  · apply BMap.ext_get; intro i; rw [h.keys, h'.keys]
  · apply BMap.ext_get; intro i; rw [h.addrs, h'.addrs]
  · apply BMap.ext_get
    intro k
    apply Option.ext
    intro i
    rw [h.byKey, h'.byKey]
  · apply BMap.ext_get
    intro k
    apply Option.ext
    intro i
    rw [h.byHash, h'.byHash]

end Verif.KeyChain
