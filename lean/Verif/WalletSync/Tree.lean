import Verif.WalletSync.Spec

/-! # Branches and common prefixes (C71) -/

namespace Verif.WalletSync

theorem lastOr_path {E : Env} (ok : TreeOk E) (b : Nat) : lastOr E.genesis (E.path b) = b := by
  by_cases h : b = E.genesis
  · subst h; rw [ok.root]; rfl
  · rw [ok.step b h]; simp [lastOr]

theorem path_inj {E : Env} (ok : TreeOk E) {a b : Nat} (h : E.path a = E.path b) : a = b := by
  rw [← lastOr_path ok a, ← lastOr_path ok b, h]

theorem path_take {E : Env} (ok : TreeOk E) : ∀ (n : Nat) (b : Nat), (E.path b).length = n →
    ∀ h, h ≤ n → E.path (lastOr E.genesis ((E.path b).take h)) = (E.path b).take h := by
  intro n
  induction n with
  | zero =>
    intro b e h hh
    have : E.path b = [] := List.length_eq_zero_iff.1 e
    rw [this]; simp [lastOr, ok.root]
  | succ n ih =>
    intro b e h hh
    have hb : b ≠ E.genesis := by
      intro hc; subst hc; rw [ok.root] at e; simp at e
    rcases Nat.lt_or_ge n h with h1 | h1
    · have : h = (E.path b).length := by omega
      rw [this, List.take_length, lastOr_path ok]
    · have hs := ok.step b hb
      have hl : (E.path (E.prev b)).length = n := by
        rw [hs] at e; simpa using e
      have ht : (E.path b).take h = (E.path (E.prev b)).take h := by
        rw [hs, List.take_append_of_le_length (by omega)]
      rw [ht]; exact ih _ hl h h1

theorem path_prefix {E : Env} (ok : TreeOk E) {b : Nat} {l : List Nat} (h : l <+: E.path b) :
    E.path (lastOr E.genesis l) = l := by
  have e := List.prefix_iff_eq_take.1 h
  have := path_take ok _ b rfl l.length h.length_le
  rw [← e] at this; exact this

theorem prev_of_get {E : Env} (ok : TreeOk E) {b c h : Nat} (e : (E.path b)[h]? = some c) :
    E.path (E.prev c) = (E.path b).take h := by
  have hl : h < (E.path b).length := by
    by_contra hc
    rw [List.getElem?_eq_none (by omega)] at e; cases e
  have h1 := path_take ok _ b rfl (h + 1) hl
  have h2 : (E.path b).take (h + 1) = (E.path b).take h ++ [c] := by
    rw [List.take_add_one, e]; rfl
  rw [h2] at h1
  have h3 : lastOr E.genesis ((E.path b).take h ++ [c]) = c := by simp [lastOr]
  rw [h3] at h1
  have hc : c ≠ E.genesis := by
    intro hc; subst hc; rw [ok.root] at h1; simp at h1
  rw [ok.step c hc] at h1
  exact (List.append_inj' h1 rfl).1

theorem common_left (l m : List Nat) : common l m <+: l := by
  induction l generalizing m with
  | nil => cases m <;> simp [common]
  | cons a l ih =>
    cases m with
    | nil => simp [common]
    | cons b m =>
      simp only [common]
      split
      · exact (List.prefix_cons_inj a).2 (ih m)
      · simp

theorem common_right (l m : List Nat) : common l m <+: m := by
  induction l generalizing m with
  | nil => cases m <;> simp [common]
  | cons a l ih =>
    cases m with
    | nil => simp [common]
    | cons b m =>
      simp only [common]
      split
      · next h => subst h; exact (List.prefix_cons_inj a).2 (ih m)
      · simp

theorem common_max (l m : List Nat) : ∀ k, k ≤ l.length → k ≤ m.length → l.take k = m.take k →
    k ≤ (common l m).length := by
  induction l generalizing m with
  | nil => intro k h1 _ _; have : k = 0 := by simpa using h1
           omega
  | cons a l ih =>
    intro k h1 h2 e
    cases k with
    | zero => omega
    | succ k =>
      cases m with
      | nil => simp at h2
      | cons b m =>
        simp only [List.take_succ_cons, List.cons.injEq] at e
        have := ih m k (by simpa using h1) (by simpa using h2) e.2
        simp only [common, if_pos e.1, List.length_cons]
        omega

theorem fork_iff (l m : List Nat) (h : Nat) : Fork l m h ↔ h = (common l m).length := by
  have hl := common_left l m
  have hr := common_right l m
  have e : l.take (common l m).length = m.take (common l m).length := by
    rw [← List.prefix_iff_eq_take.1 hl, ← List.prefix_iff_eq_take.1 hr]
  constructor
  · rintro ⟨h1, h2, h3, h4⟩
    exact le_antisymm (common_max l m h h1 h2 h3) (h4 _ hl.length_le hr.length_le e)
  · rintro rfl
    exact ⟨hl.length_le, hr.length_le, e, common_max l m⟩

/-- The answer of `get_common_block_info` when its assertions hold, in terms of the branches. -/
theorem commonInfo_ok {E : Env} (ok : TreeOk E) {n : Node} {tip id : Nat}
    (h1 : tip ≠ id) (h2 : (E.path id).length ≤ (E.path tip).length) :
    ∃ c, commonInfo E n tip (E.path tip).length id (E.path id).length = .ok c ∧
      E.path c.id = (E.path id).take c.height ∧ E.path c.id = (E.path tip).take c.height ∧
      c.height ≤ (E.path id).length ∧ c.height ≤ (E.path tip).length ∧
      ((n.known id = true ∧ n.known tip = true ∧ Fork (E.path id) (E.path tip) c.height) ∨
        ((n.known id = false ∨ n.known tip = false) ∧ c.height = 0)) := by
  unfold commonInfo
  rw [if_neg h1, if_neg (by omega)]
  unfold lastCommonAncestor
  have hl := common_left (E.path id) (E.path tip)
  have hr := common_right (E.path id) (E.path tip)
  by_cases hk : n.known id && n.known tip
  · rw [if_pos hk]
    refine ⟨_, rfl, ?_, ?_, hl.length_le, hr.length_le, Or.inl ?_⟩
    · simp only; rw [path_prefix ok hl, ← List.prefix_iff_eq_take.1 hl]
    · simp only; rw [path_prefix ok hl, ← List.prefix_iff_eq_take.1 hr]
    · simp only [Bool.and_eq_true] at hk
      exact ⟨hk.1, hk.2, (fork_iff _ _ _).2 rfl⟩
  · rw [if_neg hk]
    refine ⟨_, rfl, by simp [ok.root], by simp [ok.root], by simp, by simp, Or.inr ⟨?_, rfl⟩⟩
    cases ha : n.known id <;> cases hb : n.known tip <;> simp_all

theorem commonInfo_err {E : Env} {n : Node} {tip th id h : Nat} {e : Err}
    (he : commonInfo E n tip th id h = .error e) : e = .panic := by
  unfold commonInfo at he
  split at he
  · cases he; rfl
  · split at he
    · cases he; rfl
    · split at he <;> cases he

theorem resume_unique {E : Env} {n : Node} {l : List Nat} {h h' : Nat} (a : Resume E n l h)
    (b : Resume E n l h') : h = h' := by
  unfold Resume at a b
  split at a
  · next hk =>
    rw [if_pos hk] at b
    rw [(fork_iff _ _ _).1 a, (fork_iff _ _ _).1 b]
  · next hk =>
    rw [if_neg hk] at b
    rw [a, b]

theorem known_prefix {E : Env} {n : Node} (hn : NodeOk E n) {l : List Nat} (h : l <+: E.path n.tip) :
    n.known (lastOr E.genesis l) = true := by
  unfold lastOr
  cases hl : l.getLast? with
  | none => exact hn.1
  | some b =>
    have : b ∈ l := List.mem_of_getLast? hl
    exact hn.2 b (h.subset this)

theorem known_tip {E : Env} (ok : TreeOk E) {n : Node} (hn : NodeOk E n) : n.known n.tip = true := by
  have := known_prefix hn (List.prefix_refl (E.path n.tip))
  rwa [lastOr_path ok] at this

/-- `get_common_block_info` gives the block from which to resume. -/
theorem commonInfo_resume {E : Env} (ok : TreeOk E) {n : Node} (hn : NodeOk E n) {id : Nat}
    (h1 : n.tip ≠ id) (h2 : (E.path id).length ≤ (E.path n.tip).length) :
    ∃ c, commonInfo E n n.tip (E.path n.tip).length id (E.path id).length = .ok c ∧
      E.path c.id = (E.path id).take c.height ∧ E.path c.id = (E.path n.tip).take c.height ∧
      c.height ≤ (E.path id).length ∧ c.height < (E.path n.tip).length ∧ Resume E n (E.path id) c.height := by
  obtain ⟨c, hc, c1, c2, c3, c4, c5⟩ := commonInfo_ok ok (n := n) h1 h2
  refine ⟨c, hc, c1, c2, c3, ?_, ?_⟩
  · rcases Nat.lt_or_ge c.height (E.path n.tip).length with h | h
    · exact h
    · exfalso
      apply h1
      have e1 : (E.path n.tip).take c.height = E.path n.tip := List.take_of_length_le h
      have e2 : (E.path id).take c.height = E.path id := List.take_of_length_le (by omega)
      rw [e1] at c2; rw [e2] at c1
      exact path_inj ok (c2.symm.trans c1)
  · unfold Resume
    have e : (E.path id).getLast?.getD E.genesis = id := lastOr_path ok id
    rw [e]
    rcases c5 with ⟨k1, k2, k3⟩ | ⟨k1, k2⟩
    · rw [if_pos k1]; exact k3
    · rcases k1 with k1 | k1
      · rw [if_neg (by rw [k1]; simp)]; exact k2
      · rw [known_tip ok hn] at k1; cases k1

/-- A branch that is part of the node's chain is resumed at its end. -/
theorem resume_prefix {E : Env} (ok : TreeOk E) {n : Node} (hn : NodeOk E n) {l : List Nat} {h : Nat}
    (hl : l <+: E.path n.tip) (hr : Resume E n l h) : h = l.length := by
  unfold Resume at hr
  have hk := known_prefix hn hl
  unfold lastOr at hk
  rw [if_pos hk] at hr
  obtain ⟨r1, _, _, r4⟩ := hr
  refine le_antisymm r1 (r4 l.length le_rfl hl.length_le ?_)
  rw [List.take_length, ← List.prefix_iff_eq_take.1 hl]

end Verif.WalletSync
