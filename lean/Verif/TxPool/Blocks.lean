import Verif.TxPool.Sound
import Mathlib.Data.List.Induction

/-!
# Transactions that stay connectable when the chain changes

`l` are the transactions of the disconnected blocks followed by those of the pool, `c` those of the connected
blocks; both start from the ledger `B` at the fork.
-/

namespace Verif.TxPool

open Verif.Mempool

/-- two transactions that cannot both be in a chain: they consume the same output or nonce, or create the same
thing -/
def Clash (t u : Tx) : Prop :=
  (∃ d ∈ t.consumed, d ∈ u.consumed) ∨ (∃ n, Input.utxo none n ∈ t.inputs ∧ Input.utxo none n ∈ u.inputs) ∨
    ∃ d ∈ t.provided, d ∈ u.provided

/-! ## More about what stays -/

theorem DoesAll.out_keep {ts : List Tx} {L L' : Ledger} (h : DoesAll ts L L') (hk : OutKnown L) {u n : Nat}
    (h1 : L (.out u n) = 1) (hn : ∀ t ∈ ts, Act.use (.out u n) ∉ acts t) : L' (.out u n) = 1 := by
  induction ts generalizing L with
  | nil => cases h; exact h1
  | cons t ts ih =>
    obtain ⟨M, h2, h3⟩ := h
    refine ih h3 (h2.outKnown hk) ?_ (fun x hx => hn x (by simp [hx]))
    rw [h2.out_other ?_ (hn t (by simp)), h1]
    intro e
    have := hk u n (by rw [h1]; decide)
    rw [e, h2.known.1] at this
    exact this rfl

theorem DoesAll.out_origin {ts : List Tx} {L L' : Ledger} (h : DoesAll ts L L') (hk : OutKnown L) {u n : Nat}
    (h1 : L' (.out u n) = 1) : L (.out u n) = 1 ∨ ∃ a ∈ ts, a.id = u ∧ Act.make (.out u n) ∈ acts a := by
  induction ts generalizing L with
  | nil => cases h; exact .inl h1
  | cons t ts ih =>
    obtain ⟨M, h2, h3⟩ := h
    rcases ih h3 (h2.outKnown hk) with h4 | ⟨a, ha, h4⟩
    · by_cases hu : Act.use (.out u n) ∈ acts t
      · have := (h2.out_use hk hu).2.1
        omega
      · by_cases hm : Act.make (.out u n) ∈ acts t
        · right
          refine ⟨t, by simp, ?_, hm⟩
          have := kind_acts h2.nonces hm
          cases this
          rfl
        · left
          rw [← h4]
          symm
          refine run_untouched h2.run (fun a ha hc => ?_)
          rw [acts_eq, List.mem_append] at ha
          rcases ha with ha | ha
          · refine hu ?_
            rw [acts_eq, List.mem_append, ← ins_out ha hc]
            exact .inl ha
          · refine hm ?_
            rw [acts_eq, List.mem_append, ← (out_outs a (mem_on.2 ⟨ha, hc⟩)).1]
            exact .inr ha
    · exact .inr ⟨a, by simp [ha], h4⟩

theorem DoesAll.reward_keep {ts : List Tx} {L L' : Ledger} (h : DoesAll ts L L') {n : Nat}
    (h1 : L (.reward n) = 1) (hn : ∀ t ∈ ts, Act.use (.reward n) ∉ acts t) : L' (.reward n) = 1 := by
  induction ts generalizing L with
  | nil => cases h; exact h1
  | cons t ts ih =>
    obtain ⟨M, h2, h3⟩ := h
    refine ih h3 ?_ (fun x hx => hn x (by simp [hx]))
    rw [run_untouched h2.run ?_, h1]
    intro a ha hc
    have hk := kind_acts h2.nonces ha
    refine hn t (by simp) ?_
    cases hk <;> simp only [Act.make, Act.use, Act.need, reduceCtorEq, Cell.reward.injEq] at hc
    subst hc; exact ha

theorem DoesAll.reward_origin {ts : List Tx} {L L' : Ledger} (h : DoesAll ts L L') {n : Nat}
    (h1 : L' (.reward n) = 1) : L (.reward n) = 1 ∧ ∀ t ∈ ts, Act.use (.reward n) ∉ acts t := by
  induction ts generalizing L with
  | nil => cases h; exact ⟨h1, by simp⟩
  | cons t ts ih =>
    obtain ⟨M, h2, h3⟩ := h
    obtain ⟨h4, h5⟩ := ih h3
    have hn : Act.use (.reward n) ∉ acts t := by
      intro hu
      have := (h2.reward_use hu).2
      omega
    refine ⟨?_, fun x hx => ?_⟩
    · rcases val_const (w := 0) (fun x hx => (h2.reward_all x hx).2) (h2.at (.reward n)) with ⟨-, h6⟩ | ⟨-, h6⟩
      · omega
      · omega
    · rcases List.mem_cons.1 hx with rfl | hx
      · exact hn
      · exact h5 x hx

theorem DoesAll.made_keep {ts : List Tx} {L L' : Ledger} (h : DoesAll ts L L') {d : Dep}
    (h1 : L (.made d) = 1) : L' (.made d) = 1 := by
  induction ts generalizing L with
  | nil => cases h; exact h1
  | cons t ts ih =>
    obtain ⟨M, h2, h3⟩ := h
    refine ih h3 ?_
    rcases val_const (w := 1) h2.made_new (h2.at (.made d)) with ⟨-, h6⟩ | ⟨-, h6⟩
    · rw [h6, h1]
    · exact h6

theorem DoesAll.made_origin {ts : List Tx} {L L' : Ledger} (h : DoesAll ts L L') {d : Dep}
    (h1 : L' (.made d) ≠ L (.made d)) : ∃ a ∈ ts, Act.make (.made d) ∈ acts a := by
  induction ts generalizing L with
  | nil => cases h; exact absurd rfl h1
  | cons t ts ih =>
    obtain ⟨M, h2, h3⟩ := h
    by_cases hm : Act.make (.made d) ∈ acts t
    · exact ⟨t, by simp, hm⟩
    · have : M (.made d) = L (.made d) := val_read (fun x hx => by
        rcases h2.made_all x hx with rfl | rfl
        · rfl
        · exact absurd (mem_on.1 hx).1 hm) (h2.at (.made d))
      obtain ⟨a, ha, h4⟩ := ih h3 (by rw [this]; exact h1)
      exact ⟨a, by simp [ha], h4⟩

theorem DoesAll.made_after {ts : List Tx} {L L' : Ledger} (h : DoesAll ts L L') {t : Tx} (ht : t ∈ ts) {x : Act}
    (hx : x ∈ acts t) {d : Dep} (hc : x.cell = .made d) : L' (.made d) = 1 := by
  obtain ⟨pre, post, rfl⟩ := List.append_of_mem ht
  obtain ⟨M, -, N, h2, h3⟩ := doesAll_append.1 h
  exact h3.made_keep (h2.made_there hx hc)

theorem DoesAll.out_after {ts : List Tx} {L L' : Ledger} (h : DoesAll ts L L') (hk : OutKnown L) {a : Tx}
    (ha : a ∈ ts) {n : Nat} (hm : Act.make (.out a.id n) ∈ acts a)
    (hn : ∀ t ∈ ts, Act.use (.out a.id n) ∉ acts t) : L' (.out a.id n) = 1 := by
  obtain ⟨pre, post, rfl⟩ := List.append_of_mem ha
  obtain ⟨M, h1, N, h2, h3⟩ := doesAll_append.1 h
  have hk' := h1.outKnown hk
  exact h3.out_keep (h2.outKnown hk') (h2.out_make hk' hm).2 (fun t ht => hn t (by simp [ht]))

theorem DoesAll.reward_spent {ts : List Tx} {L L' : Ledger} (h : DoesAll ts L L') {t : Tx} (ht : t ∈ ts) {n : Nat}
    (hx : Act.use (.reward n) ∈ acts t) : L' (.reward n) = 0 := by
  obtain ⟨pre, post, rfl⟩ := List.append_of_mem ht
  obtain ⟨M, h1, N, h2, h3⟩ := doesAll_append.1 h
  exact h3.reward_stays (h2.reward_use hx).2

theorem DoesAll.use_spent' {ts : List Tx} {L L' : Ledger} (h : DoesAll ts L L') (hk : OutKnown L) {t : Tx}
    (ht : t ∈ ts) {u n : Nat} (hx : Act.use (.out u n) ∈ acts t) : L' (.out u n) = 0 := by
  obtain ⟨pre, post, rfl⟩ := List.append_of_mem ht
  obtain ⟨M, h1, N, h2, h3⟩ := doesAll_append.1 h
  have hk' := h1.outKnown hk
  have h4 := h2.out_use hk' hx
  exact h3.out_stays (h2.outKnown hk') (h2.known_stays (hk' u n (by rw [h4.1]; decide))) h4.2.1

/-! ## A step that changes something is done once -/

theorem before_clean {pre : List Tx} {b : Tx} {L M N : Ledger} (hk : OutKnown L) (h1 : DoesAll pre L M)
    (h2 : Does b M N) {a : Act} (hw : a.old ≠ a.new) (hb : a ∈ acts b) : ∀ x ∈ pre, a ∉ acts x := by
  intro x hx ha
  have kb := kind_acts h2.nonces hb
  have hk' := h1.outKnown hk
  cases kb with
  | known =>
    have e := (ins_known ha rfl).1
    have := (h1.known.1 x hx).2
    rw [← e, h2.known.1] at this
    exact this rfl
  | useOut =>
    have g1 := h1.use_spent' hk hx ha
    have g2 := (h2.out_use hk' hb).1
    omega
  | useReward =>
    have g1 := h1.reward_spent hx ha
    have g2 := (h2.reward_use hb).1
    omega
  | nonceD =>
    have g1 := (h1.count_there hx ha rfl).2
    have g2 := ((h2.count (c := .nonceD _) rfl).2.1 _ (mem_on.2 ⟨hb, rfl⟩)).1
    simp only at g1 g2
    omega
  | nonceT =>
    have g1 := (h1.count_there hx ha rfl).2
    have g2 := ((h2.count (c := .nonceT _) rfl).2.1 _ (mem_on.2 ⟨hb, rfl⟩)).1
    simp only at g1 g2
    omega
  | need => exact hw rfl
  | make => exact h1.made_there hx ha rfl (h2.make_fresh hb)
  | @out n =>
    have hx' : noncesOk x = true := (doesAll_run.1 h1).1 x hx
    have := kind_acts hx' ha
    have e : b.id = x.id := by
      generalize hq : Act.make (.out b.id n) = q at this
      cases this <;> simp [Act.make, Act.use, Act.need] at hq
      exact hq.1
    have g := (h1.known.1 x hx).2
    rw [← e, h2.known.1] at g
    exact g rfl

theorem uniq_act {l : List Tx} {L N : Ledger} (hk : OutKnown L) (h : DoesAll l L N) {a : Act}
    (hw : a.old ≠ a.new) {x y : Tx} (hx : x ∈ l) (hy : y ∈ l) (hax : a ∈ acts x) (hay : a ∈ acts y) : x = y := by
  obtain ⟨pre, post, rfl⟩ := List.append_of_mem hy
  obtain ⟨M, h1, M', h2, h3⟩ := doesAll_append.1 h
  rcases List.mem_append.1 hx with hx | hx
  · exact absurd hax (before_clean hk h1 h2 hw hay x hx)
  · rcases List.mem_cons.1 hx with hx | hx
    · exact hx
    · exfalso
      obtain ⟨p2, q2, rfl⟩ := List.append_of_mem hx
      have h' : DoesAll ((pre ++ y :: p2) ++ x :: q2) L N := by simpa using h
      obtain ⟨M1, g1, M2, g2, -⟩ := doesAll_append.1 h'
      exact before_clean hk g1 g2 hw hax y (by simp) hay

/-! ## The setting -/

/-- `S` selects transactions of `l` that survive: not in the connected blocks, clashing with none of the
transactions there that are new, and all they depend on survives or is in the connected blocks. -/
structure Survive (l c : List Tx) (S : Tx → Bool) : Prop where
  out : ∀ t ∈ l, S t = true → t.id ∉ c.map Tx.id
  clash : ∀ t ∈ l, S t = true → ∀ u ∈ c, u.id ∉ l.map Tx.id → ¬ Clash t u
  parents : l.Pairwise (fun a b => DependsOn a b → S b = true → S a = true ∨ a.id ∈ c.map Tx.id)
  same : ∀ t ∈ l, ∀ u ∈ c, t.id = u.id → acts t = acts u

variable {l c : List Tx} {S : Tx → Bool} {B T V : Ledger}

theorem clash_of_act {t w : Tx} {a : Act} (ht : noncesOk t = true) (hw : noncesOk w = true)
    (hat : a ∈ acts t) (haw : a ∈ acts w) (hch : a.old ≠ a.new) (hid : t.id ≠ w.id) : Clash t w := by
  have kt := kind_acts ht hat
  have kw := kind_acts hw haw
  cases kt with
  | known => exact absurd (ins_known haw rfl).1 hid
  | @useOut u n h1 h2 =>
    generalize hq : Act.use (.out u n) = q at kw
    cases kw <;> simp [Act.make, Act.use, Act.need] at hq
    obtain ⟨rfl, rfl⟩ := hq
    exact .inl ⟨_, h1, ‹_›⟩
  | @useReward n =>
    right; left
    have : ∀ x : Tx, noncesOk x = true → Act.use (.reward n) ∈ acts x → Input.utxo none n ∈ x.inputs := by
      intro x hx ha
      simp only [acts, List.cons_append, List.mem_cons, List.mem_append, List.mem_flatMap, or_assoc] at ha
      rcases ha with ha | ⟨i, hi, h⟩ | ⟨o, ho, h⟩ | h
      · simp [Act.use, Act.make] at ha
      · cases i with
        | utxo s m =>
          cases s <;> simp [inputActs, Act.use] at h
          subst h; exact hi
        | delegation d m => by_cases hm : m = 0 <;> simp [inputActs, Act.use, Act.need, hm] at h
        | tokenCommand d m => by_cases hm : m = 0 <;> simp [inputActs, Act.use, Act.need, hm] at h
        | orderCommandV0 => simp [inputActs] at h
        | orderCommand o => simp [inputActs, Act.use, Act.need] at h
      · exfalso
        have := kind_output ho h
        rw [outputActs_eq, List.mem_append] at h
        rcases h with h | h
        · cases hr : o.requires with
          | none => simp [hr] at h
          | some d => simp [hr, Act.use, Act.need] at h
        · obtain ⟨d, hd, h⟩ := mem_makeAct.1 h
          simp [Act.use, Act.make] at h
      · obtain ⟨m, -, h⟩ := mem_outActs h
        simp [Act.use, Act.make] at h
    exact ⟨n, this t ht hat, this w hw haw⟩
  | @nonceD d n h1 h2 h3 =>
    generalize hq : (⟨.nonceD d, n, n + 1⟩ : Act) = q at kw
    cases kw <;> simp [Act.make, Act.use, Act.need] at hq
    obtain ⟨rfl, rfl⟩ := hq
    exact .inl ⟨_, h1, ‹_›⟩
  | @nonceT d n h1 h2 h3 =>
    generalize hq : (⟨.nonceT d, n, n + 1⟩ : Act) = q at kw
    cases kw <;> simp [Act.make, Act.use, Act.need] at hq
    obtain ⟨rfl, rfl⟩ := hq
    exact .inl ⟨_, h1, ‹_›⟩
  | need => exact absurd rfl hch
  | @make d h1 h2 =>
    generalize hq : Act.make (.made d) = q at kw
    cases kw <;> simp [Act.make, Act.use, Act.need] at hq
    subst hq
    rename_i g1 _
    exact .inr (.inr ⟨_, h1, g1⟩)
  | @out n =>
    generalize hq : Act.make (.out t.id n) = q at kw
    cases kw <;> simp [Act.make, Act.use, Act.need] at hq
    exact absurd hq.1 hid

/-- what a survivor changes is not done in the connected blocks -/
theorem block_free (hk : OutKnown B) (hl : DoesAll l B V) (hc : DoesAll c B T) (hS : Survive l c S) {t : Tx}
    (ht : t ∈ l) (hs : S t = true) {a : Act} (ha : a ∈ acts t) (hw : a.old ≠ a.new) : ∀ w ∈ c, a ∉ acts w := by
  intro w hwc haw
  have hid : t.id ≠ w.id := fun e => hS.out t ht hs (by rw [e]; exact List.mem_map_of_mem hwc)
  by_cases hwl : w.id ∈ l.map Tx.id
  · obtain ⟨w', hw', e⟩ := List.mem_map.1 hwl
    have hacts := hS.same w' hw' w hwc e
    have := uniq_act hk hl hw ht hw' ha (by rw [hacts]; exact haw)
    rw [this] at hid
    exact hid e
  · exact hS.clash t ht hs w hwc hwl
      (clash_of_act ((doesAll_run.1 hl).1 t ht) ((doesAll_run.1 hc).1 w hwc) ha haw hw hid)

/-! ## Nonces -/

/-- the nonce reached: by the blocks, or by those of the transactions that come after -/
theorem count_max {x : Cell} (hx : x.counts = true) (A : Tx → Bool) : ∀ (q : List Tx) {L T L' M : Ledger},
    DoesAll q L L' → DoesAll (q.filter A) T M → L x ≤ T x →
    (∀ v ∈ q, ∀ a ∈ acts v, a.cell = x → T x ≤ a.old → A v = true) → M x = max (T x) (L' x) := by
  intro q
  induction q using List.reverseRecOn with
  | nil =>
    intro L T L' M h1 h2 h3 _
    cases h1; cases h2
    exact (max_eq_left h3).symm
  | append_singleton q v ih =>
    intro L T L' M h1 h2 h3 h4
    obtain ⟨Lq, g1, g2⟩ := doesAll_append.1 h1
    rw [doesAll_single] at g2
    obtain ⟨c1, c2, c3⟩ := g2.count hx
    rw [List.filter_append] at h2
    obtain ⟨Mq, k1, k2⟩ := doesAll_append.1 h2
    have hq := ih g1 k1 h3 (fun v hv => h4 v (by simp [hv]))
    by_cases hA : A v = true
    · rw [List.filter_cons_of_pos hA, List.filter_nil, doesAll_single] at k2
      obtain ⟨d1, d2, d3⟩ := k2.count hx
      by_cases hne : on x (acts v) = []
      · rw [hne, List.length_nil] at c1 d1
        rw [d1, c1, Nat.add_zero, Nat.add_zero, hq]
      · -- both start at the first nonce of `v`
        have hpos := List.length_pos_of_ne_nil hne
        obtain ⟨y, hy, hyo⟩ := c3 (Lq x) (le_refl _) (by omega)
        obtain ⟨z, hz, hzo⟩ := d3 (Mq x) (le_refl _) (by omega)
        have e1 := (d2 y hy).1
        have e2 := (c2 z hz).1
        omega
    · rw [List.filter_cons_of_neg hA, List.filter_nil] at k2
      cases k2
      by_cases hne : on x (acts v) = []
      · rw [hne, List.length_nil, Nat.add_zero] at c1
        rw [c1, hq]
      · have hpos := List.length_pos_of_ne_nil hne
        obtain ⟨y, hy, hyo⟩ := c3 (L' x - 1) (by omega) (by omega)
        have : ¬ T x ≤ y.old := fun hle => hA (h4 v (by simp) y (mem_on.1 hy).1 (mem_on.1 hy).2 hle)
        omega

end Verif.TxPool
