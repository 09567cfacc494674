import Verif.TxPool.Kinds
import Verif.Mempool.Spec

/-! # Effects of connecting a transaction; commuting independent transactions -/

namespace Verif.TxPool

open Verif.Mempool

/-- unspent outputs belong to known transactions -/
def OutKnown (L : Ledger) : Prop := ∀ u n, L (.out u n) ≠ 0 → L (.known u) ≠ 0

/-- the transaction takes the ledger `L` to `L'` -/
structure Does (t : Tx) (L L' : Ledger) : Prop where
  nonces : noncesOk t = true
  run : run (acts t) L = some L'

theorem connect_eq {tip : Tip} {L L' : Ledger} {t : Tx} :
    connect tip L t = some L' ↔ tip.ok t = true ∧ Does t L L' := by
  unfold connect
  constructor
  · intro h
    split at h
    · rename_i h1; rw [Bool.and_eq_true] at h1; exact ⟨h1.1, h1.2, h⟩
    · simp at h
  · rintro ⟨h1, h2, h3⟩
    rw [if_pos (by simp [h1, h2]), h3]

variable {t : Tx} {L L' : Ledger}

theorem Does.at (h : Does t L L') (c : Cell) : valRun (on c (acts t)) (L c) = some (L' c) := run_iff.1 h.run c

theorem Does.kind (h : Does t L L') {a : Act} {c : Cell} (ha : a ∈ on c (acts t)) : Kind t a ∧ a.cell = c := by
  rw [mem_on] at ha; exact ⟨kind_acts h.nonces ha.1, ha.2⟩

theorem ne_nil_of_mem {α : Type} {a : α} {l : List α} (h : a ∈ l) : l ≠ [] := by
  intro e; rw [e] at h; simp at h

/-! ## `known` -/

theorem Does.known (h : Does t L L') : L (.known t.id) = 0 ∧ L' (.known t.id) = 1 := by
  have h1 := val_once (o := 0) (w := 1) (by decide) (fun x hx => by
    rw [mem_on] at hx
    rw [(ins_known hx.1 hx.2).2]; exact ⟨rfl, rfl⟩) (h.at (.known t.id))
    (ne_nil_of_mem (mem_on.2 ⟨known_mem t, rfl⟩))
  exact ⟨h1.1, h1.2.1⟩

theorem Does.known_ne (h : Does t L L') {k : Nat} (hk : k ≠ t.id) : L' (.known k) = L (.known k) :=
  run_untouched h.run (fun a ha hc => hk (ins_known ha hc).1)

theorem Does.known_stays (h : Does t L L') {k : Nat} (hk : L (.known k) ≠ 0) : L' (.known k) ≠ 0 := by
  by_cases e : k = t.id
  · rw [e, h.known.2]; decide
  · rw [h.known_ne e]; exact hk

/-! ## `reward` -/

theorem Does.reward_all (h : Does t L L') {n : Nat} : ∀ x ∈ on (.reward n) (acts t), x.old = 1 ∧ x.new = 0 := by
  intro x hx
  obtain ⟨hk, hc⟩ := h.kind hx
  cases hk <;> simp only [Act.make, Act.use, Act.need, reduceCtorEq] at hc ⊢
  exact ⟨trivial, trivial⟩

theorem Does.reward_use (h : Does t L L') {n : Nat} (hu : Act.use (.reward n) ∈ acts t) :
    L (.reward n) = 1 ∧ L' (.reward n) = 0 := by
  have h1 := val_once (o := 1) (w := 0) (by decide) h.reward_all (h.at (.reward n))
    (ne_nil_of_mem (mem_on.2 ⟨hu, rfl⟩))
  exact ⟨h1.1, h1.2.1⟩

theorem Does.reward_stays (h : Does t L L') {n : Nat} (h0 : L (.reward n) = 0) : L' (.reward n) = 0 := by
  rcases val_const (w := 0) (fun x hx => (h.reward_all x hx).2) (h.at (.reward n)) with ⟨-, h1⟩ | ⟨-, h1⟩
  · rw [h1, h0]
  · exact h1

/-! ## `made` -/

theorem Does.made_all (h : Does t L L') {d : Dep} : ∀ x ∈ on (.made d) (acts t),
    x = .need (.made d) ∨ x = .make (.made d) := by
  intro x hx
  obtain ⟨hk, hc⟩ := h.kind hx
  cases hk <;> simp only [Act.make, Act.use, Act.need, reduceCtorEq, Cell.made.injEq] at hc ⊢
  · subst hc; exact .inl rfl
  · subst hc; exact .inr rfl

theorem Does.made_new (h : Does t L L') {d : Dep} : ∀ x ∈ on (.made d) (acts t), x.new = 1 := by
  intro x hx
  rcases h.made_all x hx with rfl | rfl <;> rfl

theorem Does.made_there (h : Does t L L') {d : Dep} {x : Act} (hx : x ∈ acts t) (hc : x.cell = .made d) :
    L' (.made d) = 1 := by
  rcases val_const (w := 1) h.made_new (h.at (.made d)) with ⟨h1, -⟩ | ⟨-, h1⟩
  · exact absurd h1 (ne_nil_of_mem (mem_on.2 ⟨hx, hc⟩))
  · exact h1

theorem Does.made_stays (h : Does t L L') {d : Dep} (h0 : L (.made d) ≠ 0) : L' (.made d) ≠ 0 := by
  rcases val_const (w := 1) h.made_new (h.at (.made d)) with ⟨-, h1⟩ | ⟨-, h1⟩
  · rw [h1]; exact h0
  · rw [h1]; decide

theorem val_no_make {F : List Act} {c : Cell} {v v' : Nat} (hv : v ≠ 0)
    (hF : ∀ x ∈ F, x = .need c ∨ x = .make c) (h : valRun F v = some v') : ∀ x ∈ F, x = .need c := by
  induction F generalizing v with
  | nil => simp
  | cons a F ih =>
    simp only [valRun] at h
    split at h
    · rename_i h1
      have ha : a = .need c := by
        rcases hF a (by simp) with ha | ha
        · exact ha
        · subst ha; exact absurd h1 hv
      intro x hx
      rcases List.mem_cons.1 hx with rfl | hx
      · exact ha
      · exact ih (v := a.new) (by rw [ha]; simp [Act.need]) (fun y hy => hF y (by simp [hy])) h x hx
    · simp at h

theorem Does.make_fresh (h : Does t L L') {d : Dep} (hm : Act.make (.made d) ∈ acts t) : L (.made d) = 0 := by
  by_contra h0
  have := val_no_make h0 h.made_all (h.at (.made d)) _ (mem_on.2 ⟨hm, rfl⟩)
  simp [Act.make, Act.need] at this

theorem Does.made_one (h : Does t L L') {d : Dep} (hl : L (.made d) ≤ 1) : L' (.made d) ≤ 1 := by
  rcases val_const (w := 1) h.made_new (h.at (.made d)) with ⟨-, h1⟩ | ⟨-, h1⟩
  · rw [h1]; exact hl
  · rw [h1]

/-! ## Nonces -/

/-- the cells that count -/
def Cell.counts : Cell → Bool
  | .nonceD _ | .nonceT _ => true
  | _ => false

theorem Does.count_all (h : Does t L L') {c : Cell} (hc : c.counts = true) :
    ∀ x ∈ on c (acts t), x.new = x.old + 1 ∧ x.old ≤ maxNonce := by
  intro x hx
  obtain ⟨hk, hxc⟩ := h.kind hx
  subst hxc
  cases hk <;> simp [Act.make, Act.use, Act.need, Cell.counts] at hc
  · exact ⟨rfl, by assumption⟩
  · exact ⟨rfl, by assumption⟩

theorem Does.count (h : Does t L L') {c : Cell} (hc : c.counts = true) :
    L' c = L c + (on c (acts t)).length ∧ (∀ x ∈ on c (acts t), L c ≤ x.old ∧ x.old < L' c) ∧
      ∀ m, L c ≤ m → m < L' c → ∃ x ∈ on c (acts t), x.old = m :=
  val_count (fun x hx => (h.count_all hc x hx).1) (h.at c)

/-! ## `out` -/

theorem Does.out_ins (_h : Does t L L') {u n : Nat} : ∀ x ∈ on (.out u n) (ins t), x = .use (.out u n) := by
  intro x hx
  rw [mem_on] at hx
  exact ins_out hx.1 hx.2

theorem out_outs {id : Nat} {os : List Output} {i u n : Nat} :
    ∀ x ∈ on (.out u n) (outActs id i os), x = .make (.out u n) ∧ u = id := by
  intro x hx
  rw [mem_on] at hx
  obtain ⟨m, -, rfl⟩ := mem_outActs hx.1
  have := hx.2
  simp only [Act.make, Cell.out.injEq] at this
  exact ⟨by rw [← this.1, ← this.2], this.1.symm⟩

theorem Does.out_split (h : Does t L L') (u n : Nat) : ∃ v, valRun (on (.out u n) (ins t)) (L (.out u n)) = some v ∧
    valRun (on (.out u n) (outActs t.id 0 t.outputs)) v = some (L' (.out u n)) := by
  have := h.at (.out u n)
  rw [acts_eq, on_append, valRun_append] at this
  cases hv : valRun (on (.out u n) (ins t)) (L (.out u n)) with
  | none => rw [hv] at this; simp at this
  | some v => rw [hv] at this; exact ⟨v, rfl, this⟩

theorem Does.out_use (h : Does t L L') (hk : OutKnown L) {u n : Nat} (hu : Act.use (.out u n) ∈ acts t) :
    L (.out u n) = 1 ∧ L' (.out u n) = 0 ∧ u ≠ t.id := by
  obtain ⟨v, h1, h2⟩ := h.out_split u n
  have hmem : Act.use (.out u n) ∈ on (.out u n) (ins t) := by
    rw [acts_eq, List.mem_append] at hu
    rcases hu with hu | hu
    · exact mem_on.2 ⟨hu, rfl⟩
    · obtain ⟨m, -, hm⟩ := mem_outActs hu
      simp [Act.use, Act.make] at hm
  have h3 := val_once (o := 1) (w := 0) (by decide) (fun x hx => by
    rw [h.out_ins x hx]; exact ⟨rfl, rfl⟩) h1 (ne_nil_of_mem hmem)
  have hne : u ≠ t.id := by
    intro e
    have := hk u n (by rw [h3.1]; decide)
    rw [e, h.known.1] at this
    exact this rfl
  refine ⟨h3.1, ?_, hne⟩
  rcases val_const (w := 1) (fun x hx => by rw [(out_outs x hx).1]; rfl) h2 with ⟨-, h4⟩ | ⟨h4, -⟩
  · rw [h4, h3.2.1]
  · obtain ⟨x, hx⟩ := List.exists_mem_of_ne_nil _ h4
    exact absurd (out_outs x hx).2 hne

theorem Does.out_other (h : Does t L L') {u n : Nat} (hne : u ≠ t.id) (hnu : Act.use (.out u n) ∉ acts t) :
    L' (.out u n) = L (.out u n) := by
  refine run_untouched h.run (fun a ha hc => ?_)
  rw [acts_eq, List.mem_append] at ha
  rcases ha with ha | ha
  · refine hnu ?_
    rw [acts_eq, List.mem_append, ← ins_out ha hc]
    exact .inl ha
  · exact hne (out_outs a (mem_on.2 ⟨ha, hc⟩)).2

theorem Does.outKnown (h : Does t L L') (hk : OutKnown L) : OutKnown L' := by
  intro u n h1
  by_cases e : u = t.id
  · rw [e, h.known.2]; decide
  · by_cases hu : Act.use (.out u n) ∈ acts t
    · exact absurd (h.out_use hk hu).2.1 h1
    · rw [h.out_other e hu] at h1
      exact h.known_stays (hk u n h1)

/-- a spent output of a known transaction does not come back -/
theorem Does.out_stays (h : Does t L L') (hk : OutKnown L) {u n : Nat} (h0 : L (.out u n) = 0)
    (hu : L (.known u) ≠ 0) : L' (.out u n) = 0 := by
  have e : u ≠ t.id := by intro e; rw [e, h.known.1] at hu; exact hu rfl
  by_cases hx : Act.use (.out u n) ∈ acts t
  · exact (h.out_use hk hx).2.1
  · rw [h.out_other e hx, h0]

theorem Does.out_make (h : Does t L L') (hk : OutKnown L) {n : Nat} (hm : Act.make (.out t.id n) ∈ acts t) :
    L (.out t.id n) = 0 ∧ L' (.out t.id n) = 1 := by
  have h0 : L (.out t.id n) = 0 := by
    by_contra h1
    exact hk _ _ h1 h.known.1
  refine ⟨h0, ?_⟩
  obtain ⟨v, h1, h2⟩ := h.out_split t.id n
  have hmem : Act.make (.out t.id n) ∈ on (.out t.id n) (outActs t.id 0 t.outputs) := by
    rw [acts_eq, List.mem_append] at hm
    rcases hm with hm | hm
    · have := ins_out hm rfl
      simp [Act.use, Act.make] at this
    · exact mem_on.2 ⟨hm, rfl⟩
  rcases val_const (w := 1) (fun x hx => by rw [(out_outs x hx).1]; rfl) h2 with ⟨h4, -⟩ | ⟨-, h4⟩
  · exact absurd h4 (ne_nil_of_mem hmem)
  · exact h4

/-! ## Two transactions in a row -/

/-- the nonce that links two transactions -/
theorem dependsOn_of_count {a b : Tx} {L M N : Ledger} (ha : Does a L M) (hb : Does b M N) {c : Cell}
    (hc : c.counts = true) (hna : on c (acts a) ≠ []) (hnb : on c (acts b) ≠ []) : DependsOn a b := by
  obtain ⟨a1, a2, a3⟩ := ha.count hc
  obtain ⟨b1, b2, b3⟩ := hb.count hc
  have hlen : 0 < (on c (acts a)).length := List.length_pos_of_ne_nil hna
  have hlen2 : 0 < (on c (acts b)).length := List.length_pos_of_ne_nil hnb
  obtain ⟨x, hx, hxm⟩ := a3 (M c - 1) (by omega) (by omega)
  obtain ⟨y, hy, hym⟩ := b3 (M c) (le_refl _) (by omega)
  have hyb := (hb.count_all hc y hy).2
  have hxn := (ha.count_all hc x hx).1
  have hlink : y.old = x.old + 1 := by omega
  obtain ⟨kx, cx⟩ := ha.kind hx
  obtain ⟨ky, cy⟩ := hb.kind hy
  clear hxm hym a1 a2 a3 b1 b2 b3 hlen hlen2 hxn
  right
  subst cx
  cases kx with
  | @nonceD d n h1 h2 h3 =>
    cases ky <;> simp only [Act.make, Act.use, Act.need, reduceCtorEq, Cell.nonceD.injEq] at cy
    rename_i d' n' g1 g2 g3
    subst cy
    simp only at hlink hyb
    refine ⟨_, (mem_consumed.1 g1).1, ?_⟩
    rw [hlink]; exact h3 (by omega)
  | @nonceT d n h1 h2 h3 =>
    cases ky <;> simp only [Act.make, Act.use, Act.need, reduceCtorEq, Cell.nonceT.injEq] at cy
    rename_i d' n' g1 g2 g3
    subst cy
    simp only at hlink hyb
    refine ⟨_, (mem_consumed.1 g1).1, ?_⟩
    rw [hlink]; exact h3 (by omega)
  | known => simp [Act.make, Cell.counts] at hc
  | useOut => simp [Act.use, Cell.counts] at hc
  | useReward => simp [Act.use, Cell.counts] at hc
  | need => simp [Act.need, Cell.counts] at hc
  | make => simp [Act.make, Cell.counts] at hc
  | out => simp [Act.make, Cell.counts] at hc

/-- steps on the same cell by a transaction and a later one: `M` after the first, `N` before the second, nothing
taken back in between -/
theorem pair_cases {a b : Tx} {L M N O : Ledger} (ha : Does a L M) (hb : Does b N O) (hkL : OutKnown L)
    (hkN : OutKnown N)
    (hknown : ∀ k, M (.known k) ≠ 0 → N (.known k) ≠ 0)
    (hmade : ∀ d, M (.made d) ≠ 0 → N (.made d) ≠ 0)
    (hrew : ∀ n, M (.reward n) = 0 → N (.reward n) = 0)
    (hout : ∀ u n, M (.known u) ≠ 0 → M (.out u n) = 0 → N (.out u n) = 0)
    {x y : Act} (hx : x ∈ acts a) (hy : y ∈ acts b) (hc : x.cell = y.cell) :
    DependsOn a b ∨ (x.old = x.new ∧ y.old = y.new) ∨ x.cell.counts = true := by
  have kx := kind_acts ha.nonces hx
  have ky := kind_acts hb.nonces hy
  have hfin : ∀ u n, y = .make (.out u n) → u = b.id := by
    intro u n h
    subst h
    exact (by cases ky; rfl)
  cases kx with
  | known =>
    exfalso
    obtain ⟨e, -⟩ := ins_known hy hc.symm
    have := hknown a.id (by rw [ha.known.2]; decide)
    rw [e] at this
    exact this hb.known.1
  | @useOut u n h1 h2 =>
    exfalso
    obtain ⟨h3, h4, h5⟩ := ha.out_use hkL hx
    have hu : M (.known u) ≠ 0 := ha.known_stays (hkL u n (by rw [h3]; decide))
    have h0 := hout u n hu h4
    cases ky <;> simp only [Act.make, Act.use, Act.need, reduceCtorEq, Cell.out.injEq] at hc
    · obtain ⟨rfl, rfl⟩ := hc
      have := (hb.out_use hkN hy).1
      omega
    · obtain ⟨rfl, rfl⟩ := hc
      exact hknown _ hu hb.known.1
  | @useReward n =>
    exfalso
    have h0 := hrew n (ha.reward_use hx).2
    cases ky <;> simp only [Act.make, Act.use, Act.need, reduceCtorEq, Cell.reward.injEq] at hc
    subst hc
    have := (hb.reward_use hy).1
    omega
  | nonceD => exact .inr (.inr rfl)
  | nonceT => exact .inr (.inr rfl)
  | @need d h1 h2 =>
    have h0 := hmade d (by rw [ha.made_there hx rfl]; decide)
    cases ky <;> simp only [Act.make, Act.use, Act.need, reduceCtorEq, Cell.made.injEq] at hc
    · exact .inr (.inl ⟨rfl, rfl⟩)
    · subst hc
      exact absurd (hb.make_fresh hy) h0
  | @make d h1 h2 =>
    have h0 := hmade d (by rw [ha.made_there hx rfl]; decide)
    cases ky <;> simp only [Act.make, Act.use, Act.need, reduceCtorEq, Cell.made.injEq] at hc
    · subst hc
      rename_i h3 _
      exact .inl (.inr ⟨_, h3, h1⟩)
    · subst hc
      exact absurd (hb.make_fresh hy) h0
  | @out n =>
    cases ky <;> simp only [Act.make, Act.use, Act.need, reduceCtorEq, Cell.out.injEq] at hc
    · rename_i g1 g2
      exact .inl (.inl (by rw [hc.1]; exact g2))
    · exfalso
      have := hknown a.id (by rw [ha.known.2]; decide)
      rw [hc.1] at this
      exact this hb.known.1

/-- independent transactions in a row can change places -/
theorem does_swap {a b : Tx} {L M N : Ledger} (hk : OutKnown L) (ha : Does a L M) (hb : Does b M N)
    (hd : ¬ DependsOn a b) : ∃ M', Does b L M' ∧ Does a M' N := by
  obtain ⟨M', h1, h2⟩ := run_comm ha.run hb.run (fun x hx y hy hc => by
    rcases pair_cases ha hb hk (ha.outKnown hk) (fun _ h => h) (fun _ h => h) (fun _ h => h) (fun _ _ _ h => h)
      hx hy hc with h | h | h
    · exact absurd h hd
    · exact h
    · exact absurd (dependsOn_of_count ha hb h (ne_nil_of_mem (mem_on.2 ⟨hx, rfl⟩))
        (ne_nil_of_mem (mem_on.2 ⟨hy, hc.symm⟩))) hd)
  exact ⟨M', ⟨hb.nonces, h1⟩, ⟨ha.nonces, h2⟩⟩

end Verif.TxPool
