import Verif.KeyChain.Restore
import Mathlib.Data.List.Induction

/-!
# A chain is read completely if and only if it leaves no gap
-/

namespace Verif.KeyChain
open Verif

/-- the largest of two, if there is a first -/
def upd (u : Option Nat) (i : Nat) : Option Nat := some (match u with | none => i | some v => max v i)

/-- the largest index -/
def maxOf (l : List Nat) : Option Nat := l.foldl upd none

theorem maxOf_snoc (l : List Nat) (i : Nat) : maxOf (l ++ [i]) = upd (maxOf l) i := by
  unfold maxOf
  rw [List.foldl_append]
  rfl

theorem maxOf_spec (l : List Nat) : match maxOf l with | none => l = [] | some v => v ∈ l ∧ ∀ x ∈ l, x ≤ v := by
  induction l using List.reverseRecOn with
  | nil => rfl
  | append_singleton l i ih =>
    rw [maxOf_snoc]
    cases h : maxOf l with
    | none =>
      rw [h] at ih
      simp only at ih
      subst ih
      show i ∈ [] ++ [i] ∧ _
      refine ⟨List.mem_singleton.2 rfl, ?_⟩
      intro x hx
      rw [List.nil_append, List.mem_singleton] at hx
      exact Nat.le_of_eq hx
    | some v =>
      rw [h] at ih
      simp only at ih
      show max v i ∈ l ++ [i] ∧ ∀ x ∈ l ++ [i], x ≤ max v i
      constructor
      · rcases Nat.le_total v i with e | e
        · rw [Nat.max_eq_right e]; exact List.mem_append_right _ (List.mem_singleton.2 rfl)
        · rw [Nat.max_eq_left e]; exact List.mem_append_left _ ih.1
      · intro x hx
        rcases List.mem_append.1 hx with hx | hx
        · exact Nat.le_trans (ih.2 x hx) (Nat.le_max_left _ _)
        · rw [List.mem_singleton] at hx
          rw [hx]; exact Nat.le_max_right _ _

theorem within_iff {look : Nat} (before : List Nat) {i : Nat} (hi : i < maxKeys) : i < width look (maxOf before) ↔ Within look before i := by
  have := maxOf_spec before
  unfold Within
  cases h : maxOf before with
  | none =>
    rw [h] at this
    simp only at this
    subst this
    simp only [width]
    constructor
    · intro hh; left; omega
    · rintro (hh | ⟨v, hv, _⟩)
      · omega
      · cases hv
  | some v =>
    rw [h] at this
    simp only at this
    simp only [width]
    constructor
    · intro hh; right; exact ⟨v, this.1, by omega⟩
    · rintro (hh | ⟨x, hx, hh⟩)
      · omega
      · have := this.2 x hx
        omega

/-- no gap after `before` -/
def GapFree (look : Nat) (pre s : List Nat) : Prop := ∀ before i after, s = before ++ i :: after → Within look (pre ++ before) i

theorem gapFree_nil (look : Nat) (pre : List Nat) : GapFree look pre [] := by
  intro b i a e
  have := congrArg List.length e
  simp only [List.length_nil, List.length_append, List.length_cons] at this
  omega

theorem gapFree_cons (look : Nat) (pre : List Nat) (i : Nat) (s : List Nat) : GapFree look pre (i :: s) ↔ Within look pre i ∧ GapFree look (pre ++ [i]) s := by
  constructor
  · intro h
    refine ⟨?_, ?_⟩
    · have := h [] i s rfl
      rw [List.append_nil] at this
      exact this
    · intro b j a e
      have := h (i :: b) j a (by rw [e]; rfl)
      rw [List.append_assoc]
      exact this
  · rintro ⟨h1, h2⟩ b j a e
    cases b with
    | nil =>
      injection e with e1 e2
      rw [List.append_nil, ← e1]
      exact h1
    | cons x b =>
      injection e with e1 e2
      have := h2 b j a e2
      rw [List.append_assoc] at this
      rw [← e1]
      exact this

theorem gapless_iff (look : Nat) (s : List Nat) : Gapless look s ↔ GapFree look [] s := Iff.rfl

/-- the account has marked the keys with the indices in `pre` and no others -/
def Track (c : Chains) (pre : Purpose → List Nat) : Prop := ∀ p, (c.leaf p).usage.used = maxOf (pre p)

theorem markOutput_pay {env : Env} (hi : env.Inj) {look} (hl : look < maxKeys) (txs : BMap Nat Tx) {c} (h : CGood env look c) (d : Dest) :
    ∃ r, markOutput env txs c (.pay d) = .ok r ∧ CGood env look r.1 ∧ r.2 = (own c d).isSome ∧
      ∀ p, (r.1.leaf p).usage.used = bump (c.leaf p).usage.used p (own c d) := by
  have e : markOutput env txs c (.pay d) = markDests env c [d] := rfl
  rw [e, markDests_cons]
  by_cases ea : d = .anyone
  · subst ea
    rw [if_pos rfl]
    have : own c .anyone = none := rfl
    rw [this]
    exact ⟨(c, false), rfl, h, rfl, fun p => rfl⟩
  · rw [if_neg ea]
    obtain ⟨r, h1, h2, h3, h4, _⟩ := mark_ok hi hl h d
    rw [h1]
    refine ⟨r, ?_, h2, h3, h4⟩
    show (if r.2 = true then Except.ok (r.1, true) else Except.ok (r.1, false)) = Except.ok r
    obtain ⟨x, y⟩ := r
    cases y <;> rfl

/-- one payment: it is found if its key is within reach, and then the key is marked -/
theorem pay_own {env : Env} (hi : env.Inj) {look} {c} (h : CGood env look c) {pre : Purpose → List Nat} (ht : Track c pre) {d : Dest} {p i}
    (hp : PaysTo env d p i) : (Within look (pre p) i → own c d = some (p, i)) ∧ (¬ Within look (pre p) i → own c d = none) := by
  have hw := within_iff (look := look) (pre p) hp.1
  rw [← ht p] at hw
  constructor
  · intro hh
    exact (own_iff hi h d p i).2 ⟨hw.2 hh, hp⟩
  · intro hh
    cases ho : own c d with
    | none => rfl
    | some x =>
      obtain ⟨q, j⟩ := x
      obtain ⟨h1, h2⟩ := (own_iff hi h d q j).1 ho
      obtain ⟨e1, e2⟩ := paysTo_unique hi h2 hp
      subst e1; subst e2
      exact absurd (hw.1 h1) hh

theorem pay_foreign {env : Env} (hi : env.Inj) {look} {c} (h : CGood env look c) {d : Dest} (hp : ∀ p i, ¬ PaysTo env d p i) : own c d = none := by
  cases ho : own c d with
  | none => rfl
  | some x =>
    obtain ⟨q, j⟩ := x
    exact absurd ((own_iff hi h d q j).1 ho).2 (hp q j)

/-- the indices after one more key -/
def addIdx (pre : Purpose → List Nat) (p : Purpose) (i : Nat) : Purpose → List Nat := fun q => if p = q then pre q ++ [i] else pre q

theorem track_own {c c' : Chains} {pre : Purpose → List Nat} (ht : Track c pre) {p i}
    (hu : ∀ q, (c'.leaf q).usage.used = bump (c.leaf q).usage.used q (some (p, i))) : Track c' (addIdx pre p i) := by
  intro q
  rw [hu q]
  unfold addIdx bump
  simp only
  split
  · rw [maxOf_snoc, ht q]; rfl
  · exact ht q

theorem track_none {c c' : Chains} {pre : Purpose → List Nat} (ht : Track c pre)
    (hu : ∀ q, (c'.leaf q).usage.used = bump (c.leaf q).usage.used q none) : Track c' pre := by
  intro q
  rw [hu q]
  exact ht q

/-- the indices of a list of destinations, for both chains: the first is the key of at most one of them -/
theorem indices_cons {env : Env} (hi : env.Inj) {d ds} {s : Purpose → List Nat} (h : ∀ p, Indices env p (d :: ds) (s p)) :
    (∃ (p : Purpose) (i : Nat) (s' : Purpose → List Nat), PaysTo env d p i ∧ s p = i :: s' p ∧ (∀ q, q ≠ p → s q = s' q) ∧ ∀ q, Indices env q ds (s' q)) ∨
    ((∀ p i, ¬ PaysTo env d p i) ∧ ∀ q, Indices env q ds (s q)) := by
  by_cases hex : ∃ p i, PaysTo env d p i
  · left
    obtain ⟨p, i, hp⟩ := hex
    have hq : ∀ q, q ≠ p → Indices env q ds (s q) := by
      intro q hne
      have hq := h q
      generalize s q = l at hq
      cases hq with
      | own hp' _ => exact absurd (paysTo_unique hi hp' hp).1 hne
      | foreign _ hr => exact hr
    have hpp : ∃ l, s p = i :: l ∧ Indices env p ds l := by
      have hp2 := h p
      generalize s p = l at hp2
      cases hp2 with
      | own hp' hr => rw [(paysTo_unique hi hp' hp).2]; exact ⟨_, rfl, hr⟩
      | foreign hf _ => exact absurd hp (hf i)
    obtain ⟨l, e, hl⟩ := hpp
    refine ⟨p, i, fun q => if q = p then l else s q, hp, ?_, ?_, ?_⟩
    · simp only [if_true]; exact e
    · intro q hne; simp only [if_neg hne]
    · intro q
      by_cases e : q = p
      · subst e; simp only [if_true]; exact hl
      · simp only [if_neg e]; exact hq q e
  · right
    have hf : ∀ p i, ¬ PaysTo env d p i := fun p i hp => hex ⟨p, i, hp⟩
    refine ⟨hf, ?_⟩
    intro q
    have hq := h q
    generalize s q = l at hq
    cases hq with
    | own hp' _ => exact absurd hp' (hf _ _)
    | foreign _ hr => exact hr

theorem gapFree_split {look : Nat} {pre s : Purpose → List Nat} {p i} {s' : Purpose → List Nat} (e : s p = i :: s' p) (hq : ∀ q, q ≠ p → s q = s' q) :
    (∀ q, GapFree look (pre q) (s q)) ↔ Within look (pre p) i ∧ ∀ q, GapFree look (addIdx pre p i q) (s' q) := by
  constructor
  · intro h
    have hp := h p
    rw [e, gapFree_cons] at hp
    refine ⟨hp.1, ?_⟩
    intro q
    unfold addIdx
    by_cases eq : p = q
    · subst eq; rw [if_pos rfl]; exact hp.2
    · rw [if_neg eq, ← hq q (fun x => eq x.symm)]; exact h q
  · rintro ⟨h1, h2⟩ q
    have hq2 := h2 q
    unfold addIdx at hq2
    by_cases eq : p = q
    · subst eq
      rw [if_pos rfl] at hq2
      rw [e, gapFree_cons]
      exact ⟨h1, hq2⟩
    · rw [if_neg eq] at hq2
      rw [hq q (fun x => eq x.symm)]
      exact hq2

/-- an output that pays to some key of the wallet -/
def OwnDest (env : Env) (d : Dest) : Prop := ∃ p i, PaysTo env d p i

/-- payments without a gap are all found -/
theorem markOutputs_gap {env : Env} (hi : env.Inj) {look} (hl : look < maxKeys) (txs : BMap Nat Tx) (more : List Dest) : ∀ (ds : List Dest) {c : Chains} {pre s : Purpose → List Nat},
    CGood env look c → Track c pre → (∀ p, Indices env p (ds ++ more) (s p)) → (∀ p, GapFree look (pre p) (s p)) →
    ∃ (r : Chains × Bool) (pre' s' : Purpose → List Nat), markOutputs env txs c (ds.map .pay) = .ok r ∧ ((∃ d ∈ ds, OwnDest env d) → r.2 = true) ∧ CGood env look r.1 ∧ Track r.1 pre' ∧
      (∀ p, Indices env p more (s' p)) ∧ ∀ p, GapFree look (pre' p) (s' p)
  | [], c, pre, s, h, ht, hs, hg => by
    refine ⟨(c, false), pre, s, rfl, ?_, h, ht, hs, hg⟩
    rintro ⟨d, hd, _⟩
    cases hd
  | d :: ds, c, pre, s, h, ht, hs, hg => by
    obtain ⟨r, h1, h2, h3, h4⟩ := markOutput_pay hi hl txs h d
    have key : ∃ (pre1 s1 : Purpose → List Nat), Track r.1 pre1 ∧ (∀ p, Indices env p (ds ++ more) (s1 p)) ∧ (∀ p, GapFree look (pre1 p) (s1 p)) ∧ (OwnDest env d → r.2 = true) := by
      rcases indices_cons hi hs with ⟨p, i, s', k1, k2, k3, k4⟩ | ⟨k1, k2⟩
      · obtain ⟨g1, g2⟩ := (gapFree_split k2 k3).1 hg
        have ho := (pay_own hi h ht k1).1 g1
        rw [ho] at h3 h4
        exact ⟨addIdx pre p i, s', track_own ht h4, k4, g2, fun _ => h3⟩
      · have ho := pay_foreign hi h k1
        rw [ho] at h3 h4
        refine ⟨pre, s, track_none ht h4, k2, hg, ?_⟩
        rintro ⟨p, i, hp⟩
        exact absurd hp (k1 p i)
    obtain ⟨pre1, s1, t1, t2, t3, t4⟩ := key
    obtain ⟨q, pre2, s2, u1, u2, u3, u4, u5, u6⟩ := markOutputs_gap hi hl txs more ds h2 t1 t2 t3
    refine ⟨(q.1, r.2 || q.2), pre2, s2, ?_, ?_, u3, u4, u5, u6⟩
    · rw [List.map_cons, markOutputs, h1]
      show (markOutputs env txs r.1 (ds.map .pay) >>= _) = _
      rw [u1]
      rfl
    · rintro ⟨x, hx, ho⟩
      rcases List.mem_cons.1 hx with e | hx
      · rw [e] at ho
        show (r.2 || q.2) = true
        rw [t4 ho, Bool.true_or]
      · show (r.2 || q.2) = true
        rw [u2 ⟨x, hx, ho⟩, Bool.or_true]

theorem onlyPays_outs {t : Tx} (h : OnlyPays t) : t.outs = (payDests t).map .pay := by
  unfold OnlyPays at h
  unfold payDests
  revert h
  generalize t.outs = os
  induction os with
  | nil => intro _; rfl
  | cons o os ih =>
    intro h
    obtain ⟨d, e⟩ := h o List.mem_cons_self
    subst e
    have := ih (fun o ho => h o (List.mem_cons_of_mem _ ho))
    rw [List.filterMap_cons]
    simp only [List.map_cons]
    rw [← this]

/-- a chain of payments without a gap is recorded completely -/
theorem scan_gap {env : Env} (hi : env.Inj) {look} (hl : look < maxKeys) (test : CmdTest) : ∀ (txs : List Tx), (∀ t ∈ txs, OnlyPays t) → ∀ {a : Account} {pre s : Purpose → List Nat},
    CGood env look a.chains → Track a.chains pre → (∀ p, Indices env p (txs.flatMap payDests) (s p)) → (∀ p, GapFree look (pre p) (s p)) →
    ∃ b flags, a.scan env test txs = .ok (b, flags) ∧ List.Forall₂ (fun t f => (∃ d ∈ payDests t, OwnDest env d) → f = true) txs flags ∧
      (∀ t ∈ txs, (∃ d ∈ payDests t, OwnDest env d) → b.txs.contains t.id = true) ∧ ∀ i, a.txs.contains i = true → b.txs.contains i = true
  | [], _, a, pre, s, h, ht, hs, hg => ⟨a, [], rfl, List.Forall₂.nil, fun t ht => (nomatch ht), fun _ hh => hh⟩
  | t :: rest, hp, a, pre, s, h, ht, hs, hg => by
    rw [List.flatMap_cons] at hs
    obtain ⟨r, pre1, s1, h1, h2, h3, h4, h5, h6⟩ := markOutputs_gap hi hl a.txs (rest.flatMap payDests) (payDests t) h ht hs hg
    rw [← onlyPays_outs (hp t List.mem_cons_self)] at h1
    let f := t.ins.any (a.inputMine test) || r.2
    let a1 : Account := ⟨r.1, if f then a.txs.insert t.id t else a.txs⟩
    have hs1 : a.scanTx env test t = .ok (a1, f) := by
      unfold Account.scanTx
      simp only [h1]
      rfl
    obtain ⟨b, flags, k1, k2, k3, k4⟩ := scan_gap hi hl test rest (fun t ht => hp t (List.mem_cons_of_mem _ ht)) (a := a1) h3 h4 h5 h6
    have hf : (∃ d ∈ payDests t, OwnDest env d) → f = true := by
      intro ho
      show (t.ins.any (a.inputMine test) || r.2) = true
      rw [h2 ho, Bool.or_true]
    have hmono : ∀ i, a.txs.contains i = true → a1.txs.contains i = true := by
      intro i hi
      show (if f then a.txs.insert t.id t else a.txs).contains i = true
      split
      · unfold BMap.contains at hi ⊢
        rw [BMap.get_insert]
        split
        · rfl
        · exact hi
      · exact hi
    refine ⟨b, f :: flags, ?_, List.Forall₂.cons hf k2, ?_, fun i hi => k4 i (hmono i hi)⟩
    · rw [Account.scan, hs1]
      show (Account.scan env test a1 rest >>= _) = _
      rw [k1]
      rfl
    · intro x hx ho
      rcases List.mem_cons.1 hx with e | hx
      · subst e
        apply k4
        show (if f then a.txs.insert x.id x else a.txs).contains x.id = true
        rw [if_pos (hf ho)]
        unfold BMap.contains
        rw [BMap.get_insert, if_pos rfl]
        rfl
      · exact k3 x hx ho

/-- the payments of transactions that pay one destination each -/
theorem scan_payTx {env : Env} (hi : env.Inj) {look} (hl : look < maxKeys) (test : CmdTest) : ∀ (ps : List (Nat × Dest)) {a : Account} {pre s : Purpose → List Nat},
    CGood env look a.chains → Track a.chains pre → (∀ p, Indices env p (ps.map (·.2)) (s p)) →
    ∃ b flags, a.scan env test (ps.map fun x => payTx x.1 x.2) = .ok (b, flags) ∧
      (List.Forall₂ (fun x f => OwnDest env x.2 → f = true) ps flags ↔ ∀ p, GapFree look (pre p) (s p))
  | [], a, pre, s, h, ht, hs => by
    refine ⟨a, [], rfl, ⟨fun _ p => ?_, fun _ => List.Forall₂.nil⟩⟩
    have := hs p
    generalize s p = l at this
    cases this
    exact gapFree_nil _ _
  | (id, d) :: rest, a, pre, s, h, ht, hs => by
    obtain ⟨r, h1, h2, h3, h4⟩ := markOutput_pay hi hl a.txs h d
    let a1 : Account := ⟨r.1, if r.2 then a.txs.insert id (payTx id d) else a.txs⟩
    have hs1 : a.scanTx env test (payTx id d) = .ok (a1, r.2) := by
      unfold Account.scanTx
      have : markOutputs env a.txs a.chains (payTx id d).outs = .ok r := by
        show markOutputs env a.txs a.chains [.pay d] = .ok r
        rw [markOutputs, h1]
        show Except.ok (r.1, r.2 || false) = _
        rw [Bool.or_false]
      simp only [this]
      rfl
    have fin : ∀ {pre1 s1 : Purpose → List Nat}, Track a1.chains pre1 → (∀ p, Indices env p (rest.map (·.2)) (s1 p)) →
        (((OwnDest env d → r.2 = true) ∧ ∀ p, GapFree look (pre1 p) (s1 p)) ↔ ∀ p, GapFree look (pre p) (s p)) →
        ∃ b flags, a.scan env test (((id, d) :: rest).map fun x => payTx x.1 x.2) = .ok (b, flags) ∧
          (List.Forall₂ (fun x f => OwnDest env x.2 → f = true) ((id, d) :: rest) flags ↔ ∀ p, GapFree look (pre p) (s p)) := by
      intro pre1 s1 t1 t2 t3
      obtain ⟨b, flags, k1, k2⟩ := scan_payTx hi hl test rest (a := a1) h2 t1 t2
      refine ⟨b, r.2 :: flags, ?_, ?_⟩
      · rw [List.map_cons, Account.scan, hs1]
        show (Account.scan env test a1 (rest.map fun x => payTx x.1 x.2) >>= _) = _
        rw [k1]
        rfl
      · rw [List.forall₂_cons, k2]
        exact t3
    rcases indices_cons hi hs with ⟨p, i, s', k1, k2, k3, k4⟩ | ⟨k1, k2⟩
    · by_cases hw : Within look (pre p) i
      · have ho := (pay_own hi h ht k1).1 hw
        rw [ho] at h3 h4
        refine fin (track_own ht h4) k4 ?_
        rw [gapFree_split k2 k3]
        exact ⟨fun ⟨_, g⟩ => ⟨hw, g⟩, fun ⟨_, g⟩ => ⟨fun _ => h3, g⟩⟩
      · have ho := (pay_own hi h ht k1).2 hw
        rw [ho] at h3 h4
        refine fin (track_none ht h4) k4 ?_
        rw [gapFree_split k2 k3]
        constructor
        · rintro ⟨g1, _⟩
          have := g1 ⟨p, i, k1⟩
          rw [h3] at this
          cases this
        · rintro ⟨g1, _⟩
          exact absurd g1 hw
    · have ho := pay_foreign hi h k1
      rw [ho] at h3 h4
      refine fin (track_none ht h4) k2 ?_
      constructor
      · exact fun ⟨_, g⟩ => g
      · intro g
        refine ⟨?_, g⟩
        rintro ⟨p, i, hp⟩
        exact absurd hp (k1 p i)

end Verif.KeyChain
