import Verif.KeyChain.Inv

/-!
# Which destinations are recognised depends on the last used keys only
-/

namespace Verif.KeyChain
open Verif

/-- both chains are in order -/
structure CGood (env : Env) (look : Nat) (c : Chains) : Prop where
  lookEq : c.look = look
  good : ∀ p, Good env p look (c.leaf p)

/-- the key a destination pays to, among those that are known -/
def own (c : Chains) (d : Dest) : Option (Purpose × Nat) :=
  match c.receive.find d with
  | some i => some (.receive, i)
  | none =>
    match c.change.find d with
    | some i => some (.change, i)
    | none => none

/-- the last used key of the chain of `p` after the key `o` was marked -/
def bump (u : Option Nat) (p : Purpose) : Option (Purpose × Nat) → Option Nat
  | none => u
  | some (q, i) => if q = p then some (match u with | none => i | some v => max v i) else u

/-- what was issued stays issued -/
def IssuedLe (c c' : Chains) : Prop :=
  ∀ p w, (c.leaf p).usage.issued = some w → ∃ w', (c'.leaf p).usage.issued = some w' ∧ w ≤ w'

theorem IssuedLe.refl (c : Chains) : IssuedLe c c := fun _ w h => ⟨w, h, Nat.le_refl _⟩

theorem IssuedLe.trans {a b c : Chains} (h : IssuedLe a b) (h' : IssuedLe b c) : IssuedLe a c := by
  intro p w hw
  obtain ⟨w', h1, h2⟩ := h p w hw
  obtain ⟨w'', h3, h4⟩ := h' p w' h1
  exact ⟨w'', h3, Nat.le_trans h2 h4⟩

theorem leaf_setLeaf (c : Chains) (p q : Purpose) (l : Leaf) : (c.setLeaf p l).leaf q = if q = p then l else c.leaf q := by
  cases p <;> cases q <;> rfl

theorem find_good {env : Env} {p look l} (h : Good env p look l) (d : Dest) (i : Nat) (hi : env.Inj) :
    l.find d = some i ↔ i < width look l.usage.used ∧ PaysTo env d p i := by
  have hw := width_le look l.usage.used
  unfold PaysTo
  cases d with
  | pubKey k =>
    show l.byKey.get k = some i ↔ _
    rw [h.filled.byKey]
    constructor
    · rintro ⟨h1, h2⟩; exact ⟨h1, by omega, Or.inl (by rw [h2])⟩
    · rintro ⟨h1, _, h2 | h2⟩
      · cases h2; exact ⟨h1, rfl⟩
      · cases h2
  | pubKeyHash k =>
    show l.byHash.get k = some i ↔ _
    rw [h.filled.byHash]
    constructor
    · rintro ⟨h1, h2⟩; exact ⟨h1, by omega, Or.inr (by rw [h2])⟩
    · rintro ⟨h1, _, h2 | h2⟩
      · cases h2
      · cases h2; exact ⟨h1, rfl⟩
  | anyone =>
    constructor
    · intro h; cases h
    · rintro ⟨_, _, h2 | h2⟩ <;> cases h2
  | script k =>
    constructor
    · intro h; cases h
    · rintro ⟨_, _, h2 | h2⟩ <;> cases h2
  | multisig k =>
    constructor
    · intro h; cases h
    · rintro ⟨_, _, h2 | h2⟩ <;> cases h2

theorem isMine_find (l : Leaf) (d : Dest) : l.isMine d = (l.find d).isSome := by
  cases d <;> rfl

theorem paysTo_unique {env : Env} (hi : env.Inj) {d p q i j} (h : PaysTo env d p i) (h' : PaysTo env d q j) : p = q ∧ i = j := by
  obtain ⟨h1, h2⟩ := h
  obtain ⟨h3, h4⟩ := h'
  rcases h2 with h2 | h2 <;> rcases h4 with h4 | h4 <;> rw [h2] at h4
  · injection h4 with h5
    exact hi p q i j h1 h3 (by rw [h5])
  · cases h4
  · cases h4
  · injection h4 with h5
    exact hi p q i j h1 h3 h5

theorem own_iff {env : Env} (hi : env.Inj) {look c} (h : CGood env look c) (d : Dest) (p : Purpose) (i : Nat) :
    own c d = some (p, i) ↔ i < width look (c.leaf p).usage.used ∧ PaysTo env d p i := by
  have hr := fun i => find_good (h.good .receive) d i hi
  have hc := fun i => find_good (h.good .change) d i hi
  unfold own
  have er : (c.leaf .receive) = c.receive := rfl
  have ec : (c.leaf .change) = c.change := rfl
  rw [er] at hr
  rw [ec] at hc
  cases h1 : c.receive.find d with
  | some j =>
    have := (hr j).1 h1
    constructor
    · intro e; cases e; exact this
    · rintro ⟨h2, h3⟩
      obtain ⟨e1, e2⟩ := paysTo_unique hi this.2 h3
      rw [e1, e2]
  | none =>
    cases h2 : c.change.find d with
    | some j =>
      have := (hc j).1 h2
      constructor
      · intro e; cases e; exact this
      · rintro ⟨h3, h4⟩
        obtain ⟨e1, e2⟩ := paysTo_unique hi this.2 h4
        rw [e1, e2]
    | none =>
      constructor
      · intro e; cases e
      · rintro ⟨h3, h4⟩
        cases p with
        | receive => rw [(hr i).2 ⟨h3, h4⟩] at h1; cases h1
        | change => rw [(hc i).2 ⟨h3, h4⟩] at h2; cases h2

theorem isMine_own (c : Chains) (d : Dest) : c.isMine d = (own c d).isSome := by
  unfold Chains.isMine own
  rw [isMine_find, isMine_find]
  cases c.receive.find d with
  | some _ => rfl
  | none => cases c.change.find d <;> rfl

/-- marking a destination never fails; its effect -/
theorem mark_ok {env : Env} (hi : env.Inj) {look} (hl : look < maxKeys) {c} (h : CGood env look c) (d : Dest) :
    ∃ r, c.mark env d = .ok r ∧ CGood env look r.1 ∧ r.2 = (own c d).isSome ∧
      (∀ p, (r.1.leaf p).usage.used = bump (c.leaf p).usage.used p (own c d)) ∧ IssuedLe c r.1 := by
  have hle : ∀ (l l' : Leaf) (i : Nat), (∀ v, l.usage.used = some v → ∃ w, l.usage.issued = some w ∧ v ≤ w) → l'.usage = l.usage.use i →
      ∀ w, l.usage.issued = some w → ∃ w', l'.usage.issued = some w' ∧ w ≤ w' := by
    intro l l' i hu e w hw
    rw [e, use_issued _ _ hu, hw]
    exact ⟨_, rfl, Nat.le_max_left _ _⟩
  unfold Chains.mark own
  have gr := h.good .receive
  have gc := h.good .change
  cases h1 : c.receive.find d with
  | some i =>
    obtain ⟨l', e1, e2, e3⟩ := markIndex_good hi hl gr ((find_good gr d i hi).1 h1).1
    have e1 : c.receive.markIndex env i look = .ok l' := e1
    refine ⟨({ c with receive := l' }, true), ?_, ⟨h.lookEq, ?_⟩, rfl, ?_, ?_⟩
    · simp only [h.lookEq, e1]; rfl
    · intro p
      cases p with
      | receive => exact e2
      | change => exact gc
    · intro p
      cases p with
      | receive =>
        show l'.usage.used = _
        rw [e3, use_used]; rfl
      | change => rfl
    · intro p w hw
      cases p with
      | receive => exact hle _ _ i (fun v hv => (gr.used v hv).2) e3 w hw
      | change => exact ⟨w, hw, Nat.le_refl _⟩
  | none =>
    cases h2 : c.change.find d with
    | some i =>
      obtain ⟨l', e1, e2, e3⟩ := markIndex_good hi hl gc ((find_good gc d i hi).1 h2).1
      have e1 : c.change.markIndex env i look = .ok l' := e1
      refine ⟨({ c with change := l' }, true), ?_, ⟨h.lookEq, ?_⟩, rfl, ?_, ?_⟩
      · simp only [h.lookEq, e1]; rfl
      · intro p
        cases p with
        | receive => exact gr
        | change => exact e2
      · intro p
        cases p with
        | receive => rfl
        | change =>
          show l'.usage.used = _
          rw [e3, use_used]; rfl
      · intro p w hw
        cases p with
        | receive => exact ⟨w, hw, Nat.le_refl _⟩
        | change => exact hle _ _ i (fun v hv => (gc.used v hv).2) e3 w hw
    | none => exact ⟨(c, false), rfl, h, rfl, fun p => rfl, IssuedLe.refl c⟩

/-- the same last used keys -/
structure Sim (env : Env) (look : Nat) (c c' : Chains) : Prop where
  left : CGood env look c
  right : CGood env look c'
  used : ∀ p, (c.leaf p).usage.used = (c'.leaf p).usage.used

theorem Sim.refl {env : Env} {look c} (h : CGood env look c) : Sim env look c c := ⟨h, h, fun _ => rfl⟩

theorem own_sim {env : Env} (hi : env.Inj) {look c c'} (h : Sim env look c c') (d : Dest) : own c d = own c' d := by
  apply Option.ext
  rintro ⟨p, i⟩
  rw [own_iff hi h.left, own_iff hi h.right, h.used]

theorem isMine_sim {env : Env} (hi : env.Inj) {look c c'} (h : Sim env look c c') : c.isMine = c'.isMine := by
  funext d
  rw [isMine_own, isMine_own, own_sim hi h]

/-- two results that agree -/
structure Same (env : Env) (look : Nat) (c c' : Chains) (x y : Except Err (Chains × Bool)) : Prop where
  ex : ∃ r r', x = .ok r ∧ y = .ok r' ∧ r.2 = r'.2 ∧ Sim env look r.1 r'.1 ∧ IssuedLe c r.1 ∧ IssuedLe c' r'.1

theorem mark_sim {env : Env} (hi : env.Inj) {look} (hl : look < maxKeys) {c c'} (h : Sim env look c c') (d : Dest) :
    Same env look c c' (c.mark env d) (c'.mark env d) := by
  obtain ⟨r, h1, h2, h3, h4, h5⟩ := mark_ok hi hl h.left d
  obtain ⟨r', k1, k2, k3, k4, k5⟩ := mark_ok hi hl h.right d
  refine ⟨r, r', h1, k1, ?_, ⟨h2, k2, ?_⟩, h5, k5⟩
  · rw [h3, k3, own_sim hi h]
  · intro p; rw [h4, k4, own_sim hi h, h.used]

theorem markDests_cons {env : Env} (c : Chains) (d : Dest) (rest : List Dest) : markDests env c (d :: rest) =
    if d = .anyone then .ok (c, false) else (do
      let r ← c.mark env d
      if r.2 then .ok (r.1, true) else markDests env r.1 rest) := by
  cases d <;> rfl

theorem markDests_sim {env : Env} (hi : env.Inj) {look} (hl : look < maxKeys) : ∀ (ds : List Dest) {c c'}, Sim env look c c' →
    Same env look c c' (markDests env c ds) (markDests env c' ds)
  | [], c, c', h => ⟨(c, false), (c', false), rfl, rfl, rfl, h, IssuedLe.refl _, IssuedLe.refl _⟩
  | d :: rest, c, c', h => by
    rw [markDests_cons, markDests_cons]
    by_cases e : d = .anyone
    · rw [if_pos e, if_pos e]
      exact ⟨(c, false), (c', false), rfl, rfl, rfl, h, IssuedLe.refl _, IssuedLe.refl _⟩
    · rw [if_neg e, if_neg e]
      obtain ⟨r, r', h1, h2, h3, h4, h5, h6⟩ := (mark_sim hi hl h d).ex
      rw [h1, h2]
      by_cases ef : r.2 = true
      · refine ⟨(r.1, true), (r'.1, true), ?_, ?_, rfl, h4, h5, h6⟩
        · show (if r.2 = true then _ else _) = _
          rw [if_pos ef]
        · show (if r'.2 = true then _ else _) = _
          rw [if_pos (h3 ▸ ef)]
      · obtain ⟨s, s', k1, k2, k3, k4, k5, k6⟩ := (markDests_sim hi hl rest h4).ex
        refine ⟨s, s', ?_, ?_, k3, k4, h5.trans k5, h6.trans k6⟩
        · show (if r.2 = true then _ else _) = _
          rw [if_neg ef]; exact k1
        · show (if r'.2 = true then _ else _) = _
          rw [if_neg (h3 ▸ ef)]; exact k2

theorem markPool_sim {env : Env} (hi : env.Inj) {look} (hl : look < maxKeys) (o : Output) {c c'} (h : Sim env look c c') :
    ∃ s s', markPool env c o = .ok s ∧ markPool env c' o = .ok s' ∧ Sim env look s s' ∧ IssuedLe c s ∧ IssuedLe c' s' := by
  cases o with
  | pool i d st =>
    obtain ⟨r, r', h1, h2, h3, h4, h5, h6⟩ := (mark_sim hi hl h d).ex
    refine ⟨r.1, r'.1, ?_, ?_, h4, h5, h6⟩
    · unfold markPool; simp only [h1]; rfl
    · unfold markPool; simp only [h2]; rfl
  | _ => exact ⟨c, c', rfl, rfl, h, IssuedLe.refl _, IssuedLe.refl _⟩

theorem markOutput_sim {env : Env} (hi : env.Inj) {look} (hl : look < maxKeys) (txs : BMap Nat Tx) (o : Output) {c c'} (h : Sim env look c c') :
    Same env look c c' (markOutput env txs c o) (markOutput env txs c' o) := by
  obtain ⟨s, s', h1, h2, h3, h4, h5⟩ := markPool_sim hi hl o h
  obtain ⟨r, r', k1, k2, k3, k4, k5, k6⟩ := (markDests_sim hi hl (collect txs o) h3).ex
  refine ⟨r, r', ?_, ?_, k3, k4, h4.trans k5, h5.trans k6⟩
  · unfold markOutput; rw [h1]; exact k1
  · unfold markOutput; rw [h2]; exact k2

theorem markOutputs_sim {env : Env} (hi : env.Inj) {look} (hl : look < maxKeys) (txs : BMap Nat Tx) : ∀ (os : List Output) {c c'}, Sim env look c c' →
    Same env look c c' (markOutputs env txs c os) (markOutputs env txs c' os)
  | [], c, c', h => ⟨(c, false), (c', false), rfl, rfl, rfl, h, IssuedLe.refl _, IssuedLe.refl _⟩
  | o :: rest, c, c', h => by
    obtain ⟨r, r', h1, h2, h3, h4, h5, h6⟩ := (markOutput_sim hi hl txs o h).ex
    obtain ⟨s, s', k1, k2, k3, k4, k5, k6⟩ := (markOutputs_sim hi hl txs rest h4).ex
    refine ⟨(s.1, r.2 || s.2), (s'.1, r'.2 || s'.2), ?_, ?_, by rw [h3, k3], k4, h5.trans k5, h6.trans k6⟩
    · rw [markOutputs, h1]
      show (markOutputs env txs r.1 rest >>= _) = _
      rw [k1]; rfl
    · rw [markOutputs, h2]
      show (markOutputs env txs r'.1 rest >>= _) = _
      rw [k2]; rfl

/-- two accounts that recognise the same destinations and have recorded the same transactions -/
structure ASim (env : Env) (look : Nat) (a b : Account) : Prop where
  chains : Sim env look a.chains b.chains
  txs : a.txs = b.txs

theorem ASim.refl {env : Env} {look a} (h : CGood env look a.chains) : ASim env look a a := ⟨Sim.refl h, rfl⟩

theorem inputMine_sim {env : Env} (hi : env.Inj) {look} (test : CmdTest) {a b : Account} (h : ASim env look a b) : a.inputMine test = b.inputMine test := by
  have hm := isMine_sim hi h.chains
  have ho : a.isMine = b.isMine := by
    funext o
    unfold Account.isMine
    rw [h.txs, hm]
  funext i
  cases i with
  | utxo tx idx => unfold Account.inputMine; rw [h.txs, ho]
  | delegation id => unfold Account.inputMine; rw [h.txs, hm]
  | cmd c => unfold Account.inputMine; rw [h.txs, hm]

theorem scanTx_sim {env : Env} (hi : env.Inj) {look} (hl : look < maxKeys) (test : CmdTest) (t : Tx) {a b : Account} (h : ASim env look a b) :
    ∃ r r', a.scanTx env test t = .ok r ∧ b.scanTx env test t = .ok r' ∧ r.2 = r'.2 ∧ ASim env look r.1 r'.1 ∧ IssuedLe a.chains r.1.chains := by
  obtain ⟨r, r', h1, h2, h3, h4, h5, h6⟩ := (markOutputs_sim hi hl a.txs t.outs h.chains).ex
  have hin := inputMine_sim hi test h
  refine ⟨(⟨r.1, if t.ins.any (a.inputMine test) || r.2 then a.txs.insert t.id t else a.txs⟩, t.ins.any (a.inputMine test) || r.2),
    (⟨r'.1, if t.ins.any (b.inputMine test) || r'.2 then b.txs.insert t.id t else b.txs⟩, t.ins.any (b.inputMine test) || r'.2), ?_, ?_, ?_, ⟨h4, ?_⟩, h5⟩
  · unfold Account.scanTx; simp only [h1]; rfl
  · unfold Account.scanTx; rw [← h.txs]; simp only [h2]; rfl
  · simp only [hin, h3]
  · simp only [hin, h3, h.txs]

/-! ## Histories -/

/-- what was given to the user -/
structure GivenOk (env : Env) (a : Account) (g : Given) : Prop where
  eq : g.2 = ⟨g.2.index, env.key g.1 g.2.index, env.hash (env.key g.1 g.2.index)⟩
  le : ∃ w, (a.chains.leaf g.1).usage.issued = some w ∧ g.2.index ≤ w

theorem GivenOk.mono {env : Env} {a b : Account} {g} (h : GivenOk env a g) (hl : IssuedLe a.chains b.chains) : GivenOk env b g := by
  obtain ⟨w, h1, h2⟩ := h.le
  obtain ⟨w', h3, h4⟩ := hl _ w h1
  exact ⟨h.eq, w', h3, Nat.le_trans h2 h4⟩

theorem load_chains {env : Env} (hi : env.Inj) {look c} (h : CGood env look c) : Chains.load env c.receive.db c.change.db c.look = .ok c := by
  unfold Chains.load
  have h1 : Leaf.load env .receive c.receive.db = .ok c.receive := load_good hi (h.good .receive)
  have h2 : Leaf.load env .change c.change.db = .ok c.change := load_good hi (h.good .change)
  simp only [h1, h2]
  rfl

theorem setLeaf_issue {env : Env} {look c} (h : CGood env look c) {p : Purpose} {l : Leaf} {i : Nat} (hg : Good env p look l)
    (hu : l.usage = (c.leaf p).usage.issue i ∨ l = c.leaf p) :
    Sim env look (c.setLeaf p l) c ∧ IssuedLe c (c.setLeaf p l) := by
  refine ⟨⟨⟨?_, ?_⟩, h, ?_⟩, ?_⟩
  · cases p <;> exact h.lookEq
  · intro q
    rw [leaf_setLeaf]
    split
    · rename_i e; rw [e]; exact hg
    · exact h.good q
  · intro q
    rw [leaf_setLeaf]
    split
    · rename_i e
      rcases hu with hu | hu
      · rw [hu, issue_used, e]
      · rw [hu, e]
    · rfl
  · intro q w hw
    rw [leaf_setLeaf]
    split
    · rename_i e
      rw [e] at hw
      rcases hu with hu | hu
      · rw [hu, issue_issued, hw]
        exact ⟨_, rfl, Nat.le_max_left _ _⟩
      · rw [hu]; exact ⟨w, hw, Nat.le_refl _⟩
    · exact ⟨w, hw, Nat.le_refl _⟩

theorem issue_step {env : Env} {look c} (h : CGood env look c) {p : Purpose} {r : Chains × Issued} (hr : c.issue env p = .ok r) :
    Sim env look r.1 c ∧ IssuedLe c r.1 ∧ r.2 = ⟨r.2.index, env.key p r.2.index, env.hash (env.key p r.2.index)⟩ ∧
    r.2.index = (match (c.leaf p).usage.issued with | none => 0 | some w => w + 1) ∧ (r.1.leaf p).usage.issued = some r.2.index ∧
    r.2.index < width look (c.leaf p).usage.used := by
  unfold Chains.issue at hr
  simp only [bind_eq_ok] at hr
  obtain ⟨x, hx, hr⟩ := hr
  rw [h.lookEq] at hx
  obtain ⟨h1, h2, h3, h4, h5⟩ := issueNew_ok (h.good p) hx
  cases hr
  have hu : x.1.usage = (c.leaf p).usage.issue x.2.index := by rw [h5]; rfl
  obtain ⟨k1, k2⟩ := setLeaf_issue h h1 (Or.inl hu)
  refine ⟨k1, k2, h2, h4, ?_, h3⟩
  rw [leaf_setLeaf, if_pos rfl, hu, issue_issued]
  congr 1
  have h4 : x.2.index = _ := h4
  cases hw : (c.leaf p).usage.issued with
  | none => rfl
  | some w =>
    rw [hw] at h4
    simp only at h4
    show max w x.2.index = x.2.index
    omega

theorem next_step {env : Env} {look c} (hl : 1 ≤ look) (h : CGood env look c) {p : Purpose} {r : Chains × Issued} (hr : c.next env p = .ok r) :
    Sim env look r.1 c ∧ IssuedLe c r.1 ∧ r.2 = ⟨r.2.index, env.key p r.2.index, env.hash (env.key p r.2.index)⟩ ∧
    r.2.index = (match (c.leaf p).usage.used with | none => 0 | some w => w + 1) ∧ ∃ w, (r.1.leaf p).usage.issued = some w ∧ r.2.index ≤ w := by
  unfold Chains.next at hr
  simp only [bind_eq_ok] at hr
  obtain ⟨x, hx, hr⟩ := hr
  obtain ⟨h1, h2, h3, h4, h5, h6⟩ := nextUnused_ok hl (h.good p) hx
  cases hr
  have hu : x.1.usage = (c.leaf p).usage.issue x.2.index ∨ x.1 = c.leaf p := by
    rcases h5 with h5 | h5
    · left; rw [h5]; rfl
    · exact Or.inr h5
  obtain ⟨k1, k2⟩ := setLeaf_issue h h1 hu
  refine ⟨k1, k2, h2, h4, ?_⟩
  rw [leaf_setLeaf, if_pos rfl]
  exact h6

/-- every operation keeps the chains in order, and what was given stays issued -/
theorem step_good {env : Env} (hi : env.Inj) {look} (hl : 1 ≤ look) (hl2 : look < maxKeys) (test : CmdTest) {a : Account} (h : CGood env look a.chains)
    {op : Op} {r : Account × List Given} (hr : a.step env test op = .ok r) :
    CGood env look r.1.chains ∧ IssuedLe a.chains r.1.chains ∧ ∀ g ∈ r.2, GivenOk env r.1 g := by
  cases op with
  | issue p =>
    unfold Account.step at hr
    simp only [bind_eq_ok] at hr
    obtain ⟨x, hx, hr⟩ := hr
    cases hr
    obtain ⟨h1, h2, h3, h4, h5, _⟩ := issue_step h hx
    refine ⟨h1.left, h2, ?_⟩
    intro g hg
    rw [List.mem_singleton] at hg
    subst hg
    exact ⟨h3, x.2.index, h5, Nat.le_refl _⟩
  | next p =>
    unfold Account.step at hr
    simp only [bind_eq_ok] at hr
    obtain ⟨x, hx, hr⟩ := hr
    cases hr
    obtain ⟨h1, h2, h3, h4, h5⟩ := next_step hl h hx
    refine ⟨h1.left, h2, ?_⟩
    intro g hg
    rw [List.mem_singleton] at hg
    subst hg
    exact ⟨h3, h5⟩
  | block t =>
    obtain ⟨x, y, h1, h2, h3, h4, h5⟩ := scanTx_sim hi hl2 test t (ASim.refl h)
    unfold Account.step at hr
    simp only [h1] at hr
    cases hr
    exact ⟨h4.chains.left, h5, fun g hg => nomatch hg⟩
  | unconfirmed t =>
    obtain ⟨x, y, h1, h2, h3, h4, h5⟩ := scanTx_sim hi hl2 test t (ASim.refl h)
    unfold Account.step at hr
    simp only [h1] at hr
    cases hr
    exact ⟨h4.chains.left, h5, fun g hg => nomatch hg⟩
  | forget ids =>
    cases hr
    exact ⟨h, IssuedLe.refl _, fun g hg => nomatch hg⟩
  | reload =>
    unfold Account.step at hr
    simp only [load_chains hi h] at hr
    cases hr
    exact ⟨h, IssuedLe.refl _, fun g hg => nomatch hg⟩

theorem run_good {env : Env} (hi : env.Inj) {look} (hl : 1 ≤ look) (hl2 : look < maxKeys) (test : CmdTest) : ∀ (ops : List Op) {a : Account}, CGood env look a.chains →
    CGood env look (a.run env test ops).1.chains ∧ IssuedLe a.chains (a.run env test ops).1.chains ∧ ∀ g ∈ (a.run env test ops).2, GivenOk env (a.run env test ops).1 g
  | [], a, h => ⟨h, IssuedLe.refl _, fun g hg => nomatch hg⟩
  | op :: rest, a, h => by
    rw [Account.run]
    cases hs : a.step env test op with
    | error e => exact run_good hi hl hl2 test rest h
    | ok r =>
      obtain ⟨h1, h2, h3⟩ := step_good hi hl hl2 test h hs
      obtain ⟨k1, k2, k3⟩ := run_good hi hl hl2 test rest h1
      refine ⟨k1, h2.trans k2, ?_⟩
      intro g hg
      rcases List.mem_append.1 hg with hg | hg
      · exact (h3 g hg).mono k2
      · exact k3 g hg

theorem run_append (env : Env) (test : CmdTest) : ∀ (ops rest : List Op) (a : Account), a.run env test (ops ++ rest) =
    ((((a.run env test ops).1.run env test rest).1), (a.run env test ops).2 ++ ((a.run env test ops).1.run env test rest).2)
  | [], rest, a => by simp only [List.nil_append, Account.run]
  | op :: ops, rest, a => by
    rw [List.cons_append, Account.run, Account.run]
    cases a.step env test op with
    | error e => exact run_append env test ops rest a
    | ok r =>
      simp only
      rw [run_append env test ops rest r.1, List.append_assoc]

/-- a restored account follows a calm history -/
theorem run_sim {env : Env} (hi : env.Inj) {look} (hl : 1 ≤ look) (hl2 : look < maxKeys) (test : CmdTest) : ∀ (ops : List Op), Calm ops → ∀ {a b : Account}, ASim env look a b →
    ∃ b' flags, b.scan env test (chainOf ops) = .ok (b', flags) ∧ ASim env look (a.run env test ops).1 b'
  | [], _, a, b, h => ⟨b, [], rfl, h⟩
  | op :: rest, hc, a, b, h => by
    have hrest : Calm rest := fun o ho => hc o (List.mem_cons_of_mem _ ho)
    have hop := hc op List.mem_cons_self
    rw [Account.run]
    have skip : ∀ {x : Account}, ASim env look x a → chainOf (op :: rest) = chainOf rest →
        ∃ b' flags, b.scan env test (chainOf (op :: rest)) = .ok (b', flags) ∧ ASim env look (x.run env test rest).1 b' := by
      intro x hx e
      rw [e]
      exact run_sim hi hl hl2 test rest hrest ⟨⟨hx.chains.left, h.chains.right, fun p => (hx.chains.used p).trans (h.chains.used p)⟩, hx.txs.trans h.txs⟩
    cases op with
    | unconfirmed t => exact hop.elim
    | forget ids => exact hop.elim
    | issue p =>
      cases hs : a.step env test (.issue p) with
      | error e => exact skip (ASim.refl h.chains.left) rfl
      | ok r =>
        unfold Account.step at hs
        simp only [bind_eq_ok] at hs
        obtain ⟨x, hx, hs⟩ := hs
        cases hs
        exact skip ⟨(issue_step h.chains.left hx).1, rfl⟩ rfl
    | next p =>
      cases hs : a.step env test (.next p) with
      | error e => exact skip (ASim.refl h.chains.left) rfl
      | ok r =>
        unfold Account.step at hs
        simp only [bind_eq_ok] at hs
        obtain ⟨x, hx, hs⟩ := hs
        cases hs
        exact skip ⟨(next_step hl h.chains.left hx).1, rfl⟩ rfl
    | reload =>
      have hs : a.step env test .reload = .ok (a, []) := by
        unfold Account.step
        simp only [load_chains hi h.chains.left]
        rfl
      rw [hs]
      exact skip (ASim.refl h.chains.left) rfl
    | block t =>
      obtain ⟨x, y, h1, h2, h3, h4, h5⟩ := scanTx_sim hi hl2 test t h
      have hs : a.step env test (.block t) = .ok (x.1, []) := by
        unfold Account.step
        simp only [h1]
        rfl
      rw [hs]
      obtain ⟨b', flags, k1, k2⟩ := run_sim hi hl hl2 test rest hrest h4
      refine ⟨b', y.2 :: flags, ?_, k2⟩
      show Account.scan env test b (t :: chainOf rest) = _
      rw [Account.scan, h2]
      show (Account.scan env test y.1 (chainOf rest) >>= _) = _
      rw [k1]
      rfl

theorem new_chains {env : Env} (hi : env.Inj) {look} (hl : look < maxKeys) :
    ∃ a, Account.new env look = .ok a ∧ CGood env look a.chains ∧ a.txs = BMap.empty ∧ ∀ p, (a.chains.leaf p).usage = ⟨none, none⟩ := by
  obtain ⟨r, h1, h2, h3⟩ := new_good hi hl .receive
  obtain ⟨c, k1, k2, k3⟩ := new_good hi hl .change
  refine ⟨⟨⟨r, c, look⟩, BMap.empty⟩, ?_, ⟨rfl, ?_⟩, rfl, ?_⟩
  · unfold Account.new Chains.new
    simp only [h1, k1]
    rfl
  · intro p
    cases p
    · exact h2
    · exact k2
  · intro p
    cases p
    · exact h3
    · exact k3

end Verif.KeyChain
