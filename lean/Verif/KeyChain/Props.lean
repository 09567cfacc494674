import Verif.KeyChain.Gap

/-!
# C70: a wallet restored from its seed finds what was paid to it

The statements use the operations of the model (`Account.new`, `Account.run`, `Account.scan`, `Chains.issue`, …) and the words of `Spec.lean` only.
-/

set_option maxRecDepth 100000

namespace Verif.KeyChain
open Verif

/-- an account that has seen some history -/
def after (env : Env) (test : CmdTest) (look : Nat) (ops : List Op) : Option (Account × List Given) :=
  (Account.new env look).toOption.map fun a => a.run env test ops

theorem after_new {env : Env} (hi : env.Inj) {look} (hl : look < maxKeys) {test ops x} (h : after env test look ops = some x) :
    ∃ a, Account.new env look = .ok a ∧ CGood env look a.chains ∧ x = a.run env test ops := by
  obtain ⟨a, h1, h2, _, _⟩ := new_chains hi hl
  refine ⟨a, h1, h2, ?_⟩
  unfold after at h
  rw [h1] at h
  cases h
  rfl

theorem given_own {env : Env} (hi : env.Inj) {look a g} (h : CGood env look a.chains) (hg : GivenOk env a g) {d : Dest}
    (hd : d = .pubKey g.2.key ∨ d = .pubKeyHash g.2.addr) : PaysTo env d g.1 g.2.index ∧ own a.chains d = some (g.1, g.2.index) := by
  obtain ⟨w, h1, h2⟩ := hg.le
  have h3 := (h.good g.1).issued w h1
  have h4 := width_le look (a.chains.leaf g.1).usage.used
  have e := hg.eq
  have hp : PaysTo env d g.1 g.2.index := by
    refine ⟨by omega, ?_⟩
    rcases hd with hd | hd
    · left; rw [hd, e]
    · right; rw [hd, e]
  exact ⟨hp, (own_iff hi h d _ _).2 ⟨by omega, hp⟩⟩

/-- **C70** A new wallet with the same keys that reads the chain from the start ends with the same transactions as the wallet that was there all the time, and recognises every address that wallet gave
out, as long as that wallet only saw transactions in blocks and no block was undone. -/
theorem C70_restore (env : Env) (hi : env.Inj) (test : CmdTest) (look : Nat) (hl : 1 ≤ look) (hl2 : look < maxKeys) (ops : List Op) (hc : Calm ops)
    (a0 a : Account) (given : List Given) (h0 : Account.new env look = .ok a0) (hr : a0.run env test ops = (a, given)) :
    ∃ b flags, a0.scan env test (chainOf ops) = .ok (b, flags) ∧ b.txs = a.txs ∧ (∀ d, b.chains.isMine d = a.chains.isMine d) ∧
      (∀ p, (b.chains.leaf p).usage.used = (a.chains.leaf p).usage.used) ∧
      ∀ g ∈ given, g.2.key = env.key g.1 g.2.index ∧ g.2.addr = env.hash g.2.key ∧
        b.chains.isMine (.pubKeyHash g.2.addr) = true ∧ b.chains.isMine (.pubKey g.2.key) = true := by
  obtain ⟨a', e1, e2, e3, _⟩ := new_chains hi hl2
  rw [h0] at e1
  cases e1
  obtain ⟨b, flags, h1, h2⟩ := run_sim hi hl hl2 test ops hc (ASim.refl e2)
  obtain ⟨k1, _, k3⟩ := run_good hi hl hl2 test ops e2
  rw [hr] at h2 k1 k3
  have hm := isMine_sim hi h2.chains
  refine ⟨b, flags, h1, h2.txs.symm, fun d => (congrFun hm d).symm, fun p => (h2.chains.used p).symm, ?_⟩
  intro g hg
  have hok := k3 g hg
  have e := hok.eq
  refine ⟨by rw [e], by rw [e], ?_, ?_⟩
  · rw [← congrFun hm, isMine_own, (given_own hi k1 hok (Or.inr rfl)).2]; rfl
  · rw [← congrFun hm, isMine_own, (given_own hi k1 hok (Or.inl rfl)).2]; rfl

/-- a payment to an address that was given out is found whatever comes before it in the transaction -/
theorem markOutputs_given {env : Env} (hi : env.Inj) {look} (hl : look < maxKeys) (txs : BMap Nat Tx) {d : Dest} {p i} (hp : PaysTo env d p i) :
    ∀ (os : List Output) {c : Chains}, CGood env look c → (∃ w, (c.leaf p).usage.issued = some w ∧ i ≤ w) → Output.pay d ∈ os →
      ∃ r, markOutputs env txs c os = .ok r ∧ r.2 = true
  | [], _, _, _, ho => nomatch ho
  | o :: rest, c, h, hw, ho => by
    obtain ⟨r, r', h1, h2, h3, h4, h5, h6⟩ := (markOutput_sim hi hl txs o (Sim.refl h)).ex
    obtain ⟨w, hw1, hw2⟩ := hw
    have hfst : ∀ s, markOutputs env txs r.1 rest = .ok s → markOutputs env txs c (o :: rest) = .ok (s.1, r.2 || s.2) := by
      intro s hs
      rw [markOutputs, h1]
      show (markOutputs env txs r.1 rest >>= _) = _
      rw [hs]
      rfl
    rcases List.mem_cons.1 ho with e | ho
    · subst e
      obtain ⟨s, s', k1, _, _⟩ := (markOutputs_sim hi hl txs rest (Sim.refl h4.left)).ex
      refine ⟨_, hfst s k1, ?_⟩
      obtain ⟨q, q1, _, q3, _⟩ := markOutput_pay hi hl txs h d
      rw [h1] at q1
      cases q1
      have h7 := (h.good p).issued w hw1
      have : own c d = some (p, i) := (own_iff hi h d p i).2 ⟨by omega, hp⟩
      rw [this] at q3
      show (r.2 || s.2) = true
      rw [q3]
      rfl
    · obtain ⟨w', h7, h8⟩ := h5 p w hw1
      obtain ⟨s, k1, k2⟩ := markOutputs_given hi hl txs hp rest h4.left ⟨w', h7, by omega⟩ ho
      exact ⟨_, hfst s k1, by show (r.2 || s.2) = true; rw [k2, Bool.or_true]⟩

/-- **C70** Whatever happened — unconfirmed transactions, blocks undone, the wallet closed and opened again — a transaction with a payment to an address the wallet gave out is recorded when it is seen. -/
theorem C70_seen (env : Env) (hi : env.Inj) (test : CmdTest) (look : Nat) (hl : 1 ≤ look) (hl2 : look < maxKeys) (ops : List Op)
    (a : Account) (given : List Given) (h : after env test look ops = some (a, given)) (g : Given) (hg : g ∈ given) (t : Tx)
    (ht : Output.pay (.pubKeyHash g.2.addr) ∈ t.outs ∨ Output.pay (.pubKey g.2.key) ∈ t.outs) :
    ∃ b, a.scanTx env test t = .ok (b, true) ∧ b.txs.get t.id = some t := by
  obtain ⟨a0, h1, h2, h3⟩ := after_new hi hl2 h
  obtain ⟨k1, _, k3⟩ := run_good hi hl hl2 test ops h2
  rw [← h3] at k1 k3
  have hok := k3 g hg
  have key : ∃ r, markOutputs env a.txs a.chains t.outs = .ok r ∧ r.2 = true := by
    rcases ht with ht | ht
    · exact markOutputs_given hi hl2 a.txs (given_own hi k1 hok (Or.inr rfl)).1 t.outs k1 hok.le ht
    · exact markOutputs_given hi hl2 a.txs (given_own hi k1 hok (Or.inl rfl)).1 t.outs k1 hok.le ht
  obtain ⟨⟨rc, rb⟩, h4, h5⟩ := key
  have h5 : rb = true := h5
  subst h5
  let r : Chains × Bool := (rc, true)
  refine ⟨⟨r.1, a.txs.insert t.id t⟩, ?_, by show (a.txs.insert t.id t).get t.id = _; rw [BMap.get_insert, if_pos rfl]⟩
  unfold Account.scanTx
  simp only [h4]
  show Except.ok (_, _ || true) = _
  simp only [Bool.or_true, if_true, r]

/-- **C70** A newly issued address was never given out before, comes after the last used one, and belongs to the wallet. -/
theorem C70_fresh (env : Env) (hi : env.Inj) (test : CmdTest) (look : Nat) (hl : 1 ≤ look) (hl2 : look < maxKeys) (ops : List Op)
    (a : Account) (given : List Given) (h : after env test look ops = some (a, given)) (p : Purpose) (c : Chains) (x : Issued) (hx : a.chains.issue env p = .ok (c, x)) :
    (∀ g ∈ given, x.addr ≠ g.2.addr ∧ x.key ≠ g.2.key) ∧ (∀ v, (a.chains.leaf p).usage.used = some v → v < x.index) ∧
    x.key = env.key p x.index ∧ x.addr = env.hash x.key ∧ a.chains.isMine (.pubKeyHash x.addr) = true := by
  obtain ⟨a0, h1, h2, h3⟩ := after_new hi hl2 h
  obtain ⟨k1, _, k3⟩ := run_good hi hl hl2 test ops h2
  rw [← h3] at k1 k3
  obtain ⟨s1, s2, s3, s4, s5, s6⟩ := issue_step k1 hx
  have s3 : x = _ := s3
  have hw := width_le look (a.chains.leaf p).usage.used
  have s4 : x.index = _ := s4
  have s6 : x.index < width look (a.chains.leaf p).usage.used := s6
  have hne : ∀ g ∈ given, env.hash (env.key p x.index) ≠ env.hash (env.key g.1 g.2.index) := by
    intro g hg hh
    have hok := k3 g hg
    obtain ⟨w, e1, e2⟩ := hok.le
    have e3 : w < width look (a.chains.leaf g.1).usage.used := (k1.good g.1).issued w e1
    have e4 := width_le look (a.chains.leaf g.1).usage.used
    simp only at e1
    obtain ⟨q1, q2⟩ := hi p g.1 x.index g.2.index (by omega) (by omega) hh
    subst q1
    rw [e1] at s4
    simp only at s4
    omega
  refine ⟨?_, ?_, by rw [s3], by rw [s3], ?_⟩
  · intro g hg
    have hok := (k3 g hg).eq
    constructor
    · rw [s3, hok]; exact hne g hg
    · intro hh
      rw [s3, hok] at hh
      exact hne g hg (by simp only at hh; rw [hh])
  · intro v hv
    obtain ⟨_, w, e1, e2⟩ := (k1.good p).used v hv
    simp only at e1
    rw [e1] at s4
    simp only at s4
    omega
  · rw [isMine_own, (own_iff hi k1 _ p x.index).2 ⟨s6, by omega, Or.inr (by rw [s3])⟩]
    rfl

/-- **C70** When an address is issued: the next index must be within `look` of the last used one. -/
theorem C70_issue_iff (env : Env) (hi : env.Inj) (test : CmdTest) (look : Nat) (hl : 1 ≤ look) (hl2 : look < maxKeys) (ops : List Op)
    (a : Account) (given : List Given) (h : after env test look ops = some (a, given)) (p : Purpose) :
    (∃ r, a.chains.issue env p = .ok r) ↔
      (match (a.chains.leaf p).usage.issued with | none => 0 | some w => w + 1) < min maxKeys
        (match (a.chains.leaf p).usage.used with | none => look | some v => v + look + 1) := by
  obtain ⟨a0, h1, h2, h3⟩ := after_new hi hl2 h
  obtain ⟨k1, _, _⟩ := run_good hi hl hl2 test ops h2
  rw [← h3] at k1
  have hw : min maxKeys (match (a.chains.leaf p).usage.used with | none => look | some v => v + look + 1) = width look (a.chains.leaf p).usage.used := by
    cases (a.chains.leaf p).usage.used <;> rfl
  rw [hw]
  constructor
  · rintro ⟨r, hr⟩
    obtain ⟨_, _, _, s4, _, s6⟩ := issue_step k1 hr
    exact Nat.lt_of_le_of_lt (Nat.le_of_eq s4.symm) s6
  · intro hlt
    generalize hn : (match (a.chains.leaf p).usage.issued with | none => 0 | some w => w + 1) = n at hlt
    have hle := width_le look (a.chains.leaf p).usage.used
    have e1 : nextIndex (a.chains.leaf p).usage.issued = .ok n := nextIndex_eq.2 ⟨by omega, hn.symm⟩
    have e2 : checkLookahead (a.chains.leaf p).usage n look = .ok () := by
      unfold checkLookahead
      cases hu : (a.chains.leaf p).usage.used with
      | none =>
        rw [hu] at hlt
        simp only [width] at hlt
        show (if n ≥ look then _ else _) = _
        rw [if_neg (by omega)]
      | some v =>
        rw [hu] at hlt
        simp only [width] at hlt
        have := ((k1.good p).used v hu).1
        show (if v + look ≥ u32Size then _ else if n > v + look then _ else _) = _
        rw [if_neg (by unfold u32Size; unfold maxKeys at *; omega), if_neg (by omega)]
    have k2 : Good env p look (a.chains.leaf p) := k1.good p
    refine ⟨(a.chains.setLeaf p (({ a.chains.leaf p with usage := (a.chains.leaf p).usage.issue n } : Leaf).save), ⟨n, env.key p n, env.hash (env.key p n)⟩), ?_⟩
    have hlk : a.chains.look = look := k1.lookEq
    unfold Chains.issue Leaf.issueNew
    rw [hlk, e1]
    show ((checkLookahead _ n look >>= _) >>= _) = _
    rw [e2]
    show (((Leaf.answer (Leaf.derive env (a.chains.leaf p) n) n) >>= _) >>= _) = _
    rw [derive_old k2.filled hlt, answer_filled k2.filled hlt]
    rfl

/-- **C70** Closing and opening the wallet changes nothing: what is loaded from the database is what was in memory. -/
theorem C70_reload (env : Env) (hi : env.Inj) (test : CmdTest) (look : Nat) (hl : 1 ≤ look) (hl2 : look < maxKeys) (ops : List Op)
    (a : Account) (given : List Given) (h : after env test look ops = some (a, given)) :
    Chains.load env a.chains.receive.db a.chains.change.db a.chains.look = .ok a.chains := by
  obtain ⟨a0, h1, h2, h3⟩ := after_new hi hl2 h
  obtain ⟨k1, _, _⟩ := run_good hi hl hl2 test ops h2
  rw [← h3] at k1
  exact load_chains hi k1

/-- **C70** Nothing the wallet sees makes it fail: scanning succeeds in every state a wallet can reach. -/
theorem C70_total (env : Env) (hi : env.Inj) (test : CmdTest) (look : Nat) (hl : 1 ≤ look) (hl2 : look < maxKeys) (ops : List Op)
    (a : Account) (given : List Given) (h : after env test look ops = some (a, given)) (t : Tx) : ∃ r, a.scanTx env test t = .ok r := by
  obtain ⟨a0, h1, h2, h3⟩ := after_new hi hl2 h
  obtain ⟨k1, _, _⟩ := run_good hi hl hl2 test ops h2
  rw [← h3] at k1
  obtain ⟨r, _, e, _⟩ := scanTx_sim hi hl2 test t (ASim.refl k1)
  exact ⟨r, e⟩

/-- **C70** A new wallet records every transaction of the chain that pays to one of its keys if no key is more than `look` after the keys paid before it. -/
theorem C70_gapless (env : Env) (hi : env.Inj) (test : CmdTest) (look : Nat) (hl : look < maxKeys) (a0 : Account) (h0 : Account.new env look = .ok a0)
    (txs : List Tx) (hp : ∀ t ∈ txs, OnlyPays t) (receive change : List Nat)
    (hr : Indices env .receive (txs.flatMap payDests) receive) (hc : Indices env .change (txs.flatMap payDests) change)
    (gr : Gapless look receive) (gc : Gapless look change) :
    ∃ b flags, a0.scan env test txs = .ok (b, flags) ∧ ∀ t ∈ txs, (∃ d ∈ payDests t, ∃ p i, PaysTo env d p i) → b.txs.contains t.id = true := by
  obtain ⟨a, e1, e2, _, e4⟩ := new_chains hi hl
  rw [h0] at e1
  cases e1
  obtain ⟨b, flags, k1, _, k3, _⟩ := scan_gap hi hl test txs hp (a := a0) (pre := fun _ => []) (s := fun p => match p with | .receive => receive | .change => change) e2
    (by intro p; rw [e4 p]; rfl) (by intro p; cases p; exact hr; exact hc) (by intro p; cases p; exact gr; exact gc)
  exact ⟨b, flags, k1, k3⟩

/-- **C70** The condition is exact: of payments from others, one transaction each, a new wallet finds all that are its own if and only if there is no gap. -/
theorem C70_gap_iff (env : Env) (hi : env.Inj) (test : CmdTest) (look : Nat) (hl : look < maxKeys) (a0 : Account) (h0 : Account.new env look = .ok a0)
    (ps : List (Nat × Dest)) (receive change : List Nat)
    (hr : Indices env .receive (ps.map (·.2)) receive) (hc : Indices env .change (ps.map (·.2)) change) :
    ∃ b flags, a0.scan env test (ps.map fun x => payTx x.1 x.2) = .ok (b, flags) ∧
      (List.Forall₂ (fun x f => (∃ p i, PaysTo env x.2 p i) → f = true) ps flags ↔ Gapless look receive ∧ Gapless look change) := by
  obtain ⟨a, e1, e2, _, e4⟩ := new_chains hi hl
  rw [h0] at e1
  cases e1
  obtain ⟨b, flags, k1, k2⟩ := scan_payTx hi hl test ps (a := a0) (pre := fun _ => []) (s := fun p => match p with | .receive => receive | .change => change) e2
    (by intro p; rw [e4 p]; rfl) (by intro p; cases p; exact hr; exact hc)
  refine ⟨b, flags, k1, k2.trans ⟨fun h => ⟨h .receive, h .change⟩, ?_⟩⟩
  rintro ⟨h1, h2⟩ p
  cases p
  · exact h1
  · exact h2

/-! ## Concrete cases -/

/-- keys that are numbers: even ones to receive, odd ones for change; the hash adds a million -/
def exEnv : Env where
  key := fun p i => match p with
    | .receive => 2 * i
    | .change => 2 * i + 1
  hash := fun k => k + 1000000

theorem exEnv_inj : exEnv.Inj := by
  intro p q i j _ _ h
  cases p <;> cases q <;> simp only [exEnv] at h
  · exact ⟨rfl, by omega⟩
  · omega
  · omega
  · exact ⟨rfl, by omega⟩

/-- no commands of tokens or orders -/
def exTest : CmdTest := fun _ _ _ => false

/-- the address of a key -/
def exAddr (p : Purpose) (i : Nat) : Dest := .pubKeyHash (exEnv.hash (exEnv.key p i))

/-- transactions that pay to an address -/
def exPay (id : Nat) (p : Purpose) (i : Nat) : Tx := payTx id (exAddr p i)

/-- a wallet that looks two keys ahead -/
def exAcc : Option Account := (Account.new exEnv 2).toOption

/-- which transactions a new wallet records when it reads a chain -/
def exFlags (look : Nat) (txs : List Tx) : Option (List Bool) :=
  ((Account.new exEnv look).toOption.bind fun a => (a.scan exEnv exTest txs).toOption).map (·.2)

/-- a calm history: two addresses, payments to both in the other order, two more addresses, one of them paid, change, and a spend of the change -/
def exOps : List Op :=
  [.issue .receive, .issue .receive, .block (exPay 1 .receive 1), .issue .receive, .issue .receive, .block (exPay 2 .receive 3), .reload, .next .change,
   .block ⟨3, [.utxo 1 0], [.pay (exAddr .change 0), .pay (.pubKeyHash 5)]⟩, .block ⟨4, [.utxo 3 0], [.pay (.pubKeyHash 5)]⟩, .issue .change]

/-- the hypotheses of `C70_restore` hold for it; five addresses are given and all four transactions recorded -/
example : Calm exOps ∧ (after exEnv exTest 2 exOps).map (fun r => (r.2.map (fun g => (g.1, g.2.index)), r.1.txs.entries.map (·.1))) =
    some ([(.receive, 0), (.receive, 1), (.receive, 2), (.receive, 3), (.change, 0), (.change, 1)], [1, 2, 3, 4]) := by decide +kernel

example : exFlags 2 (chainOf exOps) = some [true, true, true, true] := by decide +kernel

/-- a third address is refused before any of the two was used -/
example : (after exEnv exTest 2 [.issue .receive, .issue .receive, .issue .receive]).map (fun r => r.2.length) = some 2 := by decide +kernel

/-- a sequence without a gap for two keys ahead, and one with a gap -/
example : Gapless 2 [1, 3, 0, 5] := by
  rw [gapless_iff, gapFree_cons, gapFree_cons, gapFree_cons, gapFree_cons]
  refine ⟨Or.inl (by decide), Or.inr ⟨1, by decide, by decide⟩, Or.inl (by decide), Or.inr ⟨3, by decide, by decide⟩, gapFree_nil _ _⟩

example : exFlags 2 [exPay 1 .receive 1, exPay 2 .receive 3, exPay 3 .receive 0, exPay 4 .receive 5] = some [true, true, true, true] := by decide +kernel

example : ¬ Gapless 2 [1, 4] := by
  rw [gapless_iff, gapFree_cons, gapFree_cons]
  rintro ⟨_, h | ⟨v, hv, h⟩, _⟩
  · omega
  · rw [List.nil_append, List.mem_singleton] at hv
    omega

/-- **C70** (witness) Why unconfirmed transactions matter: a payment to the second address that is never confirmed lets the wallet give out a fourth one; a payment to that is in the chain, the wallet has
it, but a wallet restored from the seed does not find it. -/
theorem C70_witness_unconfirmed :
    let ops : List Op := [.issue .receive, .issue .receive, .unconfirmed (exPay 1 .receive 1), .issue .receive, .issue .receive, .block (exPay 2 .receive 3)]
    (after exEnv exTest 2 ops).map (fun r => (r.2.map (fun g => g.2.index), r.1.txs.contains 2)) = some ([0, 1, 2, 3], true) ∧
    exFlags 2 (chainOf ops) = some [false] := by decide +kernel

/-- **C70** (witness) The same if the payment is confirmed later, be it in the same block. -/
theorem C70_witness_order :
    let ops : List Op := [.issue .receive, .issue .receive, .unconfirmed (exPay 1 .receive 1), .issue .receive, .issue .receive, .block (exPay 2 .receive 3),
      .block (exPay 1 .receive 1)]
    (after exEnv exTest 2 ops).map (fun r => (r.2.map (fun g => g.2.index), r.1.txs.entries.map (·.1))) = some ([0, 1, 2, 3], [1, 2]) ∧
    exFlags 2 (chainOf ops) = some [false, true] := by decide +kernel

/-- **C70** (witness) A rescan forgets which addresses were given out: the address issued next was given out before. -/
theorem C70_witness_rescan :
    (after exEnv exTest 2 [.issue .receive]).bind (fun r => ((r.1.chains.reset exEnv 2).toOption.bind fun c => (c.issue exEnv .receive).toOption).map
      fun x => (r.2.map (·.2.addr), x.2.addr)) = some ([1000000], 1000000) := by decide +kernel

/-- **C70** (witness) Of the two keys in an output that creates a pool only the one for decommissioning is marked: the address of the staker, though seen in the chain, is returned as the next unused
one, and a restored wallet issues it again. -/
theorem C70_witness_staker :
    let pool : Tx := ⟨1, [], [.pool 7 (exAddr .receive 0) (exAddr .receive 1)]⟩
    (after exEnv exTest 2 [.issue .receive, .issue .receive, .block pool, .next .receive]).map (fun r => r.2.map (fun g => g.2.index)) = some [0, 1, 1] ∧
    (after exEnv exTest 2 [.block pool, .issue .receive]).map (fun r => r.2.map (fun g => g.2.index)) = some [1] := by decide +kernel

/-- **C70** (witness) A contract whose first destination is anybody is not recorded although its refund belongs to the wallet. -/
theorem C70_witness_anyone :
    let o : Output := .htlc .anyone (exAddr .receive 0)
    (after exEnv exTest 2 [.issue .receive]).map (fun r => (r.1.isMine o, (r.1.scanTx exEnv exTest ⟨1, [], [o]⟩).toOption.map (·.2))) = some (true, some false) := by
  decide +kernel

/-- **C70** (witness) Why `look` must not be zero: the next unused address is given out all the same, and a restored wallet does not know it. -/
theorem C70_witness_zero :
    let ops : List Op := [.next .receive, .block (exPay 1 .receive 0)]
    (after exEnv exTest 0 ops).map (fun r => r.1.txs.contains 1) = some true ∧ exFlags 0 (chainOf ops) = some [false] := by decide +kernel

end Verif.KeyChain
