import Verif.TxOrphans.Live

/-!
# C72: orphan transactions wait for what they lack
-/

set_option maxRecDepth 100000

namespace Verif.TxOrphans
open Verif.Mempool (Dep Tx Input Output)

/-! ### A mempool for the examples -/

/-- Always the first one, and no shuffling. -/
def rnd0 : Rnd := ⟨fun _ _ => 0, fun _ _ h => h, id, fun _ => List.Perm.refl _⟩

def dice0 : Dice := ⟨rnd0, rnd0, fun _ => rnd0⟩

/-- A transaction that spends the output 0 of some transactions. -/
def spend (id time : Nat) (from_ : List Nat) : Tx :=
  ⟨id, 0, 200, time, from_.map (fun t => .utxo (some t) 0), [.other], none, none, none⟩

/-- A transaction of a peer whose parents are missing. -/
def orph (peer now : Nat) (t : Tx) : Op := .arrive dice0 now t (some peer) (.rejected .missingUtxo true)

/-- A transaction that is accepted. -/
def acc (peer : Option Nat) (now : Nat) (t : Tx) : Op := .arrive dice0 now t peer .added

def work1 (now : Nat) (o : Outcome) : Op := .work dice0 now (fun _ => o)

/-- What is seen of a mempool: the orphans with their peers, the transactions, whether there is work. -/
def seen (w : World) : List (Nat × Nat) × List Nat × Bool := (w.orphans.map (fun e => (e.tx.id, e.peer)), w.mem.map (·.id), w.s.hasWork)

/-- The transactions 3 and 2 of peer 7 wait for 1 and 3; 1 comes in; then there is work until all are accepted. -/
def story : List Op := [orph 7 10 (spend 3 10 [1]), orph 7 11 (spend 2 11 [3]), acc none 12 (spend 1 12 [0]), work1 13 .added, work1 14 .added]

example : ((World.new [.txOutput 0 0]).run story).map seen = some ([], [2, 3, 1], false) := by decide +kernel
example : ((World.new [.txOutput 0 0]).run (story.take 3)).map seen = some ([(3, 7), (2, 7)], [1], true) := by decide +kernel
example : ((World.new [.txOutput 0 0]).run (story.take 4)).map seen = some ([(2, 7)], [3, 1], true) := by decide +kernel

/-! ### The content of the pool -/

/-- Whatever happened (events of any kind, in any order, with any random choices): an orphan is found under its id and
nothing else is, and no two orphans have the same id. -/
theorem C72_lookup {confirmed : List Dep} {ops : List Op} {w : World} (h : (World.new confirmed).run ops = some w) :
    (∀ id, ∃ o, w.s.orphans.get id = some o ∧ ∀ e, o = some e ↔ e ∈ w.orphans ∧ e.tx.id = id) ∧
    (∀ id, w.s.orphans.contains id = true ↔ ∃ e ∈ w.orphans, e.tx.id = id) ∧
    (w.orphans.map (fun e => e.tx.id)).Nodup := by
  obtain ⟨hg, _⟩ := run_good ops good_new qok_new.2 h
  exact ⟨fun id => get_spec hg.ok id, fun id => contains_iff hg.ok id, ids_nodup hg.ok⟩

example : ((World.new []).run (story.take 3)).map (fun w => ((w.s.orphans.get 2).map (Option.map (·.peer)), w.s.orphans.contains 3,
    w.s.orphans.contains 1)) = some (some (some 7), true, false) := by decide +kernel

/-- There are never more than 100 orphans. -/
theorem C72_bounded {confirmed : List Dep} {ops : List Op} {w : World} (h : (World.new confirmed).run ops = some w) :
    w.orphans.length ≤ 100 := (run_good ops good_new qok_new.2 h).1.small

/-- 101 orphans of 101 peers, and 100 stay. -/
example : ((World.new []).run ((List.range 101).map (fun n => orph n 10 (spend (n + 1000) 10 [n])))).map
    (fun w => w.orphans.length) = some 100 := by decide +kernel

/-- A rejected transaction is kept as an orphan exactly if it is admissible: otherwise the orphans stay as they are; if so,
those younger than 50 seconds are kept, with the new one, except that some are dropped if there are more than 100, and no
more than necessary. Queues do not change. -/
theorem C72_admit {confirmed : List Dep} {ops : List Op} {w : World} (h : (World.new confirmed).run ops = some w)
    (d : Dice) (now : Nat) (t : Tx) (origin : Option Nat) (why : Reject) (rbf : Bool) :
    ∃ w', w.step (.arrive d now t origin (.rejected why rbf)) = some w' ∧
      ((∀ p, ¬ Admissible t origin why rbf p) → w'.orphans = w.orphans) ∧
      (∀ p, Admissible t origin why rbf p → ∃ dropped, (young now ⟨t, p⟩ w.orphans).Perm (dropped ++ w'.orphans) ∧
        w'.orphans.length = min (young now ⟨t, p⟩ w.orphans).length 100) ∧
      (∀ p x, w'.s.work.Has p x ↔ w.s.work.Has p x) ∧ w'.mem = w.mem := by
  obtain ⟨hg, _⟩ := run_good ops good_new qok_new.2 h
  obtain ⟨s', h1, h2⟩ := finalize_spec hg d now t origin (.rejected why rbf)
  refine ⟨⟨s', w.mem, w.confirmed⟩, ?_, ?_⟩
  · rw [World.step, h1]
    rfl
  cases h2 with
  | same _ hn hs =>
    have hnone := hn why rbf rfl
    subst hs
    refine ⟨fun _ => rfl, ?_, fun _ _ => Iff.rfl, rfl⟩
    rintro p ⟨rfl, h3, rfl, h4⟩
    exfalso
    unfold asOrphan policy at hnone
    rcases h4 with rfl | ⟨a, b, rfl, hab, hgap⟩
    · simp [orphanType, OrphanType.gap, maxOrphanSize, h3] at hnone
    · simp [orphanType, OrphanType.gap, maxOrphanSize, maxOrphanGap, h3, hab, hgap] at hnone
  | @orphan _ _ e st h3 h4 h5 =>
    obtain ⟨a1, a2, a3, a4, a5⟩ := asOrphan_some h3
    refine ⟨fun hc => absurd ⟨a2, a3, a4, a5⟩ (hc e.peer), ?_, fun p x => by rw [h5], rfl⟩
    rintro p ⟨hp, _⟩
    rw [a2] at hp
    cases hp
    obtain ⟨p', s2, p0, p1, old, ev, b1, b2, b3, b4, b5, b6, b7, b8, _⟩ := insertAndEnforce_spec hg.ok hg.small d.pool e now
    rw [h4] at b1
    cases b1
    have he : (⟨t, e.peer⟩ : Entry) = e := by cases e; cases a1; rfl
    rw [he]
    have hall : p0.txs = if w.orphans.any (fun e' => e'.tx.id == e.tx.id) then w.orphans else w.orphans ++ [e] := by
      rcases b3 with ⟨b3, hnew⟩ | ⟨b3, e', he', hid⟩
      · rw [b3, if_neg]
        · rfl
        · rw [List.any_eq_true]
          rintro ⟨e', he', hc⟩
          exact hnew e' he' (by simpa using hc)
      · rw [b3, if_pos]
        · rfl
        · rw [List.any_eq_true]
          exact ⟨e', he', by simpa using hid⟩
    have hy : (young now e w.orphans).Perm p1.txs := by
      unfold young
      rw [← hall]
      refine (b4.2.filter _).trans ?_
      rw [List.filter_append, List.filter_eq_nil_iff.2, List.nil_append, List.filter_eq_self.2]
      · intro x hx
        exact decide_eq_true (b6 x hx)
      · intro x hx
        have := b5 x hx
        unfold expiryInterval at this
        simp only [decide_eq_true_eq]
        omega
    refine ⟨ev, hy.trans b7.2, ?_⟩
    rw [hy.length_eq]
    exact b8

/-- The old orphan goes, the too large one does not come in, the other does. -/
example : ((World.new []).run [orph 7 10 (spend 3 10 [1]), orph 8 61 (spend 4 61 [2]), orph 8 61 { spend 5 61 [2] with size := 20001 },
    orph 8 61 { spend 6 61 [2] with size := 20000 }]).map seen = some ([(4, 8), (6, 8)], [], false) := by decide +kernel
/-- A nonce three ahead is too far; a local transaction is never an orphan. -/
example : ((World.new []).run [.arrive dice0 10 (spend 3 10 [1]) (some 7) (.rejected (.nonce 4 7) true),
    .arrive dice0 10 (spend 4 10 [1]) (some 7) (.rejected (.nonce 4 6) true), .arrive dice0 10 (spend 5 10 [1]) none (.rejected .missingUtxo true),
    .arrive dice0 10 (spend 6 10 [1]) (some 7) (.rejected .missingUtxo false)]).map seen = some ([(4, 7)], [], false) := by decide +kernel

/-- When a transaction is accepted, exactly the orphans that require an output of it, or something else it provides, are
put into the queues of the peers that sent them, beside what is there. -/
theorem C72_wake {confirmed : List Dep} {ops : List Op} {w : World} (h : (World.new confirmed).run ops = some w)
    (d : Dice) (now : Nat) (t : Tx) (origin : Option Nat) :
    ∃ w', w.step (.arrive d now t origin .added) = some w' ∧ w'.orphans = w.orphans ∧ w'.mem = t :: w.mem ∧
      ∀ p x, w'.s.work.Has p x ↔ w.s.work.Has p x ∨ ∃ e ∈ w.orphans, ChildOf e t ∧ e.peer = p ∧ e.tx.id = x := by
  obtain ⟨hg, _⟩ := run_good ops good_new qok_new.2 h
  obtain ⟨s', h1, h2⟩ := finalize_spec hg d now t origin .added
  refine ⟨⟨s', t :: w.mem, w.confirmed⟩, ?_, ?_⟩
  · rw [World.step, h1]
    rfl
  cases h2 with
  | same hc _ _ => exact absurd rfl hc
  | added l h3 h4 h5 =>
    refine ⟨by unfold World.orphans; rw [h4], rfl, ?_⟩
    intro p x
    show s'.work.Has p x ↔ _
    rw [h5, enqueue_has]
    constructor
    · rintro (hq | ⟨e, he, hp, hx⟩)
      · exact Or.inl hq
      · exact Or.inr ⟨e, ((h3 e).1 he).1, ((h3 e).1 he).2, hp, hx⟩
    · rintro (hq | ⟨e, he, hch, hp, hx⟩)
      · exact Or.inl hq
      · exact Or.inr ⟨e, (h3 e).2 ⟨he, hch⟩, hp, hx⟩

/-- The transaction 1 wakes the orphan 3 of peer 7 (and not 2). -/
example : ((World.new []).run (story.take 3)).map (fun w => (w.s.work.items.get 7).map (fun s => s.entries.map Prod.fst)) =
    some (some [3]) := by decide +kernel

/-- A peer that disconnects takes its orphans and its queue with it; those of the others stay. -/
theorem C72_disconnect {confirmed : List Dep} {ops : List Op} {w : World} (h : (World.new confirmed).run ops = some w) (p : Nat) :
    ∃ w', w.step (.disconnect p) = some w' ∧ w'.mem = w.mem ∧
      w'.orphans.Perm (w.orphans.filter (fun e => e.peer ≠ p)) ∧
      ∀ p' x, w'.s.work.Has p' x ↔ p' ≠ p ∧ w.s.work.Has p' x := by
  obtain ⟨hg, _⟩ := run_good ops good_new qok_new.2 h
  obtain ⟨p', g, h1, h2, h3, h4⟩ := removeByPeer_spec hg.ok hg.small p
  refine ⟨⟨⟨p', w.s.work.removePeer p⟩, w.mem, w.confirmed⟩, ?_, rfl, ?_, fun q x => removePeer_has _ _ _ _⟩
  · rw [World.step, State.disconnect, h1]
    rfl
  · refine List.Perm.symm ((h2.2.filter _).trans ?_)
    rw [List.filter_append, List.filter_eq_nil_iff.2, List.nil_append, List.filter_eq_self.2]
    · exact List.Perm.refl _
    · intro e he
      exact decide_eq_true (h4 e he)
    · intro e he
      simpa using h3 e he

example : ((World.new []).run [orph 7 10 (spend 3 10 [1]), orph 8 10 (spend 4 10 [1]), orph 7 10 (spend 5 10 [1]), acc none 11 (spend 1 11 [0]),
    .disconnect 7]).map seen = some ([(4, 8)], [1], true) := by decide +kernel

/-- A unit of work either leaves all orphans and the transaction pool as they are, or it takes out one orphan that was
queued and requires no output of an orphan, and does with it what the transaction pool answers: it is accepted, or it is gone,
or it is kept as an orphan like a transaction that comes in. -/
theorem C72_work {confirmed : List Dep} {ops : List Op} {w w' : World} (h : (World.new confirmed).run ops = some w)
    {d : Dice} {now : Nat} {answer : Entry → Outcome} (hs : w.step (.work d now answer) = some w') :
    (w'.orphans = w.orphans ∧ w'.mem = w.mem) ∨
    ∃ e ∈ w.orphans, (∃ p, w.s.work.Has p e.tx.id) ∧ (∀ u n, Dep.txOutput u n ∈ e.tx.required → ∀ e' ∈ w.orphans, e'.tx.id ≠ u) ∧
      w'.mem = grow w.mem e.tx (answer e) ∧
      ((∀ why rbf, answer e ≠ .rejected why rbf) → w.orphans.Perm (e :: w'.orphans)) ∧
      (∀ why rbf, answer e = .rejected why rbf → (∀ p, ¬ Admissible e.tx (some e.peer) why rbf p) → w.orphans.Perm (e :: w'.orphans)) ∧
      ∀ e' ∈ w'.orphans, e' ∈ w.orphans := by
  obtain ⟨hg, hd⟩ := run_good ops good_new qok_new.2 h
  obtain ⟨s', h1, h2⟩ := Option.map_eq_some_iff.1 hs
  subst h2
  rcases workUnit_cases h1 with ht | ⟨s1, e, ht, hf⟩
  · obtain ⟨q, sv, htk, _⟩ := takeWork_taken hg hd ht
    obtain ⟨o, _, h3, _⟩ := htk.picked
    left
    simp only [ht, World.orphans, (h3 rfl).1, and_self]
  · obtain ⟨q, sv, htk, _⟩ := takeWork_taken hg hd ht
    obtain ⟨o, hp, _, h3⟩ := htk.picked
    obtain ⟨i, ho, hi, hw⟩ := h3 e rfl
    have hmem : e ∈ w.orphans := List.mem_of_getElem? hi
    have g1 := htk.good hg
    have hfin := finalize_finalized g1 hf
    right
    obtain ⟨p, hsv⟩ : ∃ p, sv = some p := by
      cases hs : sv with
      | none => have := (hp.none hs).1; rw [ho] at this; cases this
      | some p => exact ⟨p, rfl⟩
    obtain ⟨sq, sq', b1, _, ⟨taken, _, c1, _, c3⟩, _⟩ := hp.some p hsv
    obtain ⟨x, hx, hlx, _⟩ := c3 (i, true) ho
    obtain ⟨e2, he2, hid, hb⟩ := look_some hg.ok hlx
    rw [hi] at he2
    cases he2
    refine ⟨e, hmem, ?_, (ready_iff hg.ok e).1 hb.symm, ?_, ?_, ?_, ?_⟩
    · exact ⟨p, sq, b1, by rw [hid]; exact c1 x hx⟩
    · simp only [ht]
    · intro hn
      generalize answer e = oc at hfin hn
      cases hfin with
      | added l h4 h5 h6 => simp only [World.orphans, h5]; exact hw.2
      | same _ _ h5 => simp only [World.orphans, h5]; exact hw.2
      | orphan h4 h5 h6 => exact absurd rfl (hn _ _)
    · intro why rbf han hna
      rw [han] at hfin
      cases hfin with
      | same _ _ h5 => simp only [World.orphans, h5]; exact hw.2
      | orphan h4 h5 h6 =>
        obtain ⟨_, a2, a3, a4, a5⟩ := asOrphan_some h4
        exact absurd ⟨a2, a3, a4, a5⟩ (hna _)
    · intro e' he'
      generalize answer e = oc at hfin
      cases hfin with
      | added l h4 h5 h6 => simp only [World.orphans, h5] at he'; exact hw.mem he'
      | same _ _ h5 => simp only [World.orphans, h5] at he'; exact hw.mem he'
      | @orphan _ _ e3 _ h4 h5 h6 =>
        rcases (insertAndEnforce_mem g1 h5).2 e' he' with h7 | h7
        · exact hw.mem h7
        · rw [h7]
          obtain ⟨a1, a2, _⟩ := asOrphan_some h4
          have : e3 = e := by
            cases e3; cases e
            simp only [Option.some.injEq] at a1 a2
            rw [a1, a2]
          rw [this]; exact hmem

example : ((World.new []).run (story.take 3 ++ [work1 13 (.rejected .other true)])).map seen = some ([(2, 7)], [1], false) := by decide +kernel

/-! ### The assertions of the queue -/

/-- If no transaction comes in from a peer after the peer was reported as disconnected, no assertion of the orphan pool or
of the queue ever fails, whatever else happens. -/
theorem C72_no_abort (confirmed : List Dep) {ops : List Op} (hq : Quiet (fun _ => False) ops) :
    ∃ w, (World.new confirmed).run ops = some w := by
  obtain ⟨w, h, _⟩ := safe_run ops (w := World.new confirmed) safe_new hq
  exact ⟨w, h⟩

example : Quiet (fun _ => False) (story ++ [.disconnect 7, orph 8 20 (spend 9 20 [8])]) := by
  simp [story, Quiet, orph, acc, work1]

/-- Without that, the process ends: the peer is still scheduled from before it disconnected, is scheduled once more when a
late orphan of it gets its parent, is served twice in one round, and the second time has nothing. -/
theorem C72_witness_abort : ((World.new []).run [orph 7 10 (spend 2 10 [1]), acc none 11 (spend 1 11 [0]), .disconnect 7,
    orph 7 12 (spend 4 12 [3]), acc none 13 (spend 3 13 [0]), work1 14 .added]).map seen = some ([], [4, 3, 1], true) ∧
    ((World.new []).run [orph 7 10 (spend 2 10 [1]), acc none 11 (spend 1 11 [0]), .disconnect 7, orph 7 12 (spend 4 12 [3]),
      acc none 13 (spend 3 13 [0]), work1 14 .added, work1 15 .added]).isNone = true := by decide +kernel

/-! ### No orphan is forgotten -/

/-- An orphan that has everything it requires is in the queue of its peer, and there is work. (The events are legal: see
`Legal`; the three witnesses below show that each restriction is needed.) -/
theorem C72_awake {confirmed : List Dep} {ops : List Op} {w : World} (hl : LegalRun (World.new confirmed) ops)
    (h : (World.new confirmed).run ops = some w) {e : Entry} (he : e ∈ w.orphans) (hc : Complete w.mem w.confirmed e.tx) :
    w.Queued e ∧ w.s.hasWork = true := by
  obtain ⟨_, hd⟩ := run_good ops good_new qok_new.2 h
  have ha := run_awake ops good_new qok_new.2 (awake_new confirmed) hl h
  rcases ha.awake e he with h1 | ⟨d, h2, h3⟩
  · exact ⟨h1, has_hasWork hd h1⟩
  · exact absurd (hc d h2) h3

/-- When the work is done, every orphan lacks something. -/
theorem C72_settled {confirmed : List Dep} {ops : List Op} {w : World} (hl : LegalRun (World.new confirmed) ops)
    (h : (World.new confirmed).run ops = some w) (hw : w.s.hasWork = false) :
    ∀ e ∈ w.orphans, ∃ d ∈ e.tx.required, ¬ Given w.mem w.confirmed d := by
  intro e he
  apply not_complete
  intro hc
  rw [(C72_awake hl h he hc).2] at hw
  cases hw

/-- The work comes to an end, whatever the transaction pool answers: after finitely many units there is none. -/
theorem C72_drain {confirmed : List Dep} {ops : List Op} (hq : Quiet (fun _ => False) ops) {w : World}
    (h : (World.new confirmed).run ops = some w) (f : Nat → Op) (hf : ∀ n, ∃ d now answer, f n = .work d now answer) :
    ∃ k w', w.works f k = some w' ∧ w'.s.hasWork = false := by
  obtain ⟨w2, h1, gone, h2⟩ := safe_run ops (w := World.new confirmed) safe_new hq
  rw [h] at h1
  cases h1
  obtain ⟨k, w', _, h3, h4⟩ := drain f hf _ _ 0 w rfl h2 rfl rfl
  exact ⟨k, w', h3, h4⟩

/-- A transaction that keeps being rejected as an orphan does not keep the node busy. -/
example : ((World.new []).run (story.take 3 ++ [work1 13 (.rejected .missingUtxo true)])).map seen =
    some ([(2, 7), (3, 7)], [1], false) := by decide +kernel

/-- The parent 3 of the orphan 2 is itself an orphan. While it waits to be processed it is submitted once more and
accepted; the orphan 2 is queued and examined first, is put aside since 3 is still listed as an orphan, and then 3 is found
to be a duplicate, which wakes nobody: 2 has everything it requires and stays where it is. -/
theorem C72_witness_forgotten : ((World.new [.txOutput 0 0]).run [orph 7 10 (spend 3 10 [1]), orph 7 11 (spend 2 11 [3]),
    acc none 12 (spend 1 12 [0]), acc none 13 (spend 3 10 [1]), work1 14 .added, work1 15 .duplicate]).map seen =
      some ([(2, 7)], [3, 1], false) ∧ (spend 2 11 [3]).required = [.txOutput 3 0] := by decide +kernel

/-- A transaction of a block comes in once more (its input is spent, so it is taken for an orphan): an orphan that spends an
output of it is put aside although everything is there. -/
theorem C72_witness_copy : ((World.new [.txOutput 0 0, .txOutput 1 0]).run [orph 7 10 (spend 5 10 [1, 4]),
    orph 8 11 (spend 1 11 [9]), acc none 12 (spend 4 12 [0]), work1 13 .added]).map seen =
      some ([(5, 7), (1, 8)], [4], false) ∧ (spend 5 10 [1, 4]).required = [.txOutput 1 0, .txOutput 4 0] := by decide +kernel

/-- The parent comes with a block: the orphan is not queued. -/
theorem C72_witness_mined : ((World.new []).run [orph 7 10 (spend 2 10 [1]), .chain [.txOutput 1 0] [], work1 11 .added]).map seen =
    some ([(2, 7)], [], false) ∧ (spend 2 10 [1]).required = [.txOutput 1 0] := by decide +kernel

/-! ### Peers take turns -/

/-- While a peer waits for its turn, no other peer is served more than twice, however much work the others have or get in
the meantime. (No work comes in for a removed peer, and the waiting one is not removed.) -/
theorem C72_fair {R : Type} {before after : List (QOp R)} (hq : QuietQ (fun _ => False) (before ++ after))
    {q q' : Queue} {l served : List Nat} (hb : runQ before Queue.new = some (q, l)) {peer item : Nat} (hi : q.Has peer item)
    (ha : runQ after q = some (q', served)) (hs : Stays peer after) (hn : peer ∉ served) (p : Nat) : served.count p ≤ 2 := by
  by_cases hp : p = peer
  · rw [hp, List.count_eq_zero_of_not_mem hn]
    omega
  · have hq1 : QuietQ (fun _ => False) before := quiet_prefix before hq
    obtain ⟨q2, l2, h1, h2, h3⟩ := run_ok before qok_new.1 qok_new.2 hq1
    rw [hb] at h1
    cases h1
    obtain ⟨gone, h4, h5⟩ := h3 after hq
    exact le_trans (run_turns hp after h4 h2 hi h5 hs ha hn) (turns_le_two _ _ _ _)

/-- Peer 7 has three items, peer 8 comes later with one: it is served after at most two of the others. -/
example : (runQ [.insert rnd0 7 1, .insert rnd0 7 2, .insert rnd0 7 3, .insert rnd0 8 4, .pick rnd0 (fun p x => some (p, x)),
    .pick rnd0 (fun p x => some (p, x)), .pick rnd0 (fun p x => some (p, x)), .pick rnd0 (fun p x => some (p, x))] Queue.new).map Prod.snd =
    some [7, 8, 7, 7] := by decide +kernel

/-! ### The hypotheses of `C72_awake` and `C72_settled` are met by the example -/

/-- the transaction of an output -/
def outOf : Dep → Option (Nat × Nat)
  | .txOutput u n => some (u, n)
  | _ => none

theorem outOf_iff {d : Dep} {u n : Nat} : outOf d = some (u, n) ↔ d = .txOutput u n := by
  cases d <;> simp [outOf]

instance (mem : List Tx) (confirmed : List Dep) (d : Dep) : Decidable (Given mem confirmed d) :=
  decidable_of_iff (d ∈ confirmed ∨ (∃ t ∈ mem, (outOf d).map Prod.fst = some t.id) ∨ ∃ t ∈ mem, d ∈ t.provided) (by
    unfold Given
    refine or_congr Iff.rfl (or_congr ?_ Iff.rfl)
    constructor
    · rintro ⟨t, ht, h⟩
      obtain ⟨⟨u, n⟩, h1, h2⟩ := Option.map_eq_some_iff.1 h
      cases h2
      exact ⟨t, ht, n, outOf_iff.1 h1⟩
    · rintro ⟨t, ht, n, h⟩
      exact ⟨t, ht, by rw [outOf_iff.2 h]; rfl⟩)

instance (mem : List Tx) (confirmed : List Dep) (t : Tx) : Decidable (Complete mem confirmed t) := by unfold Complete; infer_instance

instance (mem : List Tx) (confirmed : List Dep) (t : Tx) (o : Outcome) : Decidable (Honest mem confirmed t o) := by
  unfold Honest
  cases o with
  | added => infer_instance
  | duplicate => infer_instance
  | failed => infer_instance
  | rejected why rbf => cases why <;> infer_instance

instance (t : Tx) : Decidable (Fits t) :=
  decidable_of_iff (∀ d ∈ t.required, ∀ x ∈ outOf d, x.2 < 2 ^ 32) (by
    constructor
    · intro h u n hd
      exact h _ hd (u, n) rfl
    · rintro h d hd ⟨u, n⟩ hx
      have := outOf_iff.1 hx
      subst this
      exact h u n hd)

instance (id : Nat) (confirmed : List Dep) : Decidable (∀ n, Dep.txOutput id n ∉ confirmed) :=
  decidable_of_iff (∀ d ∈ confirmed, (outOf d).map Prod.fst ≠ some id) (by
    constructor
    · intro h n hd
      exact h _ hd rfl
    · intro h d hd hx
      obtain ⟨⟨u, n⟩, h1, h2⟩ := Option.map_eq_some_iff.1 hx
      cases h2
      have := outOf_iff.1 h1
      subst this
      exact h n hd)

instance (w : World) (op : Op) : Decidable (Legal w op) := by
  unfold Legal
  cases op <;> infer_instance

def legalRunB : World → List Op → Bool
  | _, [] => true
  | w, op :: t => decide (Legal w op) && match w.step op with
      | none => true
      | some w' => legalRunB w' t

theorem legalRunB_sound : ∀ (ops : List Op) {w : World}, legalRunB w ops = true → LegalRun w ops
  | [], _, _ => trivial
  | op :: t, w, h => by
    rw [legalRunB, Bool.and_eq_true, decide_eq_true_eq] at h
    refine ⟨h.1, ?_⟩
    intro w' hw
    have h2 := h.2
    rw [hw] at h2
    exact legalRunB_sound t h2

/-- The whole story is legal; after the first three events the orphan 3 is complete and queued, and 2 is not complete. -/
example : LegalRun (World.new [.txOutput 0 0]) story := legalRunB_sound _ (by decide +kernel)
example : ((World.new [.txOutput 0 0]).run (story.take 3)).map (fun w => w.orphans.map (fun e => (e.tx.id, decide (Complete w.mem w.confirmed e.tx)))) =
    some [(3, true), (2, false)] := by decide +kernel
/-- The runs of the witnesses are not, and their orphans are complete. -/
example : legalRunB (World.new [.txOutput 0 0]) [orph 7 10 (spend 3 10 [1]), orph 7 11 (spend 2 11 [3]),
    acc none 12 (spend 1 12 [0]), acc none 13 (spend 3 10 [1])] = false ∧
    legalRunB (World.new [.txOutput 0 0]) [orph 7 10 (spend 3 10 [1]), orph 7 11 (spend 2 11 [3]), acc none 12 (spend 1 12 [0])] = true := by
  decide +kernel
example : Complete [spend 3 10 [1], spend 1 12 [0]] [.txOutput 0 0] (spend 2 11 [3]) ∧
    Complete [spend 4 12 [0]] [.txOutput 0 0, .txOutput 1 0] (spend 5 10 [1, 4]) ∧ Complete [] [.txOutput 1 0] (spend 2 10 [1]) := by
  decide +kernel

end Verif.TxOrphans
