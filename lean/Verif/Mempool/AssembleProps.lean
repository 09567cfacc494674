import Verif.Mempool.AssembleInv
import Verif.Mempool.Props

/-!
# Properties of block assembly (C48)

`connect` stands for the verifier's `connect_transaction`; nothing is assumed about it except where `Atomic` is
named. Whether the verifier of the code is `Atomic` is a separate question (it is not).
-/

set_option maxRecDepth 100000

namespace Verif.Mempool

open Verif (BMap)

variable {V : Type}

/-! ## Specification -/

/-- the transactions a call may select: ancestors of the given ones, and any if the rest is to be filled -/
def Wanted (s : Store) (ids : List Nat) (fill : Bool) (x : Nat) : Prop :=
  (∃ r ∈ ids, Reach s.view x r) ∨ (fill = true ∧ x ∈ s.ids)

/-- the verifier refuses `t` after some beginning of `new` -/
def Refused (connect : V → Tx → V × Bool) (v : V) (new : List Tx) (t : Tx) : Prop :=
  ∃ pre post v', new = pre ++ post ∧ connectAll connect pre v = some v' ∧ (connect v' t).2 = false

/-- fee rate of `t` together with all its ancestors in the pool, or its own one if that is lower; per kilobyte -/
noncomputable def ancestorRate (s : Store) (t : Tx) : Nat :=
  let a := total s.view s.ids (fun k => Reach s.view k t.id)
  min (a.2.1 * 1000 / a.2.2) (t.fee * 1000 / t.size)

/-! ## Lemmas -/

theorem mem_byAnc {s : Store} (hI : Inv s) {x : Nat} :
    x ∈ (s.byAnc.entries.map (fun p => (ofLex p.1).2)).reverse ↔ x ∈ s.ids := by
  rw [List.mem_reverse, List.mem_map, mem_ids]
  constructor
  · rintro ⟨⟨k, ⟨⟩⟩, hp, rfl⟩
    have h1 := BMap.mem_entries.1 hp
    have h2 := (hI.byAnc (ofLex k).1 (ofLex k).2).1 h1
    obtain ⟨e, he, -⟩ := Option.map_eq_some_iff.1 h2
    exact ⟨e, he⟩
  · rintro ⟨e, he⟩
    have h1 := (hI.byAnc e.ancN x).2 (by beta_reduce; rw [he]; rfl)
    exact ⟨(toLex (e.ancN, x), ()), BMap.mem_entries.2 h1, rfl⟩

theorem score_eq {s : Store} {x : Nat} {e : Entry} (he : s.byId.get x = some e) : score s x = e.ancN := by
  unfold score; rw [he]; rfl

theorem score_rate {s : Store} (hI : Inv s) {x : Nat} {t : Tx} (ht : s.view x = some t) : score s x = ancestorRate s t := by
  obtain ⟨e, he, rfl⟩ := view_some.1 ht
  rw [score_eq he]
  have h1 := hI.ancestors x e he
  have h2 := (hI.key x e he).1
  unfold ancestorRate Entry.ancN
  rw [h2]
  simp only [Entry.A] at h1
  rw [← h1]

theorem byAnc_desc {s : Store} (hI : Inv s) :
    ((s.byAnc.entries.map (fun p => (ofLex p.1).2)).reverse).Pairwise (fun a b => score s b ≤ score s a) := by
  rw [List.pairwise_reverse, List.pairwise_map]
  have key : ∀ p ∈ s.byAnc.entries, score s (ofLex p.1).2 = (ofLex p.1).1 := by
    rintro ⟨k, ⟨⟩⟩ hp
    have h2 := (hI.byAnc (ofLex k).1 (ofLex k).2).1 (BMap.mem_entries.1 hp)
    obtain ⟨e, he, h3⟩ := Option.map_eq_some_iff.1 h2
    simp only
    rw [score_eq he]
    exact h3
  refine List.Pairwise.imp_of_mem ?_ s.byAnc.sorted
  intro a b ha hb hab
  rw [key a ha, key b hb]
  rcases Prod.Lex.lt_iff.1 hab with h | ⟨h, -⟩
  · exact le_of_lt h
  · exact le_of_eq h

theorem mem_candidates {s : Store} (hI : Inv s) {tl : Tx → Bool} {acc : Acc} {given : List Nat} {fill : Bool} {x : Nat}
    {t : Tx} (hx : s.view x = some t) :
    x ∈ candidates s tl acc given fill ↔
      (x ∈ given ∨ (fill = true ∧ x ∈ s.ids)) ∧ x ∉ acc.txs.map Tx.id ∧ tl t = true := by
  obtain ⟨e, he, rfl⟩ := view_some.1 hx
  unfold candidates
  rw [List.mem_filter, mem_fresh, List.mem_append]
  simp only [he]
  have hif : x ∈ (if fill = true then (s.byAnc.entries.map (fun p => (ofLex p.1).2)).reverse else []) ↔
      fill = true ∧ x ∈ s.ids := by
    split
    · rename_i h; rw [mem_byAnc hI]; simp [h]
    · rename_i h; simp [h]
  rw [hif, and_assoc]

theorem candidates_sub {s : Store} (hI : Inv s) {tl : Tx → Bool} {acc : Acc} {given : List Nat} {fill : Bool}
    (hg : ∀ x ∈ given, x ∈ s.ids) : ∀ x ∈ candidates s tl acc given fill, x ∈ s.ids := by
  intro x hx
  unfold candidates at hx
  have := (mem_fresh.1 (List.mem_filter.1 hx).1).1
  rcases List.mem_append.1 this with h | h
  · exact hg x h
  · split at h
    · exact (mem_byAnc hI).1 h
    · simp at h

theorem queue_init {s : Store} {connect : V → Tx → V × Bool} {acc : Acc} {v : V} {q : List Nat}
    (hd : acc.done = false) (hqa : ∀ x ∈ q, x ∉ acc.txs.map Tx.id) :
    Queue s connect acc v q ⟨q, BMap.empty, [], acc.txs.map Tx.id, acc, v, []⟩ [] where
  core := {
    txs := by simp
    size := by simp
    target := rfl
    fees := by simp
    sizeok := by simp
    nodup := by simp
    mem := by simp
    order := by intro pre t post h; simp at h
    greedy := by intro _ pre t post h; simp at h
    rej := by simp
    run := by intro _; rfl }
  em := by simp
  notdone := hd
  v := fun _ => rfl
  sub := List.Sublist.refl _
  iter := by intro x hx; exact ⟨rfl, by simp, hqa x hx, by simp⟩
  pend := by intro x m h; simp [BMap.empty, BMap.get, BMap.lookupL] at h
  ready := by simp
  ready_nodup := by simp
  ready_desc := List.Pairwise.nil
  cover := fun x hx => Or.inl hx

theorem collect_main {s : Store} (hI : Inv s) {connect : V → Tx → V × Bool} {tl : Tx → Bool} {acc : Acc} {v0 v : V}
    {ids : List Nat} {fill : Bool} (hd : acc.done = false) (hfee : acc.fees + poolFees s < U128)
    (hv : connectAll connect acc.txs v0 = some v) (hids : ∀ x ∈ ids, x ∈ s.ids) :
    ∃ st new given, collectTxs s connect tl acc v0 ids fill = .ok st ∧
      (∀ x, x ∈ given ↔ ∃ r ∈ ids, Reach s.view x r) ∧ (ids = [] → given = []) ∧
      Final s connect acc v (candidates s tl acc given fill) st new := by
  obtain ⟨given, hg, hgm⟩ := hI.givenIds_ok hids
  have hgs : ∀ x ∈ given, x ∈ s.ids := by
    intro x hx
    obtain ⟨r, hr, hxr⟩ := (hgm x).1 hx
    exact reach_mem hxr (hids r hr)
  have hq := candidates_sub hI (tl := tl) (acc := acc) (fill := fill) hgs
  have hqn : (candidates s tl acc given fill).Nodup := (nodup_fresh _ _).filter _
  have hqa : ∀ x ∈ candidates s tl acc given fill, x ∉ acc.txs.map Tx.id := by
    intro x hx
    exact (mem_fresh.1 (List.mem_filter.1 hx).1).2
  obtain ⟨st, new, h1, h2⟩ := loop_ok hI hq hqn hfee ((candidates s tl acc given fill).length + 1) _ []
    (queue_init (connect := connect) (v := v) hd hqa) (Nat.lt_succ_of_le (List.length_filter_le _ _))
  refine ⟨st, new, given, ?_, hgm, ?_, h2⟩
  · unfold collectTxs
    have hf : ids.find? (fun x => (s.byId.get x).isNone) = none := by
      rw [List.find?_eq_none]
      intro x hx
      obtain ⟨e, he⟩ := mem_ids.1 (hids x hx)
      simp [he]
    rw [hv]
    simp only [bind, Except.bind, hf, hg]
    exact h1
  · rintro rfl
    rw [List.eq_nil_iff_forall_not_mem]
    intro x hx
    obtain ⟨r, hr, -⟩ := (hgm x).1 hx
    simp at hr

/-- conditions under which the rest is stated -/
structure Request (s : Store) (connect : V → Tx → V × Bool) (acc : Acc) (v0 v : V) (ids : List Nat) : Prop where
  /-- the accumulator is not full yet and its fees leave room for those of the pool -/
  notdone : acc.done = false
  fees : acc.fees + poolFees s < U128
  /-- what it contains already connects -/
  connects : connectAll connect acc.txs v0 = some v
  /-- the given transactions are in the pool -/
  known : ∀ x ∈ ids, x ∈ s.ids

/-! ## Properties -/

/-- **C48 (assembly always succeeds).** For a pool with any history, whatever the verifier does, assembly neither panics
nor loops. -/
theorem C48_assembly_succeeds {mc ms : Nat} (hpos : 1 ≤ mc) {s : Store} (h : Hist mc ms s) {connect : V → Tx → V × Bool}
    {tl : Tx → Bool} {acc : Acc} {v0 v : V} {ids : List Nat} {fill : Bool} (hr : Request s connect acc v0 v ids) :
    ∃ st, collectTxs s connect tl acc v0 ids fill = .ok st := by
  obtain ⟨st, _, _, h1, _⟩ := collect_main (C34_bookkeeping hpos h) (tl := tl) (fill := fill) hr.notdone hr.fees hr.connects hr.known
  exact ⟨st, h1⟩

/-- **C48 (reasons for refusal).** The only errors are that the accumulator's own transactions do not connect, or that a
given transaction is not in the pool. -/
theorem C48_errors {mc ms : Nat} (hpos : 1 ≤ mc) {s : Store} (h : Hist mc ms s) {connect : V → Tx → V × Bool}
    {tl : Tx → Bool} {acc : Acc} {v0 : V} {ids : List Nat} {fill : Bool} (hd : acc.done = false)
    (hfee : acc.fees + poolFees s < U128) {e : AErr} (he : collectTxs s connect tl acc v0 ids fill = .error e) :
    (e = .invalid ∧ connectAll connect acc.txs v0 = none) ∨ (∃ x ∈ ids, e = .notFound x ∧ s.view x = none) := by
  cases hv : connectAll connect acc.txs v0 with
  | none =>
    left
    unfold collectTxs at he
    rw [hv] at he
    simp only [bind, Except.bind, Except.error.injEq] at he
    exact ⟨he.symm, rfl⟩
  | some v =>
    right
    by_cases hids : ∀ x ∈ ids, x ∈ s.ids
    · obtain ⟨st, h1⟩ := C48_assembly_succeeds hpos h (tl := tl) (fill := fill) ⟨hd, hfee, hv, hids⟩
      rw [h1] at he; simp at he
    · unfold collectTxs at he
      rw [hv] at he
      simp only [bind, Except.bind] at he
      cases hf : ids.find? (fun x => (s.byId.get x).isNone) with
      | none =>
        exfalso
        apply hids
        intro x hx
        have := List.find?_eq_none.1 hf x hx
        simp only [Option.isNone_iff_eq_none] at this
        obtain ⟨e', he'⟩ := Option.ne_none_iff_exists'.1 this
        exact mem_ids.2 ⟨e', he'⟩
      | some x =>
        rw [hf] at he
        simp only [Except.error.injEq] at he
        refine ⟨x, List.mem_of_find?_eq_some hf, he.symm, ?_⟩
        have := List.find?_some hf
        simp only [Option.isNone_iff_eq_none] at this
        simp [Store.view, this]

/-- **C48 (the block).** Assembly appends to the accumulator transactions of the pool, none twice and none that was there
already, all of them asked for and past their time lock; each comes after all its parents. Fees and sizes are the sums,
and the size does not exceed the target. -/
theorem C48_block {mc ms : Nat} (hpos : 1 ≤ mc) {s : Store} (h : Hist mc ms s) {connect : V → Tx → V × Bool}
    {tl : Tx → Bool} {acc : Acc} {v0 v : V} {ids : List Nat} {fill : Bool} (hr : Request s connect acc v0 v ids)
    {st : Asm V} (hst : collectTxs s connect tl acc v0 ids fill = .ok st) :
    ∃ new, st.acc.txs = acc.txs ++ new ∧ (new.map Tx.id).Nodup ∧
      (∀ t ∈ new, s.view t.id = some t ∧ Wanted s ids fill t.id ∧ tl t = true ∧ t.id ∉ acc.txs.map Tx.id) ∧
      (∀ pre t post, new = pre ++ t :: post → ∀ p, Edge s.view p t.id → p ∈ (acc.txs ++ pre).map Tx.id) ∧
      st.acc.fees = acc.fees + (new.map Tx.fee).sum ∧ st.acc.txsSize = acc.txsSize + (new.map Tx.size).sum ∧
      (new ≠ [] → compactLen (acc.txs ++ new).length + acc.txsSize + (new.map Tx.size).sum ≤ acc.target) := by
  have hI := C34_bookkeeping hpos h
  obtain ⟨st', new, given, h1, hg, -, hc, -, -⟩ := collect_main hI (tl := tl) (fill := fill) hr.notdone hr.fees hr.connects hr.known
  rw [hst] at h1
  simp only [Except.ok.injEq] at h1
  subst h1
  refine ⟨new, hc.txs, hc.nodup, ?_, ?_, hc.fees, hc.size, ?_⟩
  · intro t ht
    obtain ⟨m1, m2⟩ := hc.mem t ht
    obtain ⟨g1, g2, g3⟩ := (mem_candidates hI m2).1 m1
    exact ⟨m2, g1.imp (hg _).1 id, g3, g2⟩
  · intro pre t post hn p hE
    rw [List.map_append, List.mem_append]
    exact hc.order pre t post hn p hE
  · intro hne
    have := hc.sizeok hne
    unfold Acc.totalSize at this
    rw [hc.txs, hc.size, hc.target] at this
    omega

/-- **C48 (the block connects).** If the verifier is left unchanged by a transaction it refuses, then the
block as assembled connects, transaction after transaction. -/
theorem C48_connects {mc ms : Nat} (hpos : 1 ≤ mc) {s : Store} (h : Hist mc ms s) {connect : V → Tx → V × Bool}
    (ha : Atomic connect) {tl : Tx → Bool} {acc : Acc} {v0 v : V} {ids : List Nat} {fill : Bool}
    (hr : Request s connect acc v0 v ids) {st : Asm V} (hst : collectTxs s connect tl acc v0 ids fill = .ok st) :
    (connectAll connect st.acc.txs v0).isSome := by
  obtain ⟨st', new, given, h1, hg, -, hc, -, -⟩ := collect_main (C34_bookkeeping hpos h) (tl := tl) (fill := fill) hr.notdone hr.fees hr.connects hr.known
  rw [hst] at h1
  simp only [Except.ok.injEq] at h1
  subst h1
  have hrun := hc.run ha
  rw [hc.txs]
  have key : ∀ (l : List Tx) (w : V), connectAll connect l w = some v →
      connectAll connect (l ++ new) w = connectAll connect new v := by
    intro l
    induction l with
    | nil => intro w hw; simp only [connectAll, Option.some.injEq] at hw; subst hw; rfl
    | cons a as ih =>
      intro w hw
      simp only [connectAll, List.cons_append] at hw ⊢
      split at hw
      · rename_i g; rw [if_pos g]; exact ih _ hw
      · simp at hw
  rw [key acc.txs v0 hr.connects]
  exact hrun

/-- **C48 (nothing is left behind).** If the block did not fill up, every transaction asked for is in it, or
one of its ancestors (possibly itself) is not, and that one was still locked or was refused by the verifier after
some beginning of the block. -/
theorem C48_nothing_left_behind {mc ms : Nat} (hpos : 1 ≤ mc) {s : Store} (h : Hist mc ms s)
    {connect : V → Tx → V × Bool} (ha : Atomic connect) {tl : Tx → Bool} {acc : Acc} {v0 v : V} {ids : List Nat}
    {fill : Bool} (hr : Request s connect acc v0 v ids) {st : Asm V}
    (hst : collectTxs s connect tl acc v0 ids fill = .ok st) (hd : st.acc.done = false) {x : Nat} {t : Tx}
    (hx : s.view x = some t) (hw : Wanted s ids fill x) :
    x ∈ st.acc.txs.map Tx.id ∨ ∃ a ta, Reach s.view a x ∧ s.view a = some ta ∧ a ∉ st.acc.txs.map Tx.id ∧
      (tl ta = false ∨ ∃ new, st.acc.txs = acc.txs ++ new ∧ Refused connect v new ta) := by
  have hI := C34_bookkeeping hpos h
  obtain ⟨st', new, given, h1, hg, -, hc, hq, -⟩ := collect_main hI (tl := tl) (fill := fill) hr.notdone hr.fees hr.connects hr.known
  rw [hst] at h1
  simp only [Except.ok.injEq] at h1
  subst h1
  obtain ⟨hQ, hit, hrd⟩ := hq hd
  obtain ⟨n, hn⟩ : ∃ n, s.seqOf.get x = some n := (hI.seq_dom x).2 (by
    obtain ⟨e, he, -⟩ := view_some.1 hx
    exact mem_ids.2 ⟨e, he⟩)
  induction n using Nat.strong_induction_on generalizing x t with
  | _ n ih =>
    by_cases hin : x ∈ st.acc.txs.map Tx.id
    · exact Or.inl hin
    right
    have hina : x ∉ acc.txs.map Tx.id := by
      intro g; apply hin; rw [hc.txs, List.map_append, List.mem_append]; exact Or.inl g
    have hinn : x ∉ new.map Tx.id := by
      intro g; apply hin; rw [hc.txs, List.map_append, List.mem_append]; exact Or.inr g
    by_cases htl : tl t = true
    · have hcand := (mem_candidates hI hx (tl := tl) (acc := acc) (given := given) (fill := fill)).2
        ⟨hw.imp (hg x).2 id, hina, htl⟩
      rcases hQ.cover x hcand with g | ⟨m, g⟩ | g | g | g
      · rw [hit] at g; simp at g
      · obtain ⟨g1, g2, g3, g4, g5, g6⟩ := hQ.pend x m g
        obtain ⟨e, he, rfl⟩ := view_some.1 hx
        have hm : missing st.emitted e ≠ 0 := by rw [← g6 e he]; omega
        rw [Ne, missing_zero] at hm
        push Not at hm
        obtain ⟨p, hp, hpe⟩ := hm
        have hE := ((hI.parents x e he).2 p).1 hp
        obtain ⟨ep, hep⟩ := mem_ids.1 (edge_mem hE).1
        obtain ⟨k, hk⟩ := (hI.seq_dom p).2 (edge_mem hE).1
        have hlt := hI.seq_edge p x k n hE hk hn
        have hpn : p ∉ st.acc.txs.map Tx.id := by
          rw [hc.txs, List.map_append, List.mem_append]
          exact fun q => hpe ((hQ.em p).2 q)
        have hwp : Wanted s ids fill p := by
          rcases hw with ⟨r, hr', hxr⟩ | ⟨hf, -⟩
          · exact Or.inl ⟨r, hr', Relation.ReflTransGen.head hE hxr⟩
          · exact Or.inr ⟨hf, (edge_mem hE).1⟩
        rcases ih k hlt (t := ep.tx) (view_some.2 ⟨ep, hep, rfl⟩) hwp hk with q | ⟨a, ta, q1, q2⟩
        · exact absurd q hpn
        · exact ⟨a, ta, Relation.ReflTransGen.tail q1 hE, q2⟩
      · rw [hrd] at g; simp at g
      · exact absurd g hinn
      · obtain ⟨-, -, t', ht', pre, post, v', hn', hrun, hf⟩ := hc.rej x g
        rw [hx] at ht'
        simp only [Option.some.injEq] at ht'
        subst ht'
        exact ⟨x, t, .refl, hx, hin, Or.inr ⟨new, hc.txs, pre, post, v', hn', hrun ha, hf⟩⟩
    · exact ⟨x, t, .refl, hx, hin, Or.inl (by simpa using htl)⟩

/-- **C48 (when it stops early).** If the block did fill up, then because some transaction asked for that is not in it
would have exceeded the target. -/
theorem C48_full {mc ms : Nat} (hpos : 1 ≤ mc) {s : Store} (h : Hist mc ms s) {connect : V → Tx → V × Bool}
    {tl : Tx → Bool} {acc : Acc} {v0 v : V} {ids : List Nat} {fill : Bool} (hr : Request s connect acc v0 v ids)
    {st : Asm V} (hst : collectTxs s connect tl acc v0 ids fill = .ok st) (hd : st.acc.done = true) :
    ∃ t, s.view t.id = some t ∧ Wanted s ids fill t.id ∧ tl t = true ∧ t.id ∉ st.acc.txs.map Tx.id ∧
      acc.target < compactLen (st.acc.txs.length + 1) + st.acc.txsSize + t.size := by
  have hI := C34_bookkeeping hpos h
  obtain ⟨st', new, given, h1, hg, -, hc, -, hf⟩ := collect_main hI (tl := tl) (fill := fill) hr.notdone hr.fees hr.connects hr.known
  rw [hst] at h1
  simp only [Except.ok.injEq] at h1
  subst h1
  obtain ⟨t, h2, h3, h4, h5⟩ := hf hd
  obtain ⟨g1, g2, g3⟩ := (mem_candidates hI h3).1 h2
  refine ⟨t, h3, g1.imp (hg _).1 id, g3, ?_, by rw [← hc.target]; exact h5⟩
  rw [hc.txs, List.map_append, List.mem_append]
  exact fun g => g.elim g2 h4

/-- **C48 (best first).** When the pool is free to choose, every transaction is chosen because no other one that
could have been placed there pays a higher rate (its own, or with its ancestors if that is lower): any
transaction past its time lock, with its parents in the block by then, pays at most as much, unless the verifier
refused it. -/
theorem C48_best_first {mc ms : Nat} (hpos : 1 ≤ mc) {s : Store} (h : Hist mc ms s) {connect : V → Tx → V × Bool}
    (ha : Atomic connect) {tl : Tx → Bool} {acc : Acc} {v0 v : V} (hr : Request s connect acc v0 v [])
    {st : Asm V} (hst : collectTxs s connect tl acc v0 [] true = .ok st) {pre post : List Tx} {t y : Tx}
    (hn : st.acc.txs = acc.txs ++ pre ++ t :: post) (hy : s.view y.id = some y) (htl : tl y = true)
    (hfree : y.id ∉ (acc.txs ++ pre).map Tx.id) (hpar : ∀ p, Edge s.view p y.id → p ∈ (acc.txs ++ pre).map Tx.id)
    (hok : ¬ Refused connect v (pre ++ t :: post) y) : ancestorRate s y ≤ ancestorRate s t := by
  have hI := C34_bookkeeping hpos h
  obtain ⟨st', new, given, h1, hg, hge, hc, -, -⟩ := collect_main hI (tl := tl) (fill := true) hr.notdone hr.fees hr.connects hr.known
  rw [hst] at h1
  simp only [Except.ok.injEq] at h1
  subst h1
  have hnew : new = pre ++ t :: post := by
    have := hc.txs
    rw [hn, List.append_assoc] at this
    exact (List.append_cancel_left this).symm
  rw [hge rfl] at hc
  have hyids : y.id ∈ s.ids := by
    obtain ⟨e, he, -⟩ := view_some.1 hy
    exact mem_ids.2 ⟨e, he⟩
  rw [List.map_append, List.mem_append] at hfree
  have := hc.greedy (by
      unfold candidates
      simp only [List.nil_append, if_true]
      exact List.Pairwise.sublist ((List.filter_sublist).trans (fresh_sublist _ _)) (byAnc_desc hI))
    pre t post hnew y.id ((mem_candidates hI hy).2 ⟨Or.inr ⟨rfl, hyids⟩, fun g => hfree (Or.inl g), htl⟩)
    (fun hrej => by
      obtain ⟨-, -, t', ht', pre', post', v', hn', hrun, hf⟩ := hc.rej _ hrej
      rw [hy] at ht'
      simp only [Option.some.injEq] at ht'
      subst ht'
      exact hok ⟨pre', post', v', by rw [← hnew]; exact hn', hrun ha, hf⟩)
    (fun g => hfree (Or.inr g))
    (fun p hp => by have := hpar p hp; rwa [List.map_append, List.mem_append] at this)
  rw [score_rate hI hy, score_rate hI (hc.mem t (by rw [hnew]; simp)).2] at this
  exact this

/-! ## Concrete cases -/

/-- a verifier that accepts everything except transaction 5 -/
def no5 : List Nat → Tx → List Nat × Bool := fun v t => if t.id = 5 then (v, false) else (t.id :: v, true)

theorem no5_atomic : Atomic no5 := by
  intro v t h
  unfold no5 at h ⊢
  split
  · rfl
  · rename_i g; rw [if_neg g] at h; simp at h

theorem pool5_fees : poolFees pool5 < U128 := by
  have := (C34_bookkeeping (by decide) pool5_hist).fits
  unfold poolFees
  generalize U128 = U at *
  omega

/-- an empty accumulator for blocks of 1000 bytes -/
theorem request5 : Request pool5 no5 (Acc.new 1000) [] [] [] :=
  ⟨rfl, by simpa [Acc.new] using pool5_fees, rfl, by simp⟩

-- everything but 5, parents first, best rate first among the available
example : ((collectTxs pool5 no5 (fun _ => true) (Acc.new 1000) [] [] true).toOption.map
    (fun st => (st.acc.txs.map Tx.id, st.acc.fees, st.acc.done))) = some ([1, 2, 3, 4], 5500, false) := by decide +kernel
-- with a target of 500 bytes the last one does not fit
example : ((collectTxs pool5 no5 (fun _ => true) (Acc.new 500) [] [] true).toOption.map
    (fun st => (st.acc.txs.map Tx.id, st.acc.fees, st.acc.done))) = some ([1, 2, 3], 1500, true) := by decide +kernel
-- only the ancestors of 2
example : ((collectTxs pool5 no5 (fun _ => true) (Acc.new 1000) [] [2] false).toOption.map
    (fun st => st.acc.txs.map Tx.id)) = some [1, 2] := by decide +kernel
-- with 3 still locked, 4 has to wait as well
example : ((collectTxs pool5 no5 (fun t => t.id ≠ 3) (Acc.new 1000) [] [] true).toOption.map
    (fun st => st.acc.txs.map Tx.id)) = some [1, 2] := by decide +kernel
-- a transaction that is not in the pool
example : collectTxs pool5 no5 (fun _ => true) (Acc.new 1000) [] [9] false |>.toOption.isNone := by decide +kernel

/-! ## Findings -/

/-- **C48 (finding).** `TxAccumulator::add_tx` documents that a call that returns an error has not changed the accumulator.
If the fees overflow, the call returns an error, but the size has been increased. -/
theorem C48_add_tx_error_not_clean : ∃ (a : Acc) (t : Tx), (a.addTx t).2 = false ∧ (a.addTx t).1 ≠ a :=
  ⟨⟨[], 0, 1000, false, U128 - 1⟩, { tx1 with fee := 1, size := 10 }, by decide +kernel, by decide +kernel⟩

/-- **C48.** Outside of an overflow of the fees the documented contract holds; a call that succeeds
either appends the transaction or, exactly if it would exceed the target, marks the accumulator as done and
changes nothing else. -/
theorem C48_add_tx {a : Acc} {t : Tx} (h : a.fees + t.fee < U128) :
    (a.addTx t).2 = true ∧ (a.addTx t).1 =
      if compactLen (a.txs.length + 1) + a.txsSize + t.size ≤ a.target then
        { a with txs := a.txs ++ [t], txsSize := a.txsSize + t.size, fees := a.fees + t.fee }
      else { a with done := true } := by
  have hadd : Amt.add a.fees t.fee = some (a.fees + t.fee) := by unfold Amt.add; rw [if_pos h]
  unfold Acc.addTx
  split
  · rw [hadd]; exact ⟨rfl, rfl⟩
  · exact ⟨rfl, rfl⟩

/-- **C48 (finding).** The traversal meant to put the given transactions after their ancestors does not do so if one of
them is itself an ancestor of another: given 2 and its parent 1 in this order, 2 comes first. (The main loop
makes up for it.) -/
theorem C48_given_not_in_order : ∃ l, givenIds pool5 [2, 1] = .ok l ∧ l = [2, 1] ∧ Edge pool5.view 1 2 := by
  refine ⟨[2, 1], by decide +kernel, rfl, ?_⟩
  have h := (C34_bookkeeping (by decide) pool5_hist).parents 2
  obtain ⟨e, he, hp⟩ : ∃ e, pool5.byId.get 2 = some e ∧ e.parents = [1] := by
    have : (pool5.byId.get 2).map Entry.parents = some [1] := by decide +kernel
    simpa [Option.map_eq_some_iff] using this
  exact ((h e he).2 1).1 (by rw [hp]; simp)

end Verif.Mempool
