import Verif.Mempool.Limits

/-!
# C34: the bookkeeping of the mempool store

`Inv`, `Edge`, `Reach`, `total` (Spec.lean) speak only about the transactions in the pool.
-/

set_option maxRecDepth 100000

namespace Verif.Mempool

open Verif (BMap)
open Relation (ReflTransGen)

/-- Stores that can come up: starting from the empty one, additions of admissible transactions, and the ways
transactions leave in production (dropping with descendants, expiry, trimming). -/
inductive Hist (maxCount maxSize : Nat) : Store → Prop
  | new : Hist maxCount maxSize (Store.new maxCount maxSize)
  | added {s s' : Store} {t : Tx} : Hist maxCount maxSize s → Addable s t → add s t = .ok s' →
      Hist maxCount maxSize s'
  | dropped {s s' : Store} {n : Nat} {r : Reason} {es : List Entry} : Hist maxCount maxSize s →
      dropWithDescendants s n r = .ok (es, s') → Hist maxCount maxSize s'
  | expired {s s' : Store} {now age : Nat} : Hist maxCount maxSize s → removeExpired s now age = .ok s' →
      Hist maxCount maxSize s'
  | trimmed {s s' : Store} {mem : Store → Nat} {limit : Nat} {qs : List Nat} : Hist maxCount maxSize s →
      trim mem limit s.byId.size s = .ok (qs, s') → Hist maxCount maxSize s'

theorem ids_new (a b : Nat) : (Store.new a b).ids = ∅ := rfl

theorem inv_new (a b : Nat) : Inv (Store.new a b) where
  key := by intro k e h; simp [Store.new] at h
  parents := by intro k e h; simp [Store.new] at h
  children := by intro k e h; simp [Store.new] at h
  descendants := by intro k e h; simp [Store.new] at h
  ancestors := by intro k e h; simp [Store.new] at h
  fits := by rw [ids_new]; simp [total, U128]
  spender := by intro d k; simp [Store.new]
  spender_nodup := by intro k e h; simp [Store.new] at h
  provider := by intro d k; simp [Store.new]
  provider_nodup := by intro k e h; simp [Store.new] at h
  byDesc := by intro q k; simp [Store.new]
  byAnc := by intro q k; simp [Store.new]
  byTime := by intro q k; simp [Store.new]
  seq_inv := by intro k n; simp [Store.new]
  seq_dom := by intro k; rw [ids_new]; simp [Store.new]
  seq_lt := by intro k n h; simp [Store.new] at h
  seq_edge := by intro a b m n _ h; simp [Store.new] at h

theorem hist_all {mc ms : Nat} (hpos : 1 ≤ mc) {s : Store} (h : Hist mc ms s) :
    Inv s ∧ Lim s ∧ s.maxCount = mc ∧ s.maxSize = ms := by
  classical
  induction h with
  | new => exact ⟨inv_new mc ms, by intro k hk; rw [ids_new] at hk; simp at hk, rfl, rfl⟩
  | @added s s' t _ ha hadd ih =>
    obtain ⟨hI, hL, h1, h2⟩ := ih
    rcases hI.add_spec ha with (h3 | h3) | ⟨s1, cl, h3, h4, h5, h6, h7, h8⟩
    · rw [hadd] at h3; simp at h3
    · rw [hadd] at h3; simp at h3
    · rw [hadd] at h3
      simp only [Except.ok.injEq] at h3
      subst h3
      exact ⟨h4, hL.add hI h8 ha.fresh ha.not_needed h5 (by omega) h6 h7, h6.trans h1, h7.trans h2⟩
  | @dropped s s' n r es _ hd ih =>
    obtain ⟨hI, hL, h1, h2⟩ := ih
    obtain ⟨es', s1, h3, h4, h5, -, h6, h7, -, -⟩ := hI.drop_spec n r
    rw [hd] at h3
    simp only [Except.ok.injEq, Prod.mk.injEq] at h3
    obtain ⟨rfl, rfl⟩ := h3
    refine ⟨h4, hL.mono ?_ h6 h7, h6.trans h1, h7.trans h2⟩
    intro k t hk
    rw [h5] at hk
    split at hk
    · simp at hk
    · exact hk
  | @expired s s' now age _ hd ih =>
    obtain ⟨hI, hL, h1, h2⟩ := ih
    obtain ⟨s1, h3, h4, h5, h6, h7⟩ := hI.removeExpired_spec now age
    rw [hd] at h3
    simp only [Except.ok.injEq] at h3
    subst h3
    refine ⟨h4, hL.mono ?_ h6 h7, h6.trans h1, h7.trans h2⟩
    intro k t hk
    rw [h5] at hk
    split at hk
    · simp at hk
    · exact hk
  | @trimmed s s' mem limit qs _ hd ih =>
    obtain ⟨hI, hL, h1, h2⟩ := ih
    obtain ⟨qs', s1, h3, h4, -, -, h6, h7, h8, -⟩ := Inv.trim_spec mem limit _ s hI le_rfl
    rw [hd] at h3
    simp only [Except.ok.injEq, Prod.mk.injEq] at h3
    obtain ⟨rfl, rfl⟩ := h3
    exact ⟨h4, hL.mono h8 h6 h7, h6.trans h1, h7.trans h2⟩

/-! ## Deciding admissibility on concrete stores -/

instance (a b : Tx) : Decidable (DependsOn a b) := by unfold DependsOn; infer_instance

/-- `Addable`, computed -/
def addableB (s : Store) (t : Tx) : Bool :=
  (s.byId.get t.id).isNone && decide (0 < t.size) && t.consumed.all (fun d => (s.spender.get d).isNone) &&
  decide t.consumed.Nodup && t.provided.all (fun d => (s.provider.get d).isNone) && decide t.provided.Nodup &&
  s.byId.entries.all (fun p => decide (¬ DependsOn t p.2.tx)) &&
  decide (((s.byId.entries.map (fun p => p.2.tx.fee)).sum + t.fee) * 1000 < U128)

theorem total_entries (s : Store) :
    (total s.view s.ids (fun _ => True)).2.1 = (s.byId.entries.map (fun p => p.2.tx.fee)).sum := by
  have hn : (s.byId.entries.map Prod.fst).Nodup := by
    rw [List.Nodup, List.pairwise_map]
    exact s.byId.sorted.imp (fun h => ne_of_lt h)
  rw [total_list (l := s.byId.entries.map Prod.fst) hn (by
    intro k
    rw [mem_ids, List.mem_map]
    constructor
    · rintro ⟨⟨k', e⟩, h1, rfl⟩; exact ⟨⟨e, BMap.mem_entries.1 h1⟩, trivial⟩
    · rintro ⟨⟨e, he⟩, -⟩; exact ⟨(k, e), BMap.mem_entries.2 he, rfl⟩)]
  have hw : ∀ p ∈ s.byId.entries, weightAt s.view p.1 = weight p.2.tx := by
    rintro ⟨k, e⟩ hp
    simp [weightAt, Store.view, BMap.mem_entries.1 hp]
  rw [List.map_map]
  generalize s.byId.entries = l at hw
  induction l with
  | nil => rfl
  | cons a as ih =>
    rw [List.map_cons, List.map_cons, List.sum_cons, List.sum_cons, Prod.snd_add, Prod.fst_add,
      ih (fun p hp => hw p (by simp [hp])), Function.comp, hw a (by simp)]
    rfl

theorem addable_of_check {s : Store} {t : Tx} (h : addableB s t = true) : Addable s t := by
  unfold addableB at h
  simp only [Bool.and_eq_true, decide_eq_true_eq, List.all_eq_true, Option.isNone_iff_eq_none] at h
  obtain ⟨⟨⟨⟨⟨⟨⟨h1, h2⟩, h3⟩, h4⟩, h5⟩, h6⟩, h7⟩, h8⟩ := h
  refine ⟨view_none.2 h1, h2, h3, h4, h5, h6, ?_, ?_⟩
  · intro k u hu
    obtain ⟨e, he, rfl⟩ := view_some.1 hu
    exact h7 (k, e) (BMap.mem_entries.2 he)
  · rw [total_entries]; exact h8

/-! ## A sample pool

`1` spends a confirmed output; `2` and `3` spend outputs of `1`; `4` spends outputs of `2` and `3`; `5` is
unrelated. -/

def tx1 : Tx := ⟨1, 500, 100, 10, [.utxo (some 100) 0], [.other, .other], none, none, none⟩
def tx2 : Tx := ⟨2, 900, 150, 20, [.utxo (some 1) 0], [.other], none, none, none⟩
def tx3 : Tx := ⟨3, 100, 200, 5, [.utxo (some 1) 1, .delegation 7 0], [.issueToken], some 55, none, none⟩
def tx4 : Tx := ⟨4, 4000, 120, 30, [.utxo (some 2) 0, .utxo (some 3) 0, .tokenCommand 55 0], [.other], none, none, none⟩
def tx5 : Tx := ⟨5, 1000, 100, 25, [.utxo (some 101) 3], [.other], none, none, none⟩

def addAll (s : Store) (ts : List Tx) : Except Err Store := ts.foldlM add s

def pool5 : Store := ((addAll (Store.new 25 5000) [tx1, tx2, tx3, tx4, tx5]).toOption).getD (Store.new 0 0)

/-- adding admissible transactions one after the other -/
def addChecked : List Tx → Store → Option Store
  | [], s => some s
  | t :: ts, s => if addableB s t then match add s t with
      | .ok s' => addChecked ts s'
      | .error _ => none
    else none

theorem hist_addChecked {mc ms : Nat} : ∀ (ts : List Tx) (s s' : Store), Hist mc ms s → addChecked ts s = some s' →
    Hist mc ms s' := by
  intro ts
  induction ts with
  | nil => intro s s' h h1; simp only [addChecked, Option.some.injEq] at h1; subst h1; exact h
  | cons t ts ih =>
    intro s s' h h1
    simp only [addChecked] at h1
    split at h1
    · rename_i hc
      cases ha : add s t with
      | error e => rw [ha] at h1; simp at h1
      | ok s1 =>
        rw [ha] at h1
        exact ih s1 s' (.added h (addable_of_check hc) ha) h1
    · simp at h1

theorem pool5_hist : Hist 25 5000 pool5 :=
  hist_addChecked [tx1, tx2, tx3, tx4, tx5] _ _ .new (by decide +kernel)

/-! ## Properties -/

/-- **C34 (bookkeeping).** In every store that can come up: parents and children are exactly the direct
dependencies between the transactions present; the counters with descendants and with ancestors are the exact
totals (count, fees, size) over the actual descendants and ancestors; each consumed dependency is recorded for
its only consumer; all indices are exact (`Inv`). -/
theorem C34_bookkeeping {mc ms : Nat} (hpos : 1 ≤ mc) {s : Store} (h : Hist mc ms s) : Inv s := (hist_all hpos h).1

example : Inv pool5 := C34_bookkeeping (by decide) pool5_hist
-- the counters of `1` cover four transactions, those of `4` with ancestors as well
example : (pool5.byId.get 1).map Entry.D = some (4, 5500, 570) ∧ (pool5.byId.get 4).map Entry.A = some (4, 5500, 570) ∧
    (pool5.byId.get 4).map Entry.parents = some [2, 3] := by decide +kernel

/-- **C34 (no double spending).** Two transactions of the pool never consume the same output of a transaction
and never use the same nonce. -/
theorem C34_no_conflicts {mc ms : Nat} (hpos : 1 ≤ mc) {s : Store} (h : Hist mc ms s) {a b : Nat} {ta tb : Tx} {d : Dep}
    (ha : s.view a = some ta) (hb : s.view b = some tb) (hda : d ∈ ta.consumed) (hdb : d ∈ tb.consumed) : a = b := by
  have hI := C34_bookkeeping hpos h
  obtain ⟨ea, hea, rfl⟩ := view_some.1 ha
  obtain ⟨eb, heb, rfl⟩ := view_some.1 hb
  have h1 := (hI.spender d a).2 ⟨ea, hea, hda⟩
  have h2 := (hI.spender d b).2 ⟨eb, heb, hdb⟩
  rw [h1] at h2
  simpa using h2

example : pool5.view 4 = some tx4 ∧ Dep.txOutput 2 0 ∈ tx4.consumed ∧ Dep.tokenManagement 55 0 ∈ tx4.consumed := by
  decide +kernel

/-- **C34 (no cycles).** Every transaction got its sequence number after all its ancestors, so the pool can be
listed with parents first; in particular no transaction is its own proper ancestor. -/
theorem C34_acyclic {mc ms : Nat} (hpos : 1 ≤ mc) {s : Store} (h : Hist mc ms s) {a b : Nat}
    (hab : Edge s.view a b) : ¬ Reach s.view b a := by
  have hI := C34_bookkeeping hpos h
  have key : ∀ x y, Reach s.view x y → ∀ i j, s.seqOf.get x = some i → s.seqOf.get y = some j → i ≤ j := by
    intro x y hxy
    unfold Reach at hxy
    induction hxy with
    | refl => intro i j hi hj; rw [hi] at hj; simp only [Option.some.injEq] at hj; omega
    | @tail c d _ hcd ih =>
      intro i j hi hj
      obtain ⟨k, hk⟩ := (hI.seq_dom c).2 (edge_mem hcd).1
      have h1 := ih i k hi hk
      have h2 := hI.seq_edge c d k j hcd hk hj
      omega
  intro hba
  obtain ⟨i, hi⟩ := (hI.seq_dom a).2 (edge_mem hab).1
  obtain ⟨j, hj⟩ := (hI.seq_dom b).2 (edge_mem hab).2
  have h1 := key b a hba j i hj hi
  have h2 := hI.seq_edge a b i j hab hi hj
  omega

example : Edge pool5.view 2 4 := by
  have h := (C34_bookkeeping (by decide) pool5_hist).parents 4
  obtain ⟨e, he, hp⟩ : ∃ e, pool5.byId.get 4 = some e ∧ e.parents = [2, 3] := by
    have : (pool5.byId.get 4).map Entry.parents = some [2, 3] := by decide +kernel
    simpa [Option.map_eq_some_iff] using this
  exact ((h e he).2 2).1 (by rw [hp]; simp)

/-- **C34 (adding).** An admissible transaction is either refused, for exceeding one of the two cluster limits
and for no other reason, or added; then the pool is the old one with it. Nothing panics. -/
theorem C34_add {mc ms : Nat} (hpos : 1 ≤ mc) {s : Store} (h : Hist mc ms s) {t : Tx} (ha : Addable s t) :
    (add s t = .error .clusterTxCount ∨ add s t = .error .clusterTxSize) ∨
    ∃ s', add s t = .ok s' ∧ ∀ k, s'.view k = if k = t.id then some t else s.view k := by
  rcases (C34_bookkeeping hpos h).add_spec ha with h1 | ⟨s', _, h1, -, h2, -⟩
  · exact Or.inl h1
  · exact Or.inr ⟨s', h1, h2⟩

example : Addable pool5 ⟨6, 10, 10, 1, [.utxo (some 4) 0], [], none, none, none⟩ :=
  addable_of_check (by decide +kernel)

/-- **C34 (cluster limits).** No group of transactions linked by dependencies ever exceeds the limit on the
number of transactions or the limit on the total size. -/
theorem C34_cluster_limits {mc ms : Nat} (hpos : 1 ≤ mc) {s : Store} (h : Hist mc ms s) {k : Nat} (hk : k ∈ s.ids) :
    (total s.view s.ids (Cluster s.view k)).1 ≤ mc ∧ (total s.view s.ids (Cluster s.view k)).2.2 ≤ ms := by
  obtain ⟨-, h1, h2, h3⟩ := hist_all hpos h
  have := h1 k hk
  rwa [h2, h3] at this

-- the limits bite: the same transactions do not fit clusters of three, nor clusters of 500 bytes
example : addAll (Store.new 3 5000) [tx1, tx2, tx3, tx4] = .error .clusterTxCount ∧
    addAll (Store.new 25 500) [tx1, tx2, tx3, tx4] = .error .clusterTxSize := by decide +kernel

open Classical in
/-- **C34 (dropping).** Dropping a transaction removes it with all its descendants and nothing else; the removed
transactions come out once each, every one after all that depend on it. Nothing panics. -/
theorem C34_drop {mc ms : Nat} (hpos : 1 ≤ mc) {s : Store} (h : Hist mc ms s) (n : Nat) (r : Reason) :
    ∃ es s', dropWithDescendants s n r = .ok (es, s') ∧
      (∀ k, s'.view k = if Reach s.view n k then none else s.view k) ∧
      ∃ l : List Nat, l.Nodup ∧ es.map (fun e => some e.tx) = l.map s.view ∧
        (∀ k, k ∈ l ↔ k ∈ s.ids ∧ Reach s.view n k) ∧
        (∀ pre x post, l = pre ++ x :: post → ∀ c, Edge s.view x c → c ∈ pre) := by
  obtain ⟨es, s', h1, -, h2, h3, -⟩ := (C34_bookkeeping hpos h).drop_spec n r
  exact ⟨es, s', h1, h2, h3⟩

example : ((dropWithDescendants pool5 2 .sizeLimit).toOption.map (fun r => r.1.map (fun e => e.tx.id))) = some [4, 2] ∧
    ((dropWithDescendants pool5 1 .expiry).toOption.map (fun r => r.1.map (fun e => e.tx.id))) = some [4, 3, 2, 1] := by
  decide +kernel

open Classical in
/-- **C34 (expiry).** After expiry a transaction is still there exactly when neither it nor any of its ancestors
is older than the limit. Nothing panics. -/
theorem C34_expiry {mc ms : Nat} (hpos : 1 ≤ mc) {s : Store} (h : Hist mc ms s) (now maxAge : Nat) :
    ∃ s', removeExpired s now maxAge = .ok s' ∧
      ∀ k, s'.view k = if ∃ a t, s.view a = some t ∧ now - t.time > maxAge ∧ Reach s.view a k then none
        else s.view k := by
  obtain ⟨s', h1, -, h2, -⟩ := (C34_bookkeeping hpos h).removeExpired_spec now maxAge
  exact ⟨s', h1, h2⟩

-- `3` (created at 5) expires and takes `4` (created at 30) with it
example : ((removeExpired pool5 17 10).toOption.map (fun s => s.byId.entries.map Prod.fst)) = some [1, 2, 5] := by
  decide +kernel

/-- **C34 (trimming).** Trimming always ends, with the pool empty or within the memory limit; each eviction takes a
transaction of lowest descendant score among those present, with its descendants, and only while the pool is
too big; the transactions that stay keep their ancestors. -/
theorem C34_trim {mc ms : Nat} (hpos : 1 ≤ mc) {s : Store} (h : Hist mc ms s) (mem : Store → Nat) (limit : Nat) :
    ∃ qs s', trim mem limit s.byId.size s = .ok (qs, s') ∧ (s'.ids = ∅ ∨ mem s' ≤ limit) ∧
      Evicts mem limit s qs s' ∧ (∀ k t, s'.view k = some t → s.view k = some t) ∧
      (∀ a b, Edge s.view a b → b ∈ s'.ids → a ∈ s'.ids) := by
  obtain ⟨qs, s', h1, -, h2, h3, -, -, h4, h5⟩ := Inv.trim_spec mem limit _ s (C34_bookkeeping hpos h) le_rfl
  exact ⟨qs, s', h1, h3, h2, h4, h5⟩

/-- sizes of the transactions, as a memory measure -/
def sizes (s : Store) : Nat := (s.byId.entries.map (fun p => p.2.tx.size)).sum

-- 670 bytes in all; the lowest score is that of `1` (5500·1000/570 < 10000), which takes everything but `5`
example : ((trim sizes 600 pool5.byId.size pool5).toOption.map (fun r => (r.1, r.2.byId.entries.map Prod.fst)))
    = some ([5000], [5]) := by decide +kernel

/-- **C34 (single removals).** Taking out a transaction nothing depends on, for any reason, or one without parents
because it is in a block, keeps the bookkeeping exact. -/
theorem C34_remove {mc ms : Nat} (hpos : 1 ≤ mc) {s : Store} (h : Hist mc ms s) {n : Nat} (hn : n ∈ s.ids) {r : Reason}
    (hcase : (∀ b, ¬ Edge s.view n b) ∨ ((∀ a, ¬ Edge s.view a n) ∧ r = .block)) :
    ∃ e s', removeTx s n r = .ok (some e, s') ∧ Inv s' ∧ ∀ k, s'.view k = if k = n then none else s.view k := by
  obtain ⟨e, he⟩ := mem_ids.1 hn
  obtain ⟨s', h1, h2, h3, -⟩ := (C34_bookkeeping hpos h).removeTx_spec he hcase
  exact ⟨e, s', h1, h2, h3⟩

example : ((removeTx pool5 1 .block).toOption.map (fun r => (r.2.byId.get 4).map Entry.A)) = some (some (3, 5000, 470)) := by
  decide +kernel

/-- **C34 (boundary of the single removals).** The condition cannot be dropped. Taking out a transaction in the
middle (`2`, between `1` and `4`) with reason `Block` leaves `1` with counters that no longer match: it still
reaches `4` only through `3`, but when `3` leaves as well nothing connects them, and yet the counters of `1`
go on including `4`. -/
theorem C34_middle_removal_breaks : ∃ s s2 s3 e2 e3, Hist 25 5000 s ∧ removeTx s 2 .block = .ok (e2, s2) ∧
    removeTx s2 3 .block = .ok (e3, s3) ∧ (s3.byId.get 1).map Entry.D = some (2, 4500, 220) ∧
    (s3.byId.get 1).map Entry.children = some [] ∧ ¬ Inv s3 := by
  have hr : ((do
      let a ← removeTx pool5 2 .block
      let b ← removeTx a.2 3 .block
      pure (a, b)).toOption.map (fun r : (Option Entry × Store) × (Option Entry × Store) =>
        ((r.2.2.byId.get 1).map Entry.D, (r.2.2.byId.get 1).map Entry.children)))
      = some (some (2, 4500, 220), some []) := by decide +kernel
  cases h1 : removeTx pool5 2 .block with
  | error e => rw [h1] at hr; simp [bind, Except.bind, Except.toOption] at hr
  | ok a =>
    cases h2 : removeTx a.2 3 .block with
    | error e => rw [h1] at hr; simp [bind, Except.bind, Except.toOption, h2] at hr
    | ok b =>
      rw [h1] at hr
      simp only [bind, Except.bind, h2, pure, Except.pure, Except.toOption, Option.map_some, Option.some.injEq,
        Prod.mk.injEq] at hr
      obtain ⟨hr1, hr2⟩ := hr
      refine ⟨pool5, a.2, b.2, a.1, b.1, pool5_hist, by rw [h1], by rw [h2], hr1, hr2, ?_⟩
      intro hI
      obtain ⟨e, he, hD⟩ := Option.map_eq_some_iff.1 hr1
      have hc : e.children = [] := by rw [he] at hr2; simpa using hr2
      have hno : ∀ c, ¬ Edge b.2.view 1 c := by
        intro c hE
        have := ((hI.children 1 e he).2 c).2 hE
        rw [hc] at this; simp at this
      have htot := hI.descendants 1 e he
      rw [hD] at htot
      have hle : (total b.2.view b.2.ids (Reach b.2.view 1)) = (([1] : List Nat).map (weightAt b.2.view)).sum := by
        apply total_list (by simp)
        intro k
        constructor
        · intro hk
          simp only [List.mem_singleton] at hk
          subst hk
          exact ⟨mem_ids.2 ⟨e, he⟩, .refl⟩
        · rintro ⟨-, hk⟩
          rcases Relation.ReflTransGen.cases_head hk with h3 | ⟨c, hcc, -⟩
          · simp [← h3]
          · exact absurd hcc (hno c)
      rw [hle] at htot
      have := congrArg Prod.fst htot
      simp [weightAt, Store.view, he, weight] at this

/-- **C34 (what is not tracked).** A deposit into a delegation and a withdrawal that needs it are not linked: with
`a` depositing and `b` withdrawing at a later nonce, expiry of `a` leaves `b` behind, and dropping `a` does not
touch `b`. -/
theorem C34_deposit_not_tracked (a b : Tx) (d nonce i : Nat) (src : Option Nat) (ha : a.inputs = [.utxo src i])
    (hao : a.outputs = [.delegateStaking d]) (hb : b.inputs = [.delegation d nonce]) (hbo : b.outputs = [.other]) :
    ¬ DependsOn a b := by
  unfold DependsOn Tx.sources Tx.required Tx.provided
  rw [ha, hao, hb, hbo]
  simp [Input.provides, Output.provides]

end Verif.Mempool
