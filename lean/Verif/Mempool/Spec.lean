import Verif.Mempool.Graph
import Mathlib.Algebra.BigOperators.Group.Finset.Basic

/-!
# Specification of the mempool store

A pool is, abstractly, a finite set of transactions by id.  The specification talks only about the
transactions: who depends on whom, who can be reached, and totals over those sets.
-/

namespace Verif.Mempool

open Verif (BMap)

/-- contents of a pool -/
abbrev Pool := Nat → Option Tx

/-- `b` spends an output of `a` or needs something `a` provides. -/
def DependsOn (a b : Tx) : Prop := a.id ∈ b.sources ∨ ∃ d ∈ b.required, d ∈ a.provided

/-- `b` depends directly on `a` inside the pool -/
def Edge (v : Pool) (a b : Nat) : Prop :=
  a ≠ b ∧ ∃ ta tb, v a = some ta ∧ v b = some tb ∧ DependsOn ta tb

/-- `b` is `a` or one of its descendants -/
def Reach (v : Pool) : Nat → Nat → Prop := Relation.ReflTransGen (Edge v)

/-- the three quantities that are totalled: count, fee, size -/
def weight (t : Tx) : Nat × Nat × Nat := (1, t.fee, t.size)

/-- weight of an id in a pool -/
def weightAt (v : Pool) (k : Nat) : Nat × Nat × Nat := (v k).elim 0 weight

open Classical in
/-- total over the ids satisfying `P` -/
noncomputable def total (v : Pool) (ids : Finset Nat) (P : Nat → Prop) : Nat × Nat × Nat :=
  ∑ k ∈ ids, if P k then weightAt v k else 0

/-- contents of a store -/
def Store.view (s : Store) : Pool := fun k => (s.byId.get k).map Entry.tx

/-- ids in a store -/
def Store.ids (s : Store) : Finset Nat := keys s.byId

/-- the counters "with descendants" -/
def Entry.D (e : Entry) : Nat × Nat × Nat := (e.countD, e.feesD, e.sizeD)
/-- the counters "with ancestors" -/
def Entry.A (e : Entry) : Nat × Nat × Nat := (e.countA, e.feesA, e.sizeA)

/-- an index holds exactly the pairs given by a partial function -/
def Exact (idx : Idx) (f : Nat → Option Nat) : Prop := ∀ q k, idx.get (toLex (q, k)) = some () ↔ f k = some q

/-- What a store promises. -/
structure Inv (s : Store) : Prop where
  /-- entries sit under their own id, and no transaction is empty -/
  key : ∀ k e, s.byId.get k = some e → e.tx.id = k ∧ 0 < e.tx.size
  /-- parents are exactly the transactions it directly depends on -/
  parents : ∀ k e, s.byId.get k = some e → e.parents.Nodup ∧ ∀ p, p ∈ e.parents ↔ Edge s.view p k
  /-- children are exactly the transactions directly depending on it -/
  children : ∀ k e, s.byId.get k = some e → e.children.Nodup ∧ ∀ c, c ∈ e.children ↔ Edge s.view k c
  /-- counters with descendants -/
  descendants : ∀ k e, s.byId.get k = some e → e.D = total s.view s.ids (Reach s.view k)
  /-- counters with ancestors -/
  ancestors : ∀ k e, s.byId.get k = some e → e.A = total s.view s.ids (fun a => Reach s.view a k)
  /-- the fees in the pool stay far below 2^128 (the coin supply does) -/
  fits : (total s.view s.ids (fun _ => True)).2.1 * 1000 < U128
  /-- each dependency is consumed by at most one transaction, recorded in the map -/
  spender : ∀ d k, s.spender.get d = some k ↔ ∃ e, s.byId.get k = some e ∧ d ∈ e.tx.consumed
  spender_nodup : ∀ k e, s.byId.get k = some e → e.tx.consumed.Nodup
  /-- each non-utxo dependency is provided by at most one transaction, recorded in the map -/
  provider : ∀ d k, s.provider.get d = some k ↔ ∃ e, s.byId.get k = some e ∧ d ∈ e.tx.provided
  provider_nodup : ∀ k e, s.byId.get k = some e → e.tx.provided.Nodup
  /-- the indices hold the current scores and times -/
  byDesc : Exact s.byDesc (fun k => (s.byId.get k).map
    (fun e => max (e.feesD * 1000 / e.sizeD) (e.tx.fee * 1000 / e.tx.size)))
  byAnc : Exact s.byAnc (fun k => (s.byId.get k).map
    (fun e => min (e.feesA * 1000 / e.sizeA) (e.tx.fee * 1000 / e.tx.size)))
  byTime : Exact s.byTime (fun k => (s.byId.get k).map (fun e => e.tx.time))
  /-- sequence numbers: a bijection with the ids, below the next one, ancestors first -/
  seq_inv : ∀ k n, s.seqOf.get k = some n ↔ s.bySeq.get n = some k
  seq_dom : ∀ k, (∃ n, s.seqOf.get k = some n) ↔ k ∈ s.ids
  seq_lt : ∀ k n, s.seqOf.get k = some n → n < s.nextSeq
  seq_edge : ∀ a b m n, Edge s.view a b → s.seqOf.get a = some m → s.seqOf.get b = some n → m < n

/-- What the caller has checked before adding a transaction: it is not in the pool (`add_transaction`,
tx_pool/mod.rs 793-806), it conflicts with nothing in the pool (`check_mempool_policy` 307-323), it is valid
(`validate_transaction` 876-937), which implies that it consumes and provides nothing twice, provides
nothing already provided, and that nothing in the pool needs it; fees cannot exceed the coin supply. -/
structure Addable (s : Store) (t : Tx) : Prop where
  fresh : s.view t.id = none
  size_pos : 0 < t.size
  no_conflict : ∀ d ∈ t.consumed, s.spender.get d = none
  consumed_nodup : t.consumed.Nodup
  provided_fresh : ∀ d ∈ t.provided, s.provider.get d = none
  provided_nodup : t.provided.Nodup
  not_needed : ∀ k u, s.view k = some u → ¬ DependsOn t u
  fits : ((total s.view s.ids (fun _ => True)).2.1 + t.fee) * 1000 < U128

end Verif.Mempool
