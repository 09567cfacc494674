import Verif.Mempool.Model
import Mathlib.Data.List.Sort

/-!
# Block assembly: collecting transactions from the mempool

`mempool/src/tx_accumulator/mod.rs` and `collect_txs` of `mempool/src/pool/tx_pool/collect_txs.rs`.

Not modelled: the checks that the tip has not moved (collect_txs.rs 81-83, 248-259), which only decide whether the
result is used.
-/

namespace Verif.Mempool

open Verif (BMap)

/-! ## The accumulator -/

/-- length of a compact integer below 2^64 in the SCALE encoding -/
def compactLen (n : Nat) : Nat :=
  if n < 2 ^ 6 then 1 else if n < 2 ^ 14 then 2 else if n < 2 ^ 30 then 4 else 1 + (Nat.log2 n / 8 + 1)

/-- `DefaultTxAccumulator` – tx_accumulator/mod.rs 59-67, without the tip and the timestamp -/
structure Acc where
  txs : List Tx
  txsSize : Nat
  target : Nat
  done : Bool
  fees : Nat
deriving DecidableEq, Repr

/-- `new` – 70-84 -/
def Acc.new (target : Nat) : Acc := ⟨[], 0, target, false, 0⟩

/-- `total_size` – 86-88 -/
def Acc.totalSize (a : Acc) : Nat := compactLen a.txs.length + a.txsSize

/-- `add_tx` – 97-119. The size is added before the sum of the fees is known to fit. The second component tells
whether the call returned `Ok`. (The assertion at 109 compares an expression with itself.) -/
def Acc.addTx (a : Acc) (t : Tx) : Acc × Bool :=
  if compactLen (a.txs.length + 1) + a.txsSize + t.size ≤ a.target then
    match Amt.add a.fees t.fee with
    | none => ({ a with txsSize := a.txsSize + t.size }, false)
    | some f => ({ a with txsSize := a.txsSize + t.size, fees := f, txs := a.txs ++ [t] }, true)
  else ({ a with done := true }, true)

/-! ## Collecting -/

/-- ways `collect_txs` can fail -/
inductive AErr where
  | notFound (id : Nat)
  | invalid
  | panic
  | diverged
deriving DecidableEq, Repr

/-- the score used for ordering, `ancestor_score` (entries of a valid store always have one) -/
def score (s : Store) (x : Nat) : Nat :=
  match s.byId.get x with
  | none => 0
  | some e => min (e.feesA * 1000 / e.sizeA) (e.tx.fee * 1000 / e.tx.size)

/-- State of the main loop: the rest of `tx_iter`, `pending`, `ready` (the heap as a list, best first), `emitted`,
the accumulator and the verifier. `rejected` is not in the code: it records the transactions refused by
the verifier. -/
structure Asm (V : Type) where
  iter : List Nat
  pending : BMap Nat Nat
  ready : List Nat
  emitted : List Nat
  acc : Acc
  v : V
  rejected : List Nat

/-- number of parents not yet emitted – 175 -/
def missing (emitted : List Nat) (e : Entry) : Nat := (e.parents.filter (fun p => p ∉ emitted)).length

/-- taking from the iterator until a transaction is ready – 174-182 -/
def skip (s : Store) (emitted : List Nat) : List Nat → BMap Nat Nat → Except AErr (List Nat × BMap Nat Nat)
  | [], p => .ok ([], p)
  | x :: xs, p =>
    match s.byId.get x with
    | none => .error .panic
    | some e =>
      if missing emitted e = 0 then .ok (x :: xs, p)
      else skip s emitted xs (p.insert x (missing emitted e))

/-- the next transaction, with what is left of the iterator and of the heap – 184-195 -/
def choose (s : Store) : List Nat → List Nat → Option (Nat × List Nat × List Nat)
  | x :: xs, r :: rs => if score s r < score s x then some (x, xs, r :: rs) else some (r, x :: xs, rs)
  | x :: xs, [] => some (x, xs, [])
  | [], r :: rs => some (r, [], rs)
  | [], [] => none

/-- order of `EntryByScore` – 55-61; the heap yields the greatest first -/
def heapKey (s : Store) (x : Nat) : Nat ×ₗ Nat := toLex (score s x, x)

/-- `ready.push` -/
def pushReady (s : Store) (x : Nat) (r : List Nat) : List Nat :=
  r.orderedInsert (fun a b => heapKey s b ≤ heapKey s a) x

/-- releasing the children – 229-245 -/
def release (s : Store) : List Nat → BMap Nat Nat → List Nat → Except AErr (BMap Nat Nat × List Nat)
  | [], p, r => .ok (p, r)
  | c :: cs, p, r =>
    match p.get c with
    | none => release s cs p r
    | some 0 => .error .panic
    | some 1 => release s cs (p.erase c) (pushReady s c r)
    | some (n + 2) => release s cs (p.insert c (n + 1)) r

variable {V : Type}

/-- `while !tx_accumulator.done()` – 172-246. `connect` is `connect_transaction` of the verifier: the new state of
the verifier and whether the transaction was accepted. -/
def loop (s : Store) (connect : V → Tx → V × Bool) : Nat → Asm V → Except AErr (Asm V)
  | 0, _ => .error .diverged
  | n + 1, st =>
    if st.acc.done then .ok st
    else do
      let (iter, pending) ← skip s st.emitted st.iter st.pending
      match choose s iter st.ready with
      | none => .ok { st with iter := iter, pending := pending }
      | some (x, iter', ready') =>
        match s.byId.get x with
        | none => .error .panic
        | some e =>
          let (v', accepted) := connect st.v e.tx
          if accepted then
            let (acc', added) := st.acc.addTx e.tx
            if added then do
              let (pending', ready'') ← release s e.children pending ready'
              loop s connect n ⟨iter', pending', ready'', x :: st.emitted, acc', v', st.rejected⟩
            else .ok ⟨iter', pending, ready', st.emitted, acc', v', st.rejected⟩
          else loop s connect n ⟨iter', pending, ready', st.emitted, st.acc, v', x :: st.rejected⟩

/-- `given_txids` – 120-131: `dag_depth_postorder_multiroot` (graph_traversals.rs 26-65) along the parents. All the
roots count as visited from the start. -/
def givenIds (s : Store) (roots : List Nat) : Except Err (List Nat) :=
  postorder (fun x => (s.byId.get x).map Entry.parents) ((roots.length + s.byId.size + 1) * (s.byId.size + 1))
    (roots.map (fun x => (((s.byId.get x).map Entry.parents).getD [], x))) roots.dedup

/-- the de-duplication by `processed` – 149 -/
def fresh : List Nat → List Nat → List Nat
  | _, [] => []
  | seen, x :: xs => if x ∈ seen then fresh seen xs else x :: fresh (x :: seen) xs

/-- connecting the transactions already in the accumulator – 104-112 -/
def connectAll (connect : V → Tx → V × Bool) : List Tx → V → Option V
  | [], v => some v
  | t :: ts, v => if (connect v t).2 then connectAll connect ts (connect v t).1 else none

/-- the transactions that come into question, in order – 120-165. `timelock` is the result of `verify_timelocks`, which
depends on the transaction only (the views it uses do not change). -/
def candidates (s : Store) (timelock : Tx → Bool) (acc : Acc) (given : List Nat) (fill : Bool) : List Nat :=
  (fresh (acc.txs.map Tx.id)
    (given ++ if fill then (s.byAnc.entries.map (fun p => (ofLex p.1).2)).reverse else [])).filter
    (fun x => match s.byId.get x with | none => true | some e => timelock e.tx)

/-- `collect_txs` – collect_txs.rs 72-260 -/
def collectTxs (s : Store) (connect : V → Tx → V × Bool) (timelock : Tx → Bool) (acc : Acc) (v0 : V)
    (ids : List Nat) (fill : Bool) : Except AErr (Asm V) := do
  let v ← (match connectAll connect acc.txs v0 with | none => .error .invalid | some v => .ok v)
  match ids.find? (fun x => (s.byId.get x).isNone) with
  | some x => .error (.notFound x)
  | none =>
    match givenIds s ids with
    | .error _ => .error .panic
    | .ok given =>
      let q := candidates s timelock acc given fill
      loop s connect (q.length + 1) ⟨q, BMap.empty, [], acc.txs.map Tx.id, acc, v, []⟩

end Verif.Mempool
