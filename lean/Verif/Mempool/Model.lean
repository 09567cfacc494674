import Verif.Mempool.Deps
import Verif.FeeRate.Model

/-!
# The mempool store

Model of `mempool/src/pool/tx_pool/store/mod.rs` and `utils/src/graph_traversals.rs`.
Not modelled: the memory usage tracker (it only measures), capacities and shrinking of the hash tables.
Hash sets are lists without repetition; nothing below depends on their order.  Sizes are naturals without the
`usize` bound: the sum of the sizes of all transactions in memory cannot reach 2^64.
-/

namespace Verif.Mempool

open Verif (BMap okOr ensure Amt.add Amt.sub)

/-- Errors: the policy errors of mempool/src/error/mod.rs reached here, `MempoolStoreInvariantError`, and
`panic` for every `expect`, `assert!` and arithmetic overflow. `diverged` is the fuel of a loop running out. -/
inductive Err where
  | clusterTxCount
  | clusterTxSize
  | ancestorFeeOverflow
  | ancestorFeeUpdateOverflow
  | missing (id : Nat)
  | panic
  | diverged
deriving DecidableEq, Repr

/-- `TxMempoolEntry` – store/mod.rs 838-851 -/
structure Entry where
  tx : Tx
  parents : List Nat
  children : List Nat
  countD : Nat
  countA : Nat
  feesD : Nat
  feesA : Nat
  sizeD : Nat
  sizeA : Nat
deriving DecidableEq, Repr

/-- a `BTreeSet<(K, Id<Transaction>)>` -/
abbrev Idx := BMap (Nat ×ₗ Nat) Unit

/-- `MempoolStore` – store/mod.rs 120-176; `maxCount` and `maxSize` are the cluster limits of
`MempoolConfig`. -/
structure Store where
  maxCount : Nat
  maxSize : Nat
  byId : BMap Nat Entry
  byDesc : Idx
  byAnc : Idx
  byTime : Idx
  spender : BMap Dep Nat
  provider : BMap Dep Nat
  bySeq : BMap Nat Nat
  seqOf : BMap Nat Nat
  nextSeq : Nat
deriving DecidableEq

/-- `MempoolStore::new` – store/mod.rs 194-210 -/
def Store.new (maxCount maxSize : Nat) : Store :=
  ⟨maxCount, maxSize, BMap.empty, BMap.empty, BMap.empty, BMap.empty, BMap.empty, BMap.empty, BMap.empty,
    BMap.empty, 0⟩

/-- `MempoolRemovalReason` – store/mod.rs 185-191 -/
inductive Reason where
  | block
  | expiry
  | sizeLimit
  | replaced
deriving DecidableEq, Repr

/-! ## Sets -/

/-- `HashSet::insert` -/
def setInsert (x : Nat) (l : List Nat) : List Nat := if x ∈ l then l else x :: l
/-- collecting an iterator into a `HashSet` -/
def toSet (l : List Nat) : List Nat := l.foldr setInsert []
/-- `HashSet::remove` -/
def setErase (x : Nat) (l : List Nat) : List Nat := l.filter (· ≠ x)

/-! ## Scores -/

/-- `from_total_tx_fee(..).expect("cannot overflow due to max supply")` -/
def rate (fee size : Nat) : Except Err Nat :=
  match Verif.FeeRate.fromTotal fee size with
  | .ok r => .ok r
  | .error _ => .error .panic

/-- `descendant_score` – store/mod.rs 926-932 -/
def Entry.descScore (e : Entry) : Except Err Nat := do
  let a ← rate e.feesD e.sizeD
  let b ← rate e.tx.fee e.tx.size
  pure (max a b)

/-- `ancestor_score` – store/mod.rs 934-950 -/
def Entry.ancScore (e : Entry) : Except Err Nat := do
  let a ← rate e.feesA e.sizeA
  let b ← rate e.tx.fee e.tx.size
  pure (min a b)

/-- `replace_in_descendant_score_index`, `replace_in_ancestor_score_index` – store/mod.rs 534-570. A pair
that is missing is only logged. -/
def Idx.replace (idx : Idx) (id old new : Nat) : Idx :=
  if new ≠ old then (idx.erase (toLex (old, id))).insert (toLex (new, id)) () else idx

/-- The common shape of the loops at store/mod.rs 392-425, 428-455 and 573-600: modify the entries of the
listed ids and keep a score index in step. -/
def modScored (score : Entry → Except Err Nat) (f : Entry → Except Err Entry) :
    List Nat → BMap Nat Entry × Idx → Except Err (BMap Nat Entry × Idx)
  | [], s => .ok s
  | k :: ks, (m, idx) =>
    match m.get k with
    | none => .error .panic
    | some e => do
      let old ← score e
      let e' ← f e
      let new ← score e'
      modScored score f ks (m.insert k e', idx.replace k old new)

/-- The common shape of `append_to_parents`, `remove_from_parents`, `remove_from_children` –
store/mod.rs 352-383 -/
def modAll (f : Entry → Entry) : List Nat → BMap Nat Entry → Except Err (BMap Nat Entry)
  | [], m => .ok m
  | k :: ks, m =>
    match m.get k with
    | none => .error .panic
    | some e => modAll f ks (m.insert k (f e))

/-! ## Collecting relatives -/

/-- the closure `visit` – store/mod.rs 1189-1195; state is (stack, result) -/
def visit (check : Nat → Except Err Unit) (s : List Nat × List Nat) (x : Nat) :
    Except Err (List Nat × List Nat) :=
  if x ∈ s.2 then .ok s
  else do
    check (s.2.length + 1)
    pure (x :: s.1, x :: s.2)

/-- the `while` loop – store/mod.rs 1201-1211 -/
def collectLoop (next : Nat → Except Err (List Nat)) (check : Nat → Except Err Unit) :
    Nat → List Nat × List Nat → Except Err (List Nat)
  | _, ([], r) => .ok r
  | 0, (_ :: _, _) => .error .diverged
  | n + 1, (x :: st, r) => do
    let ns ← next x
    let s' ← ns.foldlM (visit check) (st, r)
    collectLoop next check n s'

/-- `collect_relatives` – store/mod.rs 1170-1214. The fuel covers one step per entry of the store. -/
def collect (m : BMap Nat Entry) (kind : Entry → List Nat) (check : Nat → Except Err Unit) (init : List Nat) :
    Except Err (List Nat) := do
  let s ← init.foldlM (visit check) ([], [])
  collectLoop (fun x => match m.get x with | none => .error (.missing x) | some e => .ok (kind e))
    check (m.size + 1) s

/-- a callback that never fails -/
def noCheck : Nat → Except Err Unit := fun _ => .ok ()

/-- `TxMempoolEntry::collect_ancestors` – store/mod.rs 1009-1028 -/
def collectAncestors (m : BMap Nat Entry) (e : Entry) : Except Err (List Nat) :=
  match collect m Entry.parents noCheck e.parents with
  | .error (.missing _) => .error .panic
  | r => r

/-- `TxMempoolEntry::collect_descendants` – store/mod.rs 1033-1049 -/
def collectDescendants (m : BMap Nat Entry) (e : Entry) : Except Err (List Nat) :=
  match collect m Entry.children noCheck e.children with
  | .error (.missing _) => .error .panic
  | r => r

/-- `collect_tx_parents` – store/mod.rs 1216-1238 -/
def txParents (s : Store) (t : Tx) : List Nat :=
  toSet (t.sources.filter (fun i => (s.byId.get i).isSome) ++
    (t.required.filter Dep.isNonUtxo).filterMap (fun d => s.provider.get d))

/-- the fee and size totals of `TxMempoolEntry::new` – store/mod.rs 854-887; `(fees, size)` -/
def sumAncestors (m : BMap Nat Entry) : List Nat → Nat × Nat → Except Err (Nat × Nat)
  | [], acc => .ok acc
  | a :: as, (f, z) =>
    match m.get a with
    | none => .error .panic
    | some e => do
      let f' ← okOr (Amt.add f e.tx.fee) Err.ancestorFeeOverflow
      sumAncestors m as (f', z + e.tx.size)

/-- `enforce_cluster_size_limit`, the total – store/mod.rs 1252-1268 -/
def clusterSize (m : BMap Nat Entry) : List Nat → Nat → Except Err Nat
  | [], acc => .ok acc
  | a :: as, acc =>
    match m.get a with
    | none => .error (.missing a)
    | some e => clusterSize m as (acc + e.tx.size)

/-- `TxMempoolEntryWithAncestors::new` – store/mod.rs 1095-1129 with `TxMempoolEntry::new` 854-887 and
`ensure_cluster_tx_count_limit` 1240-1250. -/
def newEntry (s : Store) (t : Tx) : Except Err (Entry × List Nat) := do
  let parents := txParents s t
  let cluster ← collect s.byId (fun e => e.parents ++ e.children)
    (fun n => ensure (1 + n ≤ s.maxCount) Err.clusterTxCount) parents
  let total ← clusterSize s.byId cluster t.size
  ensure (total ≤ s.maxSize) Err.clusterTxSize
  let ancestors ← collect s.byId Entry.parents noCheck parents
  let (fees, size) ← sumAncestors s.byId ancestors (t.fee, t.size)
  pure (⟨t, parents, [], 1, 1 + ancestors.length, t.fee, fees, t.size, size⟩, ancestors)

/-! ## Adding -/

/-- the body of `update_ancestor_state_for_add` – store/mod.rs 397-417 -/
def bumpDesc (t : Tx) (e : Entry) : Except Err Entry := do
  let f ← okOr (Amt.add e.feesD t.fee) Err.ancestorFeeUpdateOverflow
  pure { e with feesD := f, sizeD := t.size + e.sizeD, countD := e.countD + 1 }

/-- `extend` of a dependency map – store/mod.rs 458-468, 668-673 -/
def extend (m : BMap Dep Nat) (id : Nat) (l : List Dep) : BMap Dep Nat := l.foldl (fun m d => m.insert d id) m

/-- `add_tx_entry` – store/mod.rs 486-516. The code mutates in place and on `AncestorFeeUpdateOverflow`
leaves the earlier changes behind; here an error discards them (that error is shown unreachable). -/
def addEntry (s : Store) (e : Entry) (ancestors : List Nat) : Except Err Store := do
  let m1 ← modAll (fun p => { p with children := setInsert e.tx.id p.children }) e.parents s.byId
  let (m2, d2) ← modScored Entry.descScore (bumpDesc e.tx) ancestors (m1, s.byDesc)
  let ds ← e.descScore
  let as ← e.ancScore
  if (m2.get e.tx.id).isSome then .error .panic
  else
    pure { s with
      byId := m2.insert e.tx.id e
      byDesc := d2.insert (toLex (ds, e.tx.id)) ()
      byAnc := s.byAnc.insert (toLex (as, e.tx.id)) ()
      byTime := s.byTime.insert (toLex (e.tx.time, e.tx.id)) ()
      spender := extend s.spender e.tx.id e.tx.consumed
      provider := extend s.provider e.tx.id e.tx.provided
      bySeq := s.bySeq.insert s.nextSeq e.tx.id
      seqOf := s.seqOf.insert e.tx.id s.nextSeq
      nextSeq := s.nextSeq + 1 }

/-- `add_transaction` – store/mod.rs 481-484 -/
def add (s : Store) (t : Tx) : Except Err Store := do
  let (e, anc) ← newEntry s t
  addEntry s e anc

/-! ## Removing -/

/-- `NonZeroUsize::new(a - b).expect(..)` -/
def subNonZero (a b : Nat) : Except Err Nat := if b < a then .ok (a - b) else .error .panic

/-- `x - y` with overflow checks / `expect` -/
def subPanic (a b : Nat) : Except Err Nat := if b ≤ a then .ok (a - b) else .error .panic

/-- the body of `update_ancestor_state_for_drop` – store/mod.rs 432-452 -/
def dropDesc (t : Tx) (e : Entry) : Except Err Entry := do
  let f ← subPanic e.feesD t.fee
  let z ← subNonZero e.sizeD t.size
  let c ← subPanic e.countD 1
  pure { e with feesD := f, sizeD := z, countD := c }

/-- the body of `update_descendant_state_for_drop` – store/mod.rs 577-597 -/
def dropAnc (t : Tx) (e : Entry) : Except Err Entry := do
  let f ← subPanic e.feesA t.fee
  let z ← subNonZero e.sizeA t.size
  let c ← subPanic e.countA 1
  pure { e with feesA := f, sizeA := z, countA := c }

/-- removing dependencies with the `assert_eq!` – store/mod.rs 470-479, 675-682 -/
def retract (id : Nat) : List Dep → BMap Dep Nat → Except Err (BMap Dep Nat)
  | [], m => .ok m
  | d :: ds, m => if m.get d = some id then retract id ds (m.erase d) else .error .panic

/-- `drop_tx` with `update_for_drop` – store/mod.rs 627-682 -/
def dropTx (s : Store) (e : Entry) : Except Err Store := do
  let m1 ← modAll (fun p => { p with children := setErase e.tx.id p.children }) e.parents s.byId
  let m2 ← modAll (fun c => { c with parents := setErase e.tx.id c.parents }) e.children m1
  let ds ← e.descScore
  let as ← e.ancScore
  let seq ← okOr (s.seqOf.get e.tx.id) Err.panic
  ensure (s.bySeq.get seq = some e.tx.id) Err.panic
  let prov ← retract e.tx.id e.tx.provided s.provider
  let sp ← retract e.tx.id e.tx.consumed s.spender
  pure { s with
    byId := m2
    byDesc := s.byDesc.erase (toLex (ds, e.tx.id))
    byAnc := s.byAnc.erase (toLex (as, e.tx.id))
    byTime := s.byTime.erase (toLex (e.tx.time, e.tx.id))
    spender := sp
    provider := prov
    seqOf := s.seqOf.erase e.tx.id
    bySeq := s.bySeq.erase seq }

/-- the part of `remove_tx` for descendants – store/mod.rs 614-616 -/
def dropDescendants (r : Reason) (e : Entry) (s : Store) : Except Err Store :=
  if r = .block then do
    let descendants ← collectDescendants s.byId e
    let (m2, a2) ← modScored Entry.ancScore (dropAnc e.tx) descendants (s.byId, s.byAnc)
    pure { s with byId := m2, byAnc := a2 }
  else pure s

/-- `remove_tx` – store/mod.rs 603-625. `none` when the transaction is not in the store. -/
def removeTx (s : Store) (id : Nat) (r : Reason) : Except Err (Option Entry × Store) :=
  match s.byId.get id with
  | none => .ok (none, s)
  | some e => do
    let m0 := s.byId.erase id
    let ancestors ← collectAncestors m0 e
    let (m1, d1) ← modScored Entry.descScore (dropDesc e.tx) ancestors (m0, s.byDesc)
    let s2 ← dropDescendants r e { s with byId := m1, byDesc := d1 }
    let s3 ← dropTx s2 e
    pure (some e, s3)

/-! ## Dropping with all descendants -/

/-- The iterator of `dag_depth_postorder_multiroot` – utils/src/graph_traversals.rs 26-65, flattened: one step
either emits the top of the stack, skips a visited child or pushes an unvisited one. State: stack of
(remaining children, item), visited. -/
def postorder (next : Nat → Option (List Nat)) :
    Nat → List (List Nat × Nat) → List Nat → Except Err (List Nat)
  | _, [], _ => .ok []
  | 0, _ :: _, _ => .error .diverged
  | n + 1, ([], x) :: st, vis => do
    let rest ← postorder next n st vis
    pure (x :: rest)
  | n + 1, (c :: cs, x) :: st, vis =>
    if c ∈ vis then postorder next n ((cs, x) :: st) vis
    else match next c with
      | none => .error .panic
      | some ds => postorder next n ((ds, c) :: (cs, x) :: st) (c :: vis)

/-- `depth_postorder_descendants` – store/mod.rs 993-1004 with `dag_depth_postorder`,
graph_traversals.rs 67-74 -/
def postorderDescendants (m : BMap Nat Entry) (id : Nat) (e : Entry) : Except Err (List Nat) :=
  postorder (fun x => (m.get x).map Entry.children) ((m.size + 2) * (m.size + 2)) [(e.children, id)] [id]

/-- removing a list of transactions in order, keeping the removed entries -/
def removeAll (r : Reason) : List Nat → Store → Except Err (List Entry × Store)
  | [], s => .ok ([], s)
  | x :: xs, s => do
    let (e, s') ← removeTx s x r
    let (es, s'') ← removeAll r xs s'
    pure (e.toList ++ es, s'')

/-- `drop_tx_and_descendants` – store/mod.rs 691-702, the iterator run to its end -/
def dropWithDescendants (s : Store) (id : Nat) (r : Reason) : Except Err (List Entry × Store) :=
  match s.byId.get id with
  | none => .ok ([], s)
  | some e => do
    let l ← postorderDescendants s.byId id e
    removeAll r l s

/-- `remove_expired_transactions` – tx_pool/mod.rs 630-658: `now.saturating_sub(creation_time) > max_age`,
ids in order of creation time. The disconnection from the transaction verifier (694-720) is not part of
the store. -/
def removeExpired (s : Store) (now maxAge : Nat) : Except Err Store :=
  ((s.byTime.entries.map (fun p => ofLex p.1)).takeWhile (fun p => decide (now - p.1 > maxAge))).foldlM
    (fun s p => do
      let r ← dropWithDescendants s p.2 .expiry
      pure r.2) s

/-- `trim` – tx_pool/mod.rs 660-690. `mem` is the memory usage of the store, an arbitrary function; the fuel
covers one round per entry. Returns the fee rates of the chosen transactions. (An overflow of the fee rate is
an error in the code and `panic` here; it does not occur in valid stores.) -/
def trim (mem : Store → Nat) (limit : Nat) : Nat → Store → Except Err (List Nat × Store)
  | fuel, s =>
    if s.byId.size = 0 ∨ mem s ≤ limit then .ok ([], s)
    else match fuel with
      | 0 => .error .diverged
      | n + 1 =>
        match s.byDesc.entries with
        | [] => .error .panic
        | (p, _) :: _ =>
          match s.byId.get (ofLex p).2 with
          | none => .error .panic
          | some e => do
            let q ← rate e.tx.fee e.tx.size
            let r ← dropWithDescendants s (ofLex p).2 .sizeLimit
            let rest ← trim mem limit n r.2
            pure (q :: rest.1, rest.2)

end Verif.Mempool
