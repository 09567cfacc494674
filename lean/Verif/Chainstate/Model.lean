import Verif.BlockTree.Model
import Verif.BlockStatus.Model

/-!
# Block processing, choice of the best chain, invalidation

Model of `chainstate/src/detail/mod.rs` (`process_block`), `chainstate/src/detail/chainstateref/mod.rs` (reorganization) and
`chainstate/src/detail/block_invalidation/{mod,best_chain_candidates}.rs`.

The tree of block indices is that of `Verif.BlockTree`.  The chain state proper (utxo set, accounting, epoch data) is an abstract value of type
`L` with a partial operation connecting a block and one disconnecting it (`Verif.Verifier` models them for the transactions of a block).
A database transaction is a value of type `Db`: an error inside it drops the new value.  Storage errors are modelled only as failures to connect
a block (`Now.fault`); the retries of `with_rw_tx` (mod.rs 295-353) are left out.  The pool of orphan blocks is left out: a block with unknown
parent is refused, and processing the orphans of a block is a sequence of further attempts.
-/

namespace Verif.Chainstate
open Verif BlockTree
open Verif.BlockStatus (Stage)

/-- `BlockProcessingErrorClass` – error_classification.rs 49-58 -/
inductive Cls | general | bad | temporary
  deriving DecidableEq, Repr

/-- `BlockStatus` – chainstate/types/src/block_status.rs; the word is modelled in `Verif.BlockStatus`, C35 shows that it behaves like these
independent fields -/
structure Status where
  stage : Stage := .unchecked
  failed : Bool := false
  invalidParent : Bool := false
  explicit : Bool := false
  deriving DecidableEq, Repr

/-- `is_ok` – block_status.rs -/
def Status.ok (s : Status) : Bool := !s.failed && !s.invalidParent && !s.explicit

/-- order of the validation stages -/
def Status.atLeast (s : Status) (t : Stage) : Bool := decide (t.toNat ≤ s.stage.toNat)

/-- `with_cleared_fail_bits` – block_status.rs -/
def Status.cleared (s : Status) : Status := { stage := s.stage }

/-- `BlockIndex` with its status and the flag `is_persisted` – chainstate/types/src/block_index.rs 26-45 -/
structure Entry where
  idx : Idx
  status : Status := {}
  persisted : Bool := false
  deriving DecidableEq, Repr

/-- what is fixed: chain configuration with the contents of blocks, depth limit for reorganizations, and the chain state operations.
`connect` is `connect_transactions` and `post_connect_tip` (chainstateref/mod.rs 1266-1291, 1497-1516), `none` if the block is bad;
`disconnect` is `disconnect_transactions` and `post_disconnect_tip` (1294-1305, 1519-1547). -/
structure Env (L : Type) where
  tree : Cfg
  maxDepth : Nat
  genesis : L
  connect : L → Nat → Option L
  disconnect : L → Nat → Option L

/-- what may differ from one call to the next: the outcome of those checks of a block that do not concern the tree (consensus, size, merkle
roots, transactions, time, checkpoints, storage), and storage faults while a block is connected -/
structure Now where
  check : Nat → Option Cls := fun _ => none
  fault : Nat → Bool := fun _ => false

/-- the database -/
structure Db (L : Type) where
  index : BMap Nat Entry
  blocks : BMap Nat Unit
  byHeight : BMap Nat Nat
  best : Nat
  minHeight : Nat
  ledger : L

/-- errors and panics -/
inductive Err
  | prevNotFound | alreadyProcessed | invalidAlreadyProcessed
  | parentMissing | invalidParent | beforeReorgLimit | checkFailed (c : Cls) | invalidBlock
  | connectInvalid | dataMissing | invalidTip | badBlock | storage
  | disconnectFailed | indexExists | blockExists | indexNotFound | bestNotFound | tooDeep | tree (e : BlockTree.Err)
  | panicEmptyChain | panicDisconnectGenesis | panicInconsistent | panicInMainChain | panicNotOk | panicNoReorg | panicGenesisHigh
  | panicInvalidateGenesis | outOfFuel
  deriving DecidableEq, Repr

/-- `BlockError::classify` – error_classification.rs 93-143, and `CheckBlockError::classify` 163-200 -/
def Err.classify : Err → Cls
  | .parentMissing | .invalidParent | .beforeReorgLimit | .invalidBlock | .badBlock => .bad
  | .invalidAlreadyProcessed => .bad
  | .prevNotFound => .temporary
  | .checkFailed c => c
  | _ => .general

/-- `block_should_be_invalidated` – error_classification.rs 61-68 -/
def Cls.shouldInvalidate : Cls → Bool
  | .bad => true
  | _ => false

variable {L : Type}

/-- the table of indices without status -/
def Db.tree (s : Db L) : Store := s.index.mapV (fun _ e => e.idx)

/-- `get_gen_block_index` – chainstateref/mod.rs 213-219 -/
def Db.gen (env : Env L) (s : Db L) (id : Nat) : Option Gen := getGen env.tree s.tree id

/-- `GenBlockIndex::status().is_ok()`: that of genesis always is – chainstate/types/src/gen_block_index.rs -/
def Db.genOk (env : Env L) (s : Db L) (id : Nat) : Bool :=
  if id = env.tree.genesisId then true else match s.index.get id with
    | some e => e.status.ok
    | none => false

/-- the database after `process_genesis` – mod.rs 678-717 -/
def Db.init (env : Env L) : Db L where
  index := BMap.empty
  blocks := BMap.empty
  byHeight := BMap.empty.insert 0 env.tree.genesisId
  best := env.tree.genesisId
  minHeight := 0
  ledger := env.genesis

/-- `get_block_height_in_main_chain` as used by `is_block_in_main_chain` – chainstateref/mod.rs 430-450, 295-300 -/
def Db.inMain (env : Env L) (s : Db L) (id : Nat) : Bool :=
  if id = env.tree.genesisId then true else match s.index.get id with
    | some e => decide (s.byHeight.get e.idx.height = some id)
    | none => false

/-- `get_best_block_index` – chainstateref/mod.rs 231-234 -/
def Db.bestIndex (env : Env L) (s : Db L) : Except Err Gen := okOr (s.gen env s.best) .bestNotFound

/-- errors of the tree functions -/
def liftTree {α} (x : Except BlockTree.Err α) : Except Err α :=
  match x with
  | .ok a => .ok a
  | .error e => .error (.tree e)

/-- `last_common_ancestor_in_main_chain` – chainstateref/mod.rs 364-370 -/
def Db.forkPoint (env : Env L) (s : Db L) (x : Gen) : Except Err Gen := do
  let b ← s.bestIndex env
  liftTree (lastCommonAncestor env.tree s.tree x b)

/-- `get_new_chain` – chainstateref/mod.rs 454-469; `fuel` bounds the length of the walk -/
def Db.newChain (env : Env L) (s : Db L) : Nat → Entry → Except Err (List Entry)
  | 0, _ => .error .outOfFuel
  | fuel + 1, e =>
    if s.inMain env e.idx.id then .ok []
    else if e.idx.prev = env.tree.genesisId then .ok [e]
    else do
      let p ← okOr (s.index.get e.idx.prev) .prevNotFound
      let l ← s.newChain env fuel p
      pure (l ++ [e])

/-- `disconnect_tip` – chainstateref/mod.rs 1367-1400; the result is the id of the previous block -/
def Db.disconnectTip (env : Env L) (s : Db L) : Except Err (Db L × Nat) := do
  ensure (s.best ≠ env.tree.genesisId) .panicDisconnectGenesis
  let e ← okOr (s.index.get s.best) .panicInconsistent
  ensure ((s.blocks.get s.best).isSome) .panicInconsistent
  let l ← okOr (env.disconnect s.ledger s.best) .disconnectFailed
  let s' : Db L := { s with ledger := l, best := e.idx.prev, byHeight := s.byHeight.erase e.idx.height }
  ensure ((s'.gen env e.idx.prev).isSome) .panicInconsistent
  pure (s', e.idx.prev)

/-- `disconnect_until` – chainstateref/mod.rs 1206-1223 -/
def Db.disconnectUntil (env : Env L) (last : Nat) : Nat → Nat → Db L → Except Err (Db L)
  | 0, _, _ => .error .outOfFuel
  | fuel + 1, cur, s =>
    if cur = last then .ok s
    else if cur = env.tree.genesisId then .error .panicDisconnectGenesis
    else do
      let (s', prev) ← s.disconnectTip env
      Db.disconnectUntil env last fuel prev s'

/-- `check_block`, the part concerning the tree – chainstateref/mod.rs 902-948: a block already checked passes and one already found invalid
fails (639-655); the parent must be known and valid (608-631); the fork point of the parent must not be below the lowest height where
reorganizations are allowed (585-605).  All other checks are `now.check`. -/
def Db.checkParent (env : Env L) (s : Db L) (id : Nat) : Except Err Unit := do
  let p ← okOr (s.gen env (env.tree.body id).prev) .parentMissing
  ensure (s.genOk env (env.tree.body id).prev) .invalidParent
  let a ← s.forkPoint env p
  ensure (s.minHeight ≤ a.height) .beforeReorgLimit

/-- the checks that do not concern the tree -/
def otherChecks (now : Now) (id : Nat) : Except Err Unit :=
  match now.check id with
  | some c => .error (.checkFailed c)
  | none => .ok ()

/-- see `Db.checkParent` -/
def Db.checkBlock (env : Env L) (now : Now) (s : Db L) (id : Nat) : Except Err Unit :=
  match s.index.get id with
  | some e =>
    if e.status.ok then
      if e.status.atLeast .checkBlockOk then .ok () else do
        s.checkParent env id
        otherChecks now id
    else .error .invalidBlock
  | none => do
    s.checkParent env id
    otherChecks now id

/-- the first part of `connect_tip` – chainstateref/mod.rs 1309-1339: the status with which the block goes on -/
def Db.connectStatus (env : Env L) (now : Now) (s : Db L) (e : Entry) : Except Err Status := do
  ensure e.status.ok .connectInvalid
  ensure ((s.blocks.get e.idx.id).isSome) .dataMissing
  if e.status.atLeast .checkBlockOk then pure e.status else do
    s.checkBlock env now e.idx.id
    pure { e.status with stage := .checkBlockOk }

/-- connecting the contents of a block, with a possible storage fault -/
def Env.apply (env : Env L) (now : Now) (l : L) (id : Nat) : Except Err L :=
  if now.fault id then .error .storage else okOr (env.connect l id) .badBlock

/-- `connect_tip` – chainstateref/mod.rs 1308-1361 -/
def Db.connectTip (env : Env L) (now : Now) (s : Db L) (e : Entry) : Except Err (Db L) := do
  let st ← s.connectStatus env now e
  ensure (s.best = e.idx.prev) .invalidTip
  let l ← env.apply now s.ledger e.idx.id
  pure { s with
    ledger := l
    byHeight := s.byHeight.insert e.idx.height e.idx.id
    best := e.idx.id
    index := if e.status.stage = .fullyChecked then s.index
      else s.index.insert e.idx.id { e with status := { st with stage := .fullyChecked } } }

/-- `ReorgError` – chainstateref/mod.rs 1558-1563 -/
inductive RErr
  | connectFailed (id : Nat) (e : Err)
  | other (e : Err)
  deriving DecidableEq, Repr

/-- an error not blamed on a block -/
def orOther {α} (x : Except Err α) : Except RErr α :=
  match x with
  | .ok a => .ok a
  | .error e => .error (.other e)

/-- an error blamed on the block being connected -/
def blame {α} (id : Nat) (x : Except Err α) : Except RErr α :=
  match x with
  | .ok a => .ok a
  | .error e => .error (.connectFailed id e)

/-- the loop of `reorganize` connecting the new chain – chainstateref/mod.rs 1255-1259 -/
def Db.connectAll (env : Env L) (now : Now) : List Entry → Db L → Except RErr (Db L)
  | [], s => .ok s
  | e :: es, s => do
    let s' ← blame e.idx.id (s.connectTip env now e)
    Db.connectAll env now es s'

/-- `reorganize`, disconnecting the current chain – chainstateref/mod.rs 1241-1252 -/
def Db.disconnectFor (env : Env L) (s : Db L) (ancestor : Nat) : Except RErr (Db L) :=
  if s.best = env.tree.genesisId then .ok s
  else do
    let b ← orOther (s.bestIndex env)
    orOther (Db.disconnectUntil env ancestor (b.height + 1) s.best s)

/-- `reorganize` – chainstateref/mod.rs 1226-1262 -/
def Db.reorganize (env : Env L) (now : Now) (s : Db L) (e : Entry) : Except RErr (Db L) := do
  let chain ← orOther (s.newChain env (e.idx.height + 1) e)
  match chain with
  | [] => .error (.other .panicEmptyChain)
  | first :: rest => do
    let s' ← s.disconnectFor env first.idx.prev
    Db.connectAll env now (first :: rest) s'

/-- `activate_best_chain` – chainstateref/mod.rs 1405-1419 -/
def Db.activate (env : Env L) (now : Now) (s : Db L) (e : Entry) : Except RErr (Db L × Bool) := do
  let b ← orOther (s.bestIndex env)
  if e.idx.trust > b.trust then do
    let s' ← s.reorganize env now e
    pure (s', true)
  else pure (s, false)

/-- `update_min_height_with_allowed_reorg` – chainstateref/mod.rs 1480-1493, `calc_min_height_with_allowed_reorg` 1549-1555 -/
def Db.updateMinHeight (env : Env L) (s : Db L) : Except Err (Db L) := do
  let b ← s.bestIndex env
  pure { s with minHeight := max s.minHeight (b.height - env.maxDepth) }

/-- `set_new_block_index` – chainstateref/mod.rs 1436-1441 -/
def Db.setNewIndex (s : Db L) (e : Entry) : Except Err (Db L) :=
  match s.index.get e.idx.id with
  | some _ => .error .indexExists
  | none => .ok { s with index := s.index.insert e.idx.id e }

/-- `persist_block` – chainstateref/mod.rs 1422-1428 -/
def Db.persistBlock (s : Db L) (id : Nat) : Except Err (Db L) :=
  match s.blocks.get id with
  | some _ => .error .blockExists
  | none => .ok { s with blocks := s.blocks.insert id () }

/-- `BlockIntegrationError` – mod.rs -/
inductive IErr
  | check (e : Err) (st : Status)
  | connect (e : Err) (st : Status) (id : Nat)
  | other (e : Err)
  deriving DecidableEq, Repr

/-- an error of the checks of the new block -/
def asCheck {α} (st : Status) (x : Except Err α) : Except IErr α :=
  match x with
  | .ok a => .ok a
  | .error e => .error (.check e st)

/-- an error of the activation of the new chain -/
def asReorg {α} (st : Status) (x : Except RErr α) : Except IErr α :=
  match x with
  | .ok a => .ok a
  | .error (.connectFailed id e) => .error (.connect e st id)
  | .error (.other e) => .error (.other e)

/-- an error after the activation -/
def asOther {α} (x : Except Err α) : Except IErr α :=
  match x with
  | .ok a => .ok a
  | .error e => .error (.other e)

/-- the status of a block that passed its checks -/
def checkedStatus : Status := { stage := .checkBlockOk }

/-- `integrate_block` – mod.rs 358-407.  When the activation fails the code still updates the lowest height before returning the error; the
database transaction is dropped either way. -/
def Db.integrate (env : Env L) (now : Now) (s : Db L) (idx : Idx) : Except IErr (Db L × Bool) := do
  asCheck {} (s.checkBlock env now idx.id)
  let e : Entry := { idx := idx, status := checkedStatus, persisted := true }
  let s1 ← asCheck checkedStatus (s.setNewIndex e)
  let s2 ← asCheck checkedStatus (s1.persistBlock idx.id)
  let (s3, reorg) ← asReorg checkedStatus (s2.activate env now e)
  let s4 ← asOther (s3.updateMinHeight env)
  pure (s4, reorg)

/-- `get_higher_block_ids_sorted_by_height` – chainstateref/mod.rs 1000-1007, storage read_impls.rs 186-201: the stored indices from the given
height on, lower first (those of one height in order of ids) -/
def Db.higher (s : Db L) (h : Nat) : List Entry :=
  ((s.index.entries.map Prod.snd).filter (fun e => decide (h ≤ e.idx.height))).insertionSort (fun a b => a.idx.height ≤ b.idx.height)

/-- the loop of `collect_block_indices_in_branch` – chainstateref/mod.rs 1029-1041 -/
def collectLoop (env : Env L) : List Entry → List Nat → List Entry → Except Err (List Entry)
  | [], _, acc => .ok acc
  | e :: es, seen, acc =>
    if e.idx.prev = env.tree.genesisId then .error .panicGenesisHigh
    else if e.idx.prev ∈ seen then collectLoop env es (e.idx.id :: seen) (acc ++ [e])
    else collectLoop env es seen acc

/-- `collect_block_indices_in_branch` – chainstateref/mod.rs 1012-1043 -/
def Db.branch (env : Env L) (s : Db L) (root : Nat) : Except Err (List Entry) := do
  let r ← okOr (s.index.get root) .indexNotFound
  collectLoop env (s.higher (r.idx.height + 1)) [root] [r]

/-- the status given to the blocks of an invalidated branch – block_invalidation/mod.rs 88-99 -/
def rootStatus (explicit : Bool) (st : Status) : Status :=
  if explicit then { st with explicit := true } else { st with failed := true }

/-- `update_block_status` – chainstateref/mod.rs 1466-1477 (the assertion in it is compiled only into debug builds) -/
def setStatus (m : BMap Nat Entry) (e : Entry) (st : Status) : BMap Nat Entry := m.insert e.idx.id { e with status := st }

/-- the loop of `invalidate_stale_block` – block_invalidation/mod.rs 86-103 -/
def invalidateAll (explicit : Bool) (m : BMap Nat Entry) : List Entry → BMap Nat Entry
  | [] => m
  | r :: ds => ds.foldl (fun m e => setStatus m e { e.status with invalidParent := true }) (setStatus m r (rootStatus explicit r.status))

/-- `collect_stale_block_indices_in_branch` – block_invalidation/mod.rs 58-72 -/
def Db.staleBranch (env : Env L) (s : Db L) (id : Nat) : Except Err (List Entry) := do
  ensure (!s.inMain env id) .panicInMainChain
  s.branch env id

/-- `invalidate_stale_block` – block_invalidation/mod.rs 78-118 -/
def Db.invalidateStale (env : Env L) (s : Db L) (id : Nat) (explicit : Bool) : Except Err (Db L × List Entry) := do
  let es ← s.staleBranch env id
  pure ({ s with index := invalidateAll explicit s.index es }, es)

/-- `BestChainCandidatesItem` – best_chain_candidates.rs 30-56: ordered by chain trust, then by block id -/
structure Item where
  trust : Nat
  id : Nat
  deriving DecidableEq, Repr

/-- order of the candidates – best_chain_candidates.rs 52-58 -/
def Item.lt (a b : Item) : Bool := decide (a.trust < b.trust) || (decide (a.trust = b.trust) && decide (a.id < b.id))

/-- `BestChainCandidatesItem::from_block_info` -/
def Entry.item (e : Entry) : Item := ⟨e.idx.trust, e.idx.id⟩

/-- insertion into the set; the set is a list without repetitions here -/
def addItem (x : Item) (l : List Item) : List Item := if x ∈ l then l else x :: l

/-- `best_item`: the last one – best_chain_candidates.rs 161-163 -/
def bestItem : List Item → Option Item
  | [] => none
  | x :: l => match bestItem l with
    | none => some x
    | some y => some (if Item.lt x y then y else x)

/-- one step of the loop of `BestChainCandidates::new` – best_chain_candidates.rs 104-125 -/
def Db.candidateStep (env : Env L) (s : Db L) (minTrust : Nat) (e : Entry) (acc : List Item × List Nat) : Except Err (List Item × List Nat) :=
  if e.status.ok && decide (minTrust ≤ e.idx.trust) then
    if e.idx.id ∈ acc.2 then .ok (acc.1, e.idx.prev :: acc.2)
    else do
      let a ← s.forkPoint env (.block e.idx)
      pure (if s.minHeight ≤ a.height then addItem e.item acc.1 else acc.1, e.idx.prev :: acc.2)
  else .ok acc

/-- the loop of `BestChainCandidates::new` -/
def Db.candidateLoop (env : Env L) (s : Db L) (minTrust : Nat) : List Entry → List Item × List Nat → Except Err (List Item × List Nat)
  | [], acc => .ok acc
  | e :: es, acc => do
    let acc' ← s.candidateStep env minTrust e acc
    s.candidateLoop env minTrust es acc'

/-- `BestChainCandidates::new` – best_chain_candidates.rs 82-127 -/
def Db.candidates (env : Env L) (s : Db L) (minTrust : Nat) : Except Err (List Item) := do
  let r ← s.candidateLoop env minTrust (s.higher s.minHeight).reverse ([], [])
  pure r.1

/-- `remove_tree_add_parent` – best_chain_candidates.rs 133-155; `removed` is the branch with its root first -/
def Db.removeTreeAddParent (env : Env L) (s : Db L) (minTrust : Nat) (removed : List Entry) (l : List Item) : Except Err (List Item) :=
  match removed with
  | [] => .error .panicInconsistent
  | r :: ds =>
    let l' := l.filter (fun x => decide (x ∉ (r :: ds).map Entry.item))
    if r.idx.prev = env.tree.genesisId then .ok l'
    else do
      let p ← okOr (s.index.get r.idx.prev) .indexNotFound
      pure (if minTrust ≤ p.idx.trust then addItem p.item l' else l')

/-- activation of one candidate – block_invalidation/mod.rs 203-227 -/
def Db.tryCandidate (env : Env L) (now : Now) (s : Db L) (id : Nat) : Except RErr (Db L) := do
  let e ← orOther (okOr (s.index.get id) .indexNotFound)
  let (s', reorg) ← s.activate env now e
  if reorg then pure s' else .error (.other .panicNoReorg)

/-- handling of a candidate that could not be connected – block_invalidation/mod.rs 241-262 -/
def Db.dropCandidate (env : Env L) (s : Db L) (id : Nat) (e : Err) : Except Err (Db L × List Entry) :=
  if e.classify.shouldInvalidate then s.invalidateStale env id false
  else do
    let es ← s.staleBranch env id
    pure (s, es)

/-- the loop of `find_and_activate_best_chain` – block_invalidation/mod.rs 197-268.  The state is returned with the result: the statuses
written for failed candidates remain even if an error follows. -/
def Db.tryLoop (env : Env L) (now : Now) (minTrust : Nat) : Nat → List Item → Db L → Db L × Except Err Bool
  | 0, _, s => (s, .error .outOfFuel)
  | fuel + 1, l, s =>
    match bestItem l with
    | none => (s, .ok false)
    | some x =>
      match s.tryCandidate env now x.id with
      | .ok s' => (s', .ok true)
      | .error (.other e) => (s, .error e)
      | .error (.connectFailed id e) =>
        match s.dropCandidate env id e with
        | .error e => (s, .error e)
        | .ok (s', removed) =>
          match s'.removeTreeAddParent env minTrust removed l with
          | .error e => (s', .error e)
          | .ok l' => Db.tryLoop env now minTrust fuel l' s'

/-- a bound for the number of iterations: every iteration replaces a candidate by one of smaller height -/
def Db.weight (s : Db L) (l : List Item) : Nat :=
  (l.map (fun x => match s.index.get x.id with
    | some e => e.idx.height + 1
    | none => 1)).sum

/-- `find_and_activate_best_chain` – block_invalidation/mod.rs 186-268 -/
def Db.findBest (env : Env L) (now : Now) (s : Db L) : Db L × Except Err Bool :=
  match s.bestIndex env with
  | .error e => (s, .error e)
  | .ok b =>
    match s.candidates env (b.trust + 1) with
    | .error e => (s, .error e)
    | .ok l => Db.tryLoop env now (b.trust + 1) (s.weight l + 1) l s

/-- the disconnection at the start of `invalidate_block` for a block of the main chain – block_invalidation/mod.rs 146-170 -/
def Db.disconnectBlock (env : Env L) (s : Db L) (id : Nat) : Except Err (Db L) := do
  let e ← okOr (s.index.get id) .indexNotFound
  let b ← s.bestIndex env
  ensure (s.best ≠ env.tree.genesisId) .panicInvalidateGenesis
  ensure (s.minHeight < e.idx.height) .tooDeep
  Db.disconnectUntil env e.idx.prev (b.height + 1) s.best s

/-- `invalidate_block` – block_invalidation/mod.rs 129-178; three database transactions, the state after each is kept -/
def Db.invalidate (env : Env L) (now : Now) (s : Db L) (id : Nat) (explicit : Bool) : Db L × Except Err Unit :=
  if !s.inMain env id then
    match s.invalidateStale env id explicit with
    | .error e => (s, .error e)
    | .ok (s', _) => (s', .ok ())
  else
    match s.disconnectBlock env id with
    | .error e => (s, .error e)
    | .ok s1 =>
      match s1.invalidateStale env id explicit with
      | .error e => (s1, .error e)
      | .ok (s2, _) =>
        match s2.findBest env now with
        | (s3, .error e) => (s3, .error e)
        | (s3, .ok _) => (s3, .ok ())

/-- one step of the loop of `reset_block_failure_flags` – block_invalidation/mod.rs 291-311: an index without block is deleted
(`del_block_index_of_non_persisted_block`, chainstateref/mod.rs 1446-1461), the others get their failure bits cleared -/
def resetEntry (m : BMap Nat Entry) (e : Entry) : BMap Nat Entry :=
  if e.persisted then setStatus m e e.status.cleared else m.erase e.idx.id

/-- `reset_block_failure_flags` – block_invalidation/mod.rs 273-324 -/
def Db.reset (env : Env L) (now : Now) (s : Db L) (id : Nat) : Db L × Except Err Unit :=
  match s.branch env id with
  | .error e => (s, .error e)
  | .ok es =>
    match ({ s with index := es.foldl resetEntry s.index } : Db L).findBest env now with
    | (s', .error e) => (s', .error e)
    | (s', .ok _) => (s', .ok ())

/-- what `attempt_to_process_block` stores after a failure while connecting – mod.rs 472-512: the index of the new block (not persisted), then
the invalidation of the block that failed; the results of both are ignored -/
def Db.afterConnectFailure (env : Env L) (now : Now) (s : Db L) (idx : Idx) (st : Status) (bad : Nat) : Db L :=
  let s1 := match s.setNewIndex { idx := idx, status := st } with
    | .ok s1 => s1
    | .error _ => s
  (s1.invalidate env now bad false).1

/-- what `attempt_to_process_block` stores after a failed check – mod.rs 519-537 -/
def Db.afterCheckFailure (s : Db L) (idx : Idx) (st : Status) : Db L :=
  match s.setNewIndex { idx := idx, status := { st with failed := true } } with
  | .ok s1 => s1
  | .error _ => s

/-- `attempt_to_process_block` after the index of the new block was created – mod.rs 436-539 -/
def Db.finish (env : Env L) (now : Now) (s : Db L) (idx : Idx) : Db L × Except Err (Option Entry) :=
  match s.integrate env now idx with
  | .ok (s', reorg) =>
    match s'.index.get idx.id with
    | none => (s', .error .indexNotFound)
    | some e => if e.status.ok then (s', .ok (if reorg then some e else none)) else (s', .error .panicNotOk)
  | .error (.other e) => (s, .error e)
  | .error (.connect e st bad) =>
    if s.inMain env bad then (s, .error .panicInMainChain)
    else if e.classify.shouldInvalidate then (s.afterConnectFailure env now idx st bad, .error e)
    else (s, .error e)
  | .error (.check e st) =>
    if e.classify.shouldInvalidate then (s.afterCheckFailure idx st, .error e) else (s, .error e)

/-- `attempt_to_process_block` – mod.rs 412-539.  The first check (`check_legitimate_orphan`, 864-885) and the creation of the index
both refuse a block whose parent is unknown. -/
def Db.process (env : Env L) (now : Now) (s : Db L) (id : Nat) : Db L × Except Err (Option Entry) :=
  match s.index.get id with
  | some e => (s, .error (if e.status.ok then .alreadyProcessed else .invalidAlreadyProcessed))
  | none =>
    match createIndex env.tree s.tree id with
    | .error .prevNotFound => (s, .error .prevNotFound)
    | .error e => (s, .error (.tree e))
    | .ok idx => s.finish env now idx

/-- `process_block` with the orphans waiting for the block – mod.rs 576-605, 617-674: the orphans are further attempts whose errors are only logged; the
result is the last new tip -/
def Db.processOrphans (env : Env L) : List (Nat × Now) → Db L → Option Entry → Db L × Option Entry
  | [], s, r => (s, r)
  | (id, now) :: l, s, r =>
    match s.process env now id with
    | (s', .ok (some e)) => Db.processOrphans env l s' (some e)
    | (s', _) => Db.processOrphans env l s' r

/-! ### the node's own consistency check -/

/-- checks of one block index – consistency_checker.rs 88-180 -/
def Db.entryConsistent (env : Env L) (s : Db L) (id : Nat) (e : Entry) : Bool :=
  (if (s.blocks.get id).isSome then e.persisted else !e.persisted && !e.status.ok) &&
  decide (e.idx.id = id) &&
  (if e.idx.prev = env.tree.genesisId then true else match s.index.get e.idx.prev with
    | none => false
    | some p => (!e.persisted || p.persisted) && (!e.status.ok || p.status.ok) && decide (e.status.stage.toNat ≤ p.status.stage.toNat))

/-- checks of two neighbours in the map of heights – consistency_checker.rs 228-258 -/
def Db.heightConsistent (env : Env L) (s : Db L) (a b : Nat × Nat) : Bool :=
  decide (b.1 = a.1 + 1) && decide (b.2 ≠ env.tree.genesisId) &&
  match s.index.get b.2 with
  | none => false
  | some e => decide (e.idx.prev = a.2) && e.persisted && e.status.ok && decide (e.status.stage = .fullyChecked)

/-- consecutive pairs of a list satisfy a test (`tuple_windows`) -/
def pairsAll {α} (p : α → α → Bool) : List α → Bool
  | a :: b :: l => p a b && pairsAll p (b :: l)
  | _ => true

/-- `ConsistencyChecker::check` – consistency_checker.rs 73-260 without the comparison of the stored lowest height, see `minHeightConsistent` -/
def Db.consistent (env : Env L) (s : Db L) : Bool :=
  s.blocks.entries.all (fun kv => (s.index.get kv.1).isSome) &&
  s.index.entries.all (fun kv => s.entryConsistent env kv.1 kv.2) &&
  decide (s.byHeight.get 0 = some env.tree.genesisId) &&
  decide (s.byHeight.entries.getLast?.map Prod.snd = some s.best) &&
  pairsAll (s.heightConsistent env) s.byHeight.entries

/-- the comparison of the stored lowest height with the one computed from the tip – consistency_checker.rs 214-226 -/
def Db.minHeightConsistent (env : Env L) (s : Db L) : Bool :=
  match s.byHeight.entries.getLast? with
  | none => false
  | some (h, _) => decide (h - env.maxDepth ≤ s.minHeight)

end Verif.Chainstate
