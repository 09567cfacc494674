import Verif.Base.BMap
import Mathlib.Data.List.Sort

/-!
# How the wallet follows the chain of its node (C71)

Model of `wallet/wallet-controller/src/sync/mod.rs` (`sync_once` and everything below it) together with the parts
of `wallet/src/wallet/mod.rs` and `wallet/src/account/mod.rs` that it calls: every account of the wallet scans the
blocks of the node's main chain; accounts that stopped at different blocks are brought together in groups.

The node may change its mind between any two calls: `View` gives the state of the node at each of the calls of one
round of the loop.  A call that fails (no connection) is not modelled: it ends `sync_once` with an error.
-/

namespace Verif.WalletSync

/-- What is fixed: the tree of blocks (`prev` of a block and, for the answers of the node, the branch `path b` from
the first block after genesis up to `b`), which blocks concern which account (`rel k b`: block `b` holds something
for account number `k`, the value `new_tx_was_added` of wallet/src/account/mod.rs 2322-2349), and the number of
account numbers (`U31::plus_one`, crypto/src/key/hdkd/u31.rs 55). -/
structure Env where
  genesis : Nat
  prev : Nat → Nat
  path : Nat → List Nat
  rel : Nat → Nat → Bool
  maxAcc : Nat

/-- The state of the node: its best block and the blocks it knows. -/
structure Node where
  tip : Nat
  known : Nat → Bool

/-- The last block of a branch; the genesis block if there is none. -/
def lastOr (g : Nat) (l : List Nat) : Nat := l.getLast?.getD g

/-- The common part of two branches. -/
def common : List Nat → List Nat → List Nat
  | a :: l, b :: m => if a = b then a :: common l m else []
  | _, _ => []

/-- `get_last_common_ancestor` (chainstate/src/interface/chainstate_interface_impl.rs 480-500): `None` if one of the
blocks is not known. -/
def lastCommonAncestor (E : Env) (n : Node) (a b : Nat) : Option (Nat × Nat) :=
  if n.known a && n.known b then
    some (lastOr E.genesis (common (E.path a) (E.path b)), (common (E.path a) (E.path b)).length)
  else none

/-- `get_mainchain_blocks` (chainstate/src/detail/query.rs 102-): at most `count` blocks of the main chain, beginning
with the one after height `h`. -/
def mainchainBlocks (E : Env) (n : Node) (h count : Nat) : List Nat :=
  ((E.path n.tip).drop h).take count

/-- An account: the blocks it has scanned and not taken back (the best block and its height, kept by
`account_info`, are the last of them and their number), and the entries it has recorded from them, with the height
(`TxState::Confirmed`). -/
structure Acc where
  seen : List Nat
  recs : List (Nat × Nat)
deriving DecidableEq

/-- The accounts in use (numbers 0, 1, ..; a `BTreeMap<U31, Account>` without gaps: `create_next_account` is the only
place that adds to it) and the next unused one (`next_unused_account`). -/
structure Wallet where
  accounts : List Acc
  unused : Acc
deriving DecidableEq

/-- Ways for the synchronisation to fail. `panic`: an assertion fails and the process ends. -/
inductive Err
  | panic | noNewBlocks | invalidPrev | emptyLast | tooMany | noAccount | fuel
deriving DecidableEq, Repr

/-- `InSync` (wallet/wallet-controller/src/sync/mod.rs 120-123). -/
inductive InSync
  | synced | nodeOutOfSync
deriving DecidableEq, Repr

/-- `AccountType` (sync/mod.rs 114-118). -/
inductive Ty
  | account (i : Nat)
  | unused
deriving DecidableEq, Repr

/-- `NextBlockInfo` (sync/mod.rs 92-96). -/
structure Info where
  id : Nat
  height : Nat
deriving DecidableEq, Repr

/-- `reset_to_height` (wallet/src/account/mod.rs 2191-2260): the entries above the height are taken back.
Simplified: entries the user made (which go back to `Inactive`) are not followed. -/
def resetTo (a : Acc) (h : Nat) : Acc :=
  { seen := a.seen.take h, recs := a.recs.filter (fun p => decide (p.2 ≤ h)) }

/-- The entries found for account `k` in blocks that come after height `h`. -/
def found (E : Env) (k h : Nat) (blocks : List Nat) : List (Nat × Nat) :=
  (blocks.zipIdx (h + 1)).filter (fun p => E.rel k p.1)

/-- `Account::scan_new_blocks` (wallet/src/account/mod.rs 2301-2360); `none` is a failed assertion. The flag says
whether something was found. -/
def scanAcc (E : Env) (k : Nat) (a : Acc) (h : Nat) (blocks : List Nat) : Option (Acc × Bool) :=
  if blocks.isEmpty then none
  else if a.seen.length < h then none
  else
    let a' := if h < a.seen.length then resetTo a h else a
    some ({ seen := a'.seen ++ blocks, recs := a'.recs ++ found E k h blocks },
      blocks.any (fun b => E.rel k b))

/-- `create_next_account` (wallet/src/wallet/mod.rs 1128-1180) as called while scanning: the unused account joins the
others, provided that the last of these has an entry; the new unused account counts as having scanned what the
promoted one has scanned. -/
def createNext (E : Env) (w : Wallet) : Except Err Wallet :=
  match w.accounts.getLast? with
  | none => .error .panic
  | some last =>
    if last.recs.isEmpty then .error .emptyLast
    else if w.accounts.length + 1 < E.maxAcc then
      .ok { accounts := w.accounts ++ [w.unused], unused := { seen := w.unused.seen, recs := [] } }
    else .error .tooMany

/-- `scan_new_blocks_unused_account` (wallet/src/wallet/mod.rs 2725-2751): scan, and if something was found promote
the account and scan the same blocks for the next one. The loop runs at most once per account number (`fuel`). -/
def scanUnused (E : Env) (h : Nat) (blocks : List Nat) : Nat → Wallet → Wallet × Except Err Unit
  | 0, w => (w, .error .tooMany)
  | fuel + 1, w =>
    match scanAcc E w.accounts.length w.unused h blocks with
    | none => (w, .error .panic)
    | some (a, false) => ({ w with unused := a }, .ok ())
    | some (a, true) =>
      match createNext E { w with unused := a } with
      | .error e => ({ w with unused := a }, .error e)
      | .ok w' => scanUnused E h blocks fuel w'

/-- `scan_new_blocks` (sync/mod.rs 270-311; wallet/src/wallet/mod.rs 2703-2716): one account. -/
def scanTy (E : Env) (h : Nat) (blocks : List Nat) (w : Wallet) : Ty → Wallet × Except Err Unit
  | .account i =>
    match w.accounts[i]? with
    | none => (w, .error .noAccount)
    | some a =>
      match scanAcc E i a h blocks with
      | none => (w, .error .panic)
      | some (a', _) => ({ w with accounts := w.accounts.set i a' }, .ok ())
  | .unused => scanUnused E h blocks E.maxAcc w

/-- The loop of `fetch_and_sync` over the accounts of a group (sync/mod.rs 254-265). What was scanned before an error
stays. -/
def scanAll (E : Env) (h : Nat) (blocks : List Nat) : List Ty → Wallet → Wallet × Except Err Unit
  | [], w => (w, .ok ())
  | t :: l, w =>
    match scanTy E h blocks w t with
    | (w', .error e) => (w', .error e)
    | (w', .ok _) => scanAll E h blocks l w'

/-- `fetch_next_blocks` (sync/mod.rs 313-337). -/
def fetchNext (E : Env) (n : Node) (cur : Info) (count : Nat) : Except Err (List Nat) :=
  match mainchainBlocks E n cur.height count with
  | [] => .error .noNewBlocks
  | b :: l => if E.prev b = cur.id then .ok (b :: l) else .error .invalidPrev

/-- `fetch_and_sync` (sync/mod.rs 239-268). -/
def fetchAndSync (E : Env) (n : Node) (cur : Info) (accs : List Ty) (count : Nat) (w : Wallet) :
    Wallet × Except Err Unit :=
  match fetchNext E n cur count with
  | .error e => (w, .error e)
  | .ok blocks => scanAll E cur.height blocks accs w

/-- The best block of an account, `best_block()`. -/
def best (E : Env) (a : Acc) : Nat := lastOr E.genesis a.seen

/-- `get_syncing_state` (wallet/src/wallet/mod.rs 2691-2696): the accounts in use, then the unused one. -/
def accs (w : Wallet) : List (Ty × Acc) :=
  (w.accounts.zipIdx.map (fun p => (Ty.account p.2, p.1))) ++ [(Ty.unused, w.unused)]

/-- One step of the grouping (sync/mod.rs 352-362): the group of the account's best block. Simplified: the key of the
code is (id, height); a block has one height. -/
def putGroup (E : Env) (m : BMap Nat (Nat × List Ty)) (p : Ty × Acc) : BMap Nat (Nat × List Ty) :=
  match m.get (best E p.2) with
  | none => m.insert (best E p.2) (p.2.seen.length, [p.1])
  | some (h, l) => m.insert (best E p.2) (h, l ++ [p.1])

/-- The accounts grouped by their best block, in the order of the ids (sync/mod.rs 350-362). -/
def grouped (E : Env) (w : Wallet) : List (Nat × (Nat × List Ty)) :=
  ((accs w).foldl (putGroup E) BMap.empty).entries

/-- `get_common_block_info` (sync/mod.rs 388-418), with its two assertions. -/
def commonInfo (E : Env) (n : Node) (tip tipHeight id height : Nat) : Except Err Info :=
  if tip = id then .error .panic
  else if tipHeight < height then .error .panic
  else match lastCommonAncestor E n id tip with
    | some (c, h) => .ok ⟨c, h⟩
    | none => .ok ⟨E.genesis, 0⟩

/-- The answers of the node during one round: to the first question, to the questions for the common ancestor and to
the requests for blocks, the latter two by number. -/
structure View where
  info : Node
  anc : Nat → Node
  fetch : Nat → Node

/-- The common blocks of the groups (sync/mod.rs 364-378). -/
def commonInfos (E : Env) (v : View) : Nat → List (Nat × (Nat × List Ty)) → Except Err (List (Info × List Ty))
  | _, [] => .ok []
  | i, (id, (h, l)) :: rest =>
    match commonInfo E (v.anc i) v.info.tip (E.path v.info.tip).length id h with
    | .error e => .error e
    | .ok c =>
      match commonInfos E v (i + 1) rest with
      | .error e => .error e
      | .ok r => .ok ((c, l) :: r)

/-- `group_accounts_by_mainchain_blocks` (sync/mod.rs 343-384): sorted by the height of the common block, highest
first; a stable sort. -/
def groups (E : Env) (v : View) (w : Wallet) : Except Err (List (Info × List Ty)) :=
  match commonInfos E v 0 (grouped E w) with
  | .error e => .error e
  | .ok l => .ok (l.insertionSort (fun a b => b.1.height ≤ a.1.height))

/-- The loop that brings the groups together (sync/mod.rs 194-207, `fetch_and_sync_to_next_group` 226-237). The groups
come in the order in which they are popped, lowest first; `i` counts the requests for blocks. -/
def mergeLoop (E : Env) (v : View) : Nat → Info × List Ty → List (Info × List Ty) → Wallet →
    Wallet × Except Err (Nat × Info × List Ty)
  | i, cur, [], w => (w, .ok (i, cur))
  | i, cur, next :: rest, w =>
    if next.1.height < cur.1.height then (w, .error .panic)
    else
      match fetchAndSync E (v.fetch i) cur.1 cur.2 (next.1.height - cur.1.height) w with
      | (w', .error e) => (w', .error e)
      | (w', .ok _) => mergeLoop E v (i + 1) (next.1, next.2 ++ cur.2) rest w'

/-- `MAX_FETCH_BLOCK_COUNT` (sync/mod.rs 35). -/
def maxFetch : Nat := 100

/-- After the grouping: bring the groups together, then one batch for all (sync/mod.rs 190-223). -/
def syncGroups (E : Env) (v : View) (gs : List (Info × List Ty)) (w : Wallet) : Wallet × Except Err Unit :=
  match gs.reverse with
  | [] => (w, .error .panic)
  | cur :: rest =>
    match mergeLoop E v 0 cur rest w with
    | (w', .error e) => (w', .error e)
    | (w', .ok (i, c)) => fetchAndSync E (v.fetch i) c.1 c.2 maxFetch w'

/-- One round of the loop of `sync_once` (sync/mod.rs 135-223); `some s` ends the loop. -/
def round (E : Env) (v : View) (w : Wallet) : Wallet × Except Err (Option InSync) :=
  if (accs w).all (fun p => decide (v.info.tip = best E p.2)) then (w, .ok (some .synced))
  else if (accs w).any (fun p => decide ((E.path v.info.tip).length < p.2.seen.length)) then
    (w, .ok (some .nodeOutOfSync))
  else
    match groups E v w with
    | .error e => (w, .error e)
    | .ok gs =>
      match syncGroups E v gs w with
      | (w', .error e) => (w', .error e)
      | (w', .ok _) => (w', .ok none)

/-- `sync_once` (sync/mod.rs 126-224): rounds until one ends the loop. `fuel` bounds the number of rounds, `r` is the
number of the round. -/
def syncOnce (E : Env) (views : Nat → View) : Nat → Nat → Wallet → Wallet × Except Err InSync
  | 0, _, w => (w, .error .fuel)
  | fuel + 1, r, w =>
    match round E (views r) w with
    | (w', .error e) => (w', .error e)
    | (w', .ok (some s)) => (w', .ok s)
    | (w', .ok none) => syncOnce E views fuel (r + 1) w'

end Verif.WalletSync
