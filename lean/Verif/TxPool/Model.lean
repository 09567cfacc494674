import Verif.Mempool.Model
import Mathlib.Logic.Function.Basic

/-!
# The transaction pool: the store together with the transaction verifier

Model of `mempool/src/pool/tx_pool/mod.rs` (adding, expiry, trimming, eviction with descendants) and
`mempool/src/pool/tx_pool/reorg.rs`.  The store is that of `Verif.Mempool.Model`.

The transaction verifier is a chain of caches over the chainstate; what it holds is here a ledger of *cells*,
one for each thing a transaction can depend on as far as the mempool knows about dependencies
(`dependency.rs`): unspent outputs, next nonces of accounts, and the existence of pools, delegations, tokens
and orders.  Everything else that the verifier checks (signatures, amounts, time locks, ...) is one predicate
`Tip.ok` on transactions that may depend on the tip but not on the other transactions in the pool.  So
balances of delegations and orders, frozen tokens and token supplies, which other transactions in the pool can
change without a dependency being recorded, are outside of this model.

Not modelled: the tip moving while a transaction is being verified (`TipMoved`), initial block download (no
transaction is added then), replacement by fee (`ENABLE_RBF` is `false`), the rolling minimum fee rate (whether
the fee suffices is a parameter of each event), finalizers (events for other subsystems).
-/

namespace Verif.TxPool

open Verif.Mempool

/-! ## The ledger -/

/-- What the verifier keeps. The value of `known`, `out`, `reward` and `made` is 1 (there) or 0 (absent), that of
`nonceD` and `nonceT` the next nonce of the account of a delegation, of a token. -/
inductive Cell where
  /-- the transaction is in the chain or in the pool -/
  | known (tx : Nat)
  /-- an unspent output of a transaction -/
  | out (tx index : Nat)
  /-- an unspent output of a block reward; the number stands for the outpoint -/
  | reward (n : Nat)
  | nonceD (delegation : Nat)
  | nonceT (token : Nat)
  /-- a pool, delegation, token or order has been created -/
  | made (d : Dep)
deriving DecidableEq, Repr

/-- the contents of the verifier -/
abbrev Ledger := Cell → Nat

/-- one step of connecting a transaction: a cell must hold `old` and holds `new` afterwards -/
structure Act where
  cell : Cell
  old : Nat
  new : Nat
deriving DecidableEq, Repr

/-- the thing must be there and stays -/
def Act.need (c : Cell) : Act := ⟨c, 1, 1⟩
/-- the thing must be there and is used up -/
def Act.use (c : Cell) : Act := ⟨c, 1, 0⟩
/-- the thing must not be there and is created -/
def Act.make (c : Cell) : Act := ⟨c, 0, 1⟩
/-- the step taken back -/
def Act.rev (a : Act) : Act := ⟨a.cell, a.new, a.old⟩

/-- performing a step -/
def step (L : Ledger) (a : Act) : Option Ledger :=
  if L a.cell = a.old then some (Function.update L a.cell a.new) else none

/-- performing steps in order, all or nothing -/
def run : List Act → Ledger → Option Ledger
  | [], L => some L
  | a :: as, L => (step L a).bind (run as)

/-- Inputs: spending an output (`UtxosView::spend_utxo`), using the next nonce of an account
(`spend_input_from_account`, chainstate/tx-verifier/src/transaction_verifier/mod.rs 271-300: the nonce must be
the expected one, which is then incremented), which must exist – checked for the first nonce only, an account
whose nonce has been used before exists –, filling an order, which must exist. Commands on orders of version 0
are not looked at. -/
def inputActs : Input → List Act
  | .utxo (some t) i => [.use (.out t i)]
  | .utxo none n => [.use (.reward n)]
  | .delegation d n => (if n = 0 then [.need (.made (.delegationCreation d))] else []) ++ [⟨.nonceD d, n, n + 1⟩]
  | .tokenCommand t n => (if n = 0 then [.need (.made (.tokenCreation t))] else []) ++ [⟨.nonceT t, n, n + 1⟩]
  | .orderCommandV0 => []
  | .orderCommand o => [.need (.made (.orderCreation o))]

/-- the creation of something new; nothing for an id that could not be made -/
def makeAct (d : Option Dep) : List Act := (d.map (fun d => Act.make (.made d))).toList

/-- Outputs: what they create must not exist yet; a delegation needs its pool, delegated coins their
delegation – chainstate/tx-verifier/src/transaction_verifier/mod.rs
343-530, 533-600, 820-950 -/
def outputActs (t : Tx) : Output → List Act
  | .createDelegation p => .need (.made (.poolCreation p)) :: makeAct (t.newDelegation.map .delegationCreation)
  | .delegateStaking d => [.need (.made (.delegationCreation d))]
  | .createPool p => makeAct (some (.poolCreation p))
  | .issueToken => makeAct (t.newToken.map .tokenCreation)
  | .createOrder => makeAct (t.newOrder.map .orderCreation)
  | .other => []

/-- Outputs that can be spent later. Those of kind `other` all count as such; burned coins and deposited data in
the code cannot be spent, which is left to `Tip.ok`. -/
def spendable : Output → Bool
  | .createPool _ | .other => true
  | _ => false

/-- the new unspent outputs (`UtxosCache::connect_transaction`, `add_utxo` fails if there is one already) -/
def outActs (id : Nat) : Nat → List Output → List Act
  | _, [] => []
  | i, o :: os => (if spendable o then [.make (.out id i)] else []) ++ outActs id (i + 1) os

/-- everything a transaction does to the ledger. The first step stands for the fact that a transaction that is
in the chain cannot be connected again (C51). -/
def acts (t : Tx) : List Act :=
  .make (.known t.id) :: t.inputs.flatMap inputActs ++ t.outputs.flatMap (outputActs t) ++ outActs t.id 0 t.outputs

/-- the account nonces in the inputs are 64 bit numbers (`AccountNonce`) -/
def noncesOk (t : Tx) : Bool :=
  t.inputs.all fun i => match i with
    | .delegation _ n | .tokenCommand _ n => decide (n ≤ maxNonce)
    | _ => true

/-- the state of the chain at a tip, as far as transactions in the pool can see it -/
structure Tip where
  ledger : Ledger
  /-- the checks that do not depend on other transactions in the pool -/
  ok : Tx → Bool

/-- `TransactionVerifier::connect_transaction` on a derived verifier; the result is the delta flushed into it
(tx_pool/mod.rs 888-929) -/
def connect (tip : Tip) (L : Ledger) (t : Tx) : Option Ledger :=
  if tip.ok t && noncesOk t then run (acts t) L else none

/-- connecting in order -/
def connectAll (tip : Tip) : List Tx → Ledger → Option Ledger
  | [], L => some L
  | t :: ts, L => (connect tip L t).bind (connectAll tip ts)

/-- `TransactionVerifier::disconnect_transaction`: every step taken back, in reverse order; it fails if a cell
does not hold what the transaction left there (an output that has been spent, a nonce that has moved on). -/
def disconnect (L : Ledger) (t : Tx) : Option Ledger := run ((acts t).reverse.map Act.rev) L

/-! ## The pool -/

/-- parameters: memory used by a store, maximal age, maximal size of a transaction, cluster limits -/
structure Env where
  mem : Store → Nat
  maxAge : Nat
  maxTx : Nat
  maxCount : Nat
  maxSize : Nat

/-- `TxPool`: the store and the verifier, the tip the verifier sits on, the size limit -/
structure Pool where
  store : Store
  ver : Ledger
  tip : Tip
  limit : Nat

/-- an internal failure: of the store, or of a disconnection -/
inductive Fail where
  | store (e : Err)
  | disconnect (id : Nat)
deriving DecidableEq, Repr

/-- `MempoolStore::into_transactions` – store/mod.rs 709-718: in the order of the sequence numbers -/
def inOrder (s : Store) : List Tx := s.bySeq.entries.filterMap (fun p => (s.byId.get p.2).map Entry.tx)

/-- disconnecting in order -/
def disconnectAll : List Tx → Ledger → Except Fail Ledger
  | [], L => .ok L
  | t :: ts, L =>
    match disconnect L t with
    | none => .error (.disconnect t.id)
    | some L' => disconnectAll ts L'

/-- an error of the store as a failure of the pool -/
def liftErr {α : Type} : Except Err α → Except Fail α
  | .ok a => .ok a
  | .error e => .error (.store e)

/-- `remove_tx_and_descendants` – tx_pool/mod.rs 692-721. When a disconnection fails the code rebuilds the whole
pool (`refresh_mempool`); here this is a failure, shown not to occur. -/
def remove (p : Pool) (id : Nat) (r : Reason) : Except Fail Pool := do
  let (es, s') ← liftErr (dropWithDescendants p.store id r)
  let v' ← disconnectAll (es.map Entry.tx) p.ver
  pure { p with store := s', ver := v' }

/-- `remove_expired_transactions` – tx_pool/mod.rs 630-658 -/
def removeExpired (env : Env) (now : Nat) (p : Pool) : Except Fail Pool :=
  ((p.store.byTime.entries.map (fun q => ofLex q.1)).takeWhile
      (fun q => decide (now - q.1 > env.maxAge))).foldlM (fun p q => remove p q.2 .expiry) p

/-- `trim` – tx_pool/mod.rs 660-690; the fuel covers one round per entry -/
def trim (env : Env) : Nat → Pool → Except Fail Pool
  | fuel, p =>
    if p.store.byId.size = 0 ∨ env.mem p.store ≤ p.limit then .ok p
    else match fuel with
      | 0 => .error (.store .diverged)
      | n + 1 =>
        match p.store.byDesc.entries with
        | [] => .error (.store .panic)
        | (q, _) :: _ => do
          let p' ← remove p (ofLex q).2 .sizeLimit
          trim env n p'

/-- answers to a submission: `TxAdditionOutcome` and the errors of `add_transaction` -/
inductive Answer where
  | added
  | duplicate
  /-- the transaction does not connect -/
  | invalid
  /-- no inputs, no outputs, too large, fee too low -/
  | policy
  /-- something it consumes is consumed by a transaction in the pool -/
  | conflict
  | cluster
  /-- removed again, it depends on an expired transaction -/
  | expired
  /-- removed again, the pool is full -/
  | full
deriving DecidableEq, Repr

/-- `check_preliminary_mempool_policy` – tx_pool/mod.rs 276-303. (A size is never zero, `NonZeroUsize`.) -/
def preliminary (env : Env) (t : Tx) : Bool :=
  !t.inputs.isEmpty && !t.outputs.isEmpty && decide (0 < t.size) && decide (t.size ≤ env.maxTx) &&
    decide (t.size ≤ env.maxSize)

/-- the fees in the pool with a new transaction stay below the coin supply. The code relies on this
(`expect("cannot overflow due to max supply")`); here a transaction that would break it is refused. -/
def feesFit (p : Pool) (t : Tx) : Bool := decide ((((inOrder p.store).map Tx.fee).sum + t.fee) * 1000 < U128)

/-- `add_transaction` with `try_add_transaction`, `validate_transaction`, `check_mempool_policy` and
`finalize_tx` – tx_pool/mod.rs 787-929, 307-324, 583-605. `pays` tells whether the fee suffices
(`pays_minimum_relay_fees`, `pays_minimum_mempool_fee`). -/
def submit (env : Env) (now : Nat) (pays : Tx → Bool) (p : Pool) (t : Tx) : Except Fail (Answer × Pool) :=
  if (p.store.byId.get t.id).isSome then .ok (.duplicate, p)
  else if !preliminary env t then .ok (.policy, p)
  else match connect p.tip p.ver t with
    | none => .ok (.invalid, p)
    | some v' =>
      if !(pays t && feesFit p t) then .ok (.policy, p)
      else if t.consumed.any (fun d => (p.store.spender.get d).isSome) then .ok (.conflict, p)
      else match add p.store t with
        | .error .clusterTxCount | .error .clusterTxSize => .ok (.cluster, p)
        | .error e => .error (.store e)
        | .ok s' => do
          let p2 ← removeExpired env now { p with store := s', ver := v' }
          if (p2.store.byId.get t.id).isNone then .ok (.expired, p2)
          else
            let p3 ← trim env p2.store.byId.size p2
            if (p3.store.byId.get t.id).isNone then .ok (.full, p3) else .ok (.added, p3)

/-- `set_max_size` – tx_pool/mod.rs 607-613 -/
def setLimit (env : Env) (p : Pool) (limit : Nat) : Except Fail Pool :=
  trim env p.store.byId.size { p with limit := limit }

/-- a fresh pool on a tip -/
def fresh (env : Env) (tip : Tip) (limit : Nat) : Pool := ⟨Store.new env.maxCount env.maxSize, tip.ledger, tip, limit⟩

/-- the loops of `reorg_mempool_transactions`: whatever the answer, carry on – reorg.rs 179-200 -/
def submitAll (env : Env) (now : Nat) (pays : Tx → Bool) : List Tx → Pool → Except Fail Pool
  | [], p => .ok p
  | t :: ts, p => do
    let r ← submit env now pays p t
    submitAll env now pays ts r.2

/-- `ReorgData::into_disconnected_transactions` – reorg.rs 86-108. The blocks are lists of transactions, newest
block first as `collect_blocks` (32-54) returns them; the transactions get the present time. -/
def disconnectedTxs (now : Nat) (connected disconnected : List (List Tx)) : List Tx :=
  (disconnected.reverse.flatten.map (fun t => { t with time := now })).filter
    (fun t => t.id ∉ connected.flatten.map Tx.id)

/-- `handle_new_tip` with `reorg_mempool_transactions` – reorg.rs 130-202: reset, then the transactions of the
disconnected blocks, then the former contents in order. `refresh_mempool` (204-209) is the case of no blocks. -/
def newTip (env : Env) (now : Nat) (pays : Tx → Bool) (tip : Tip) (connected disconnected : List (List Tx))
    (p : Pool) : Except Fail Pool := do
  let p1 ← submitAll env now pays (disconnectedTxs now connected disconnected) (fresh env tip p.limit)
  submitAll env now pays (inOrder p.store) p1

end Verif.TxPool
