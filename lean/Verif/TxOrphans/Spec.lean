import Verif.TxOrphans.Fair

/-! # The orphan transactions of a mempool in the course of time

What happens to a mempool, what its transaction pool and the chain hold in the meantime, and what is assumed about them.
The properties are stated in terms of these definitions and of the content of the orphan pool and of the queues. -/

namespace Verif.TxOrphans
open Verif.Mempool (Dep Tx)

/-- The mempool with, beside it, the transactions in its transaction pool and what the chain provides. -/
structure World where
  s : State
  mem : List Tx
  confirmed : List Dep

/-- Nothing there yet, on a chain. -/
def World.new (confirmed : List Dep) : World := ⟨.new, [], confirmed⟩

/-- What happens to a mempool. -/
inductive Op
  /-- a transaction comes in, from a peer or locally, and the transaction pool gives its answer -/
  | arrive (d : Dice) (now : Nat) (t : Tx) (origin : Option Nat) (o : Outcome)
  /-- a peer is reported as disconnected -/
  | disconnect (peer : Nat)
  /-- a unit of background work; `answer` is the answer of the transaction pool to an orphan -/
  | work (d : Dice) (now : Nat) (answer : Entry → Outcome)
  /-- the chain changes; transactions leave the transaction pool (these are confirmed, evicted, too old) -/
  | chain (confirmed : List Dep) (left : List Nat)

/-- The transaction pool after its answer. -/
def grow (mem : List Tx) (t : Tx) (o : Outcome) : List Tx := if o = .added then t :: mem else mem

/-- One event; `none`: the process ends. -/
def World.step (w : World) : Op → Option World
  | .arrive d now t origin o => (w.s.finalize d now t origin o).map (fun s => ⟨s, grow w.mem t o, w.confirmed⟩)
  | .disconnect p => (w.s.disconnect p).map (fun s => ⟨s, w.mem, w.confirmed⟩)
  | .work d now answer => (w.s.workUnit d now answer).map (fun s =>
      ⟨s, match w.s.takeWork d with
          | some (_, some e) => grow w.mem e.tx (answer e)
          | _ => w.mem, w.confirmed⟩)
  | .chain confirmed left => some ⟨w.s, w.mem.filter (fun t => !left.contains t.id), confirmed⟩

/-- A sequence of events. -/
def World.run (w : World) : List Op → Option World
  | [] => some w
  | op :: t => (w.step op).bind (fun w => w.run t)

/-- The orphans. -/
def World.orphans (w : World) : List Entry := w.s.orphans.txs

/-- The orphan waits in the queue of its peer. -/
def World.Queued (w : World) (e : Entry) : Prop := w.s.work.Has e.peer e.tx.id

/-- No transaction comes in from a peer after the peer was reported as disconnected. -/
def Quiet : (Nat → Prop) → List Op → Prop
  | _, [] => True
  | gone, .arrive _ _ _ origin _ :: t => (∀ p, origin = some p → ¬ gone p) ∧ Quiet gone t
  | gone, .disconnect p :: t => Quiet (fun x => x = p ∨ gone x) t
  | gone, .work _ _ _ :: t => Quiet gone t
  | gone, .chain _ _ :: t => Quiet gone t

/-- The orphan requires an output of the transaction or something else it provides. -/
def ChildOf (e : Entry) (t : Tx) : Prop :=
  (∃ n, n < 2 ^ 32 ∧ Dep.txOutput t.id n ∈ e.tx.required) ∨ ∃ d ∈ t.provided, d ∈ e.tx.required

/-- A dependency is there: in the chain or by a transaction in the transaction pool. -/
def Given (mem : List Tx) (confirmed : List Dep) (d : Dep) : Prop :=
  d ∈ confirmed ∨ (∃ t ∈ mem, ∃ n, d = .txOutput t.id n) ∨ ∃ t ∈ mem, d ∈ t.provided

/-- Everything the transaction requires is there. -/
def Complete (mem : List Tx) (confirmed : List Dep) (t : Tx) : Prop := ∀ d ∈ t.required, Given mem confirmed d

/-- What is assumed about an answer of the transaction pool: a transaction is a duplicate exactly if it is there, and one
for which everything is there is not rejected for a missing output or a gap in the nonces. -/
def Honest (mem : List Tx) (confirmed : List Dep) (t : Tx) : Outcome → Prop
  | .added => ∀ t' ∈ mem, t'.id ≠ t.id
  | .duplicate => ∃ t' ∈ mem, t'.id = t.id
  | .rejected why _ => (∀ t' ∈ mem, t'.id ≠ t.id) ∧
      match why with
      | .missingUtxo => ¬ Complete mem confirmed t
      | .nonce expected got => expected ≤ got → ¬ Complete mem confirmed t
      | .other => True
  | .failed => True

/-- Output indices have 32 bits. -/
def Fits (t : Tx) : Prop := ∀ u n, Dep.txOutput u n ∈ t.required → n < 2 ^ 32

/-- Events under which no orphan is forgotten: the answers of the transaction pool are honest, a transaction that comes in
is not in the chain and not accepted while it is an orphan, and the chain gets no orphan and provides nothing that an
orphan lacks. -/
def Legal (w : World) : Op → Prop
  | .arrive _ _ t _ o => Honest w.mem w.confirmed t o ∧ Fits t ∧ (∀ n, Dep.txOutput t.id n ∉ w.confirmed) ∧
      (o = .added → ∀ e ∈ w.orphans, e.tx.id ≠ t.id)
  | .disconnect _ => True
  | .work _ _ answer => ∀ e ∈ w.orphans, Honest w.mem w.confirmed e.tx (answer e)
  | .chain confirmed _ => ∀ e ∈ w.orphans, (∀ n, Dep.txOutput e.tx.id n ∉ confirmed) ∧
      ∀ d ∈ e.tx.required, d ∈ confirmed → Given w.mem w.confirmed d

/-- All events of the sequence are of that kind. -/
def LegalRun : World → List Op → Prop
  | _, [] => True
  | w, op :: t => Legal w op ∧ ∀ w', w.step op = some w' → LegalRun w' t

/-- A rejected transaction that is kept as an orphan of a peer: it came from the peer, is at most 20000 bytes, passed the
checks of its conflicts, and lacks an output or is at most two ahead of the nonce of its account. -/
def Admissible (t : Tx) (origin : Option Nat) (why : Reject) (rbf : Bool) (peer : Nat) : Prop :=
  origin = some peer ∧ t.size ≤ 20000 ∧ rbf = true ∧
    (why = .missingUtxo ∨ ∃ expected got, why = .nonce expected got ∧ expected ≤ got ∧ got - expected ≤ 2)

/-- What may be kept after an orphan came in: it, unless it is there, and the others, except for those older than 50
seconds. -/
def young (now : Nat) (e : Entry) (l : List Entry) : List Entry :=
  (if l.any (fun e' => e'.tx.id == e.tx.id) then l else l ++ [e]).filter (fun e => now - 50 ≤ e.tx.time)

/-- Units of background work, one after the other. -/
def World.works (w : World) (f : Nat → Op) : Nat → Option World
  | 0 => some w
  | n + 1 => (w.works f n).bind (fun w => w.step (f n))

end Verif.TxOrphans
