import Verif.Scanner.Model

/-! What the tables of the API server should say, in terms of the chain alone: a ledger of all outputs that the chain has made and of
those that it has spent.  Nothing here refers to the tables. -/

namespace Verif.Scanner

/-- an output that the chain has made: where, at which height, in a block of which time, and the median time with that block -/
structure Entry where
  op : Op
  out : Output
  h : Nat
  t : Nat
  m : Nat
deriving DecidableEq, Repr

/-- the output is one of a block reward (or of the genesis) -/
def Entry.reward (e : Entry) : Bool :=
  match e.op.src with
  | .reward _ => true
  | .tx _ => false

/-- the outputs made, the outputs spent, the height of the tip, the median time with the tip, and the times of the blocks from the
tip down to the genesis -/
structure Ledger where
  outs : List Entry
  spent : List Op
  h : Nat
  m : Nat
  times : List Nat
deriving DecidableEq, Repr

/-- the lock of the output has run out at this height and median time -/
def Free (h m : Nat) (e : Entry) : Prop :=
  match e.out with
  | .lockThenTransfer _ _ (.untilHeight x) => x ≤ h
  | .lockThenTransfer _ _ (.untilTime x) => x ≤ m
  | .lockThenTransfer _ _ (.forBlockCount d) => e.h + d ≤ h
  | .lockThenTransfer _ _ (.forSeconds s) => e.t + s ≤ m
  | _ => True

instance (h m : Nat) (e : Entry) : Decidable (Free h m e) := by
  unfold Free; split <;> infer_instance

/-- what an output is worth to an address, in a currency.  The value of a hashed time-lock contract belongs to nobody yet. -/
def worth (out : Output) (a : Addr) (c : Cur) : Nat :=
  match out with
  | .transfer (.coin n) d | .lockThenTransfer (.coin n) d _ => if d = a ∧ c = .coin then n else 0
  | .transfer (.tokenV1 t n) d | .lockThenTransfer (.tokenV1 t n) d _ => if d = a ∧ c = .token t then n else 0
  | .issueNft t d => if d = a ∧ c = .token t then 1 else 0
  | _ => 0

/-- the addresses that an output is listed for -/
def owners : Output → List Addr
  | .transfer _ d | .lockThenTransfer _ d _ | .issueNft _ d | .createPool _ d | .produceBlock d _ => [d]
  | .htlc _ s r => [s, r]
  | .other => []

namespace Ledger

/-- what the unspent outputs of transactions that are not locked are worth -/
def available (L : Ledger) (a : Addr) (c : Cur) : Nat :=
  (L.outs.map fun e => if e.reward = false ∧ e.op ∉ L.spent ∧ Free L.h L.m e then worth e.out a c else 0).sum

/-- what the unspent outputs of transactions that are locked are worth -/
def locked (L : Ledger) (a : Addr) (c : Cur) : Nat :=
  (L.outs.map fun e => if e.reward = false ∧ e.op ∉ L.spent ∧ ¬ Free L.h L.m e then worth e.out a c else 0).sum

/-- what all outputs of block rewards are worth, spent or not, locked or not -/
def paid (L : Ledger) (a : Addr) (c : Cur) : Nat :=
  (L.outs.map fun e => if e.reward = true then worth e.out a c else 0).sum

/-- what the unspent outputs are worth that are not locked -/
def unspent (L : Ledger) (a : Addr) (c : Cur) : Nat :=
  (L.outs.map fun e => if e.op ∉ L.spent ∧ Free L.h L.m e then worth e.out a c else 0).sum

def spend (L : Ledger) (o : Op) : Ledger := { L with spent := o :: L.spent }

/-- an output is made at the tip, in a block of time `t` -/
def create (L : Ledger) (t : Nat) (x : Op × Output) : Ledger := { L with outs := ⟨x.1, x.2, L.h, t, L.m⟩ :: L.outs }

def tx (L : Ledger) (t : Nat) (x : Tx) : Ledger :=
  (ops (.tx x.id) x.outs).foldl (fun L => L.create t) (x.ins.foldl spend L)

/-- the median of the times of the last blocks -/
def medianTime (l : List Nat) : Nat := (BlockTree.medianOf (l.take 11)).toOption.getD 0

/-- the tip moves to a block of time `t` -/
def tip (L : Ledger) (t : Nat) : Ledger := { L with h := L.h + 1, m := medianTime (t :: L.times), times := t :: L.times }

def block (L : Ledger) (b : Block) : Ledger :=
  b.kernel.foldl spend ((ops (.reward b.id) b.reward).foldl (fun L => L.create b.time) (b.txs.foldl (fun L => L.tx b.time) (L.tip b.time)))

def genesis (g : Genesis) : Ledger :=
  (ops (.reward g.id) g.utxos).foldl (fun L => L.create g.time) ⟨[], [], 0, g.time, [g.time]⟩

def chain (g : Genesis) (bs : List Block) : Ledger := bs.foldl block (genesis g)

end Ledger

/-! ## Chains that the node accepts, as far as it matters -/

/-- balances fit in an `Amount` (the outputs of block rewards counted for ever) -/
def Roomy (L : Ledger) : Prop := ∀ a c, L.available a c + L.paid a c < maxAmount ∧ L.locked a c < maxAmount

/-- the end of the lock can be computed: a height below `2^63`, a time below `2^64` -/
def Fits (h t : Nat) (out : Output) : Prop :=
  match out with
  | .lockThenTransfer _ _ (.forBlockCount d) => h + d < 2 ^ 63
  | .lockThenTransfer _ _ (.forSeconds s) => t + s < 2 ^ 64
  | _ => True

/-- the kinds of output that a transaction, or a block reward, can have -/
def kindOk (s : Src) (out : Output) : Prop :=
  match s, out with
  | .tx _, .produceBlock _ _ => False
  | .tx _, _ => True
  | .reward _, .issueNft _ _ | .reward _, .htlc _ _ _ | .reward _, .other => False
  | .reward _, _ => True

/-- an input: it names an output that exists, is not spent, and whose lock has run out, going by the median time `before` of the
blocks before -/
def CanSpend (L : Ledger) (before : Nat) (o : Op) : Prop :=
  ∃ e ∈ L.outs, e.op = o ∧ o ∉ L.spent ∧ e.out ≠ .other ∧ Free L.h before e

/-- a kernel input names an output of a pool -/
def CanStake (L : Ledger) (o : Op) : Prop :=
  ∃ e ∈ L.outs, e.op = o ∧ o ∉ L.spent ∧ ((∃ p d, e.out = .createPool p d) ∨ ∃ d p, e.out = .produceBlock d p)

/-- an output of a block of time `t` -/
def CanCreate (L : Ledger) (t : Nat) (x : Op × Output) : Prop :=
  (∀ e ∈ L.outs, e.op ≠ x.1) ∧ kindOk x.1.src x.2 ∧ ((∃ i, x.1.src = .tx i) → Fits L.h t x.2) ∧ Roomy (L.create t x)

def ValidSpends (before : Nat) : Ledger → List Op → Prop
  | _, [] => True
  | L, o :: os => CanSpend L before o ∧ ValidSpends before (L.spend o) os

def ValidStakes : Ledger → List Op → Prop
  | _, [] => True
  | L, o :: os => CanStake L o ∧ ValidStakes (L.spend o) os

def ValidCreates (t : Nat) : Ledger → List (Op × Output) → Prop
  | _, [] => True
  | L, x :: xs => CanCreate L t x ∧ ValidCreates t (L.create t x) xs

def ValidTxs (before t : Nat) : Ledger → List Tx → Prop
  | _, [] => True
  | L, x :: xs =>
    ValidSpends before L x.ins ∧ ValidCreates t (x.ins.foldl Ledger.spend L) (ops (.tx x.id) x.outs) ∧ ValidTxs before t (L.tx t x) xs

/-- a block on top of the chain: its time is not before the median time, its transactions spend what they can and so on -/
def ValidBlock (L : Ledger) (b : Block) : Prop :=
  L.m ≤ b.time ∧ Roomy (L.tip b.time) ∧ ValidTxs L.m b.time (L.tip b.time) b.txs ∧
  ValidCreates b.time (b.txs.foldl (fun L => L.tx b.time) (L.tip b.time)) (ops (.reward b.id) b.reward) ∧
  ValidStakes ((ops (.reward b.id) b.reward).foldl (fun L => L.create b.time) (b.txs.foldl (fun L => L.tx b.time) (L.tip b.time))) b.kernel

def ValidBlocks : Ledger → List Block → Prop
  | _, [] => True
  | L, b :: bs => ValidBlock L b ∧ ValidBlocks (L.block b) bs

def ValidChain (g : Genesis) (bs : List Block) : Prop :=
  ValidCreates g.time ⟨[], [], 0, g.time, [g.time]⟩ (ops (.reward g.id) g.utxos) ∧ ValidBlocks (Ledger.genesis g) bs

end Verif.Scanner
