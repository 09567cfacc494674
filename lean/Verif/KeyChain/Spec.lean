import Verif.KeyChain.Model

/-!
# What the user of a wallet does and what a wallet restored from the seed should find
-/

namespace Verif.KeyChain
open Verif

/-- different keys of the wallet have different hashes -/
def Env.Inj (env : Env) : Prop :=
  ∀ p q i j, i < maxKeys → j < maxKeys → env.hash (env.key p i) = env.hash (env.key q j) → p = q ∧ i = j

/-- what happens to an account: it is asked for an address, it sees a transaction in a block or an unconfirmed one, blocks are undone (the cache of outputs drops transactions), the wallet is closed and opened -/
inductive Op
  | issue (p : Purpose) | next (p : Purpose) | block (t : Tx) | unconfirmed (t : Tx) | forget (ids : List Nat) | reload
  deriving DecidableEq

/-- an address given to the user -/
abbrev Given := Purpose × Issued

/-- one operation -/
def Account.step (env : Env) (test : CmdTest) (a : Account) : Op → Except Err (Account × List Given)
  | .issue p => do
    let r ← a.chains.issue env p
    .ok ({ a with chains := r.1 }, [(p, r.2)])
  | .next p => do
    let r ← a.chains.next env p
    .ok ({ a with chains := r.1 }, [(p, r.2)])
  | .block t => do
    let r ← a.scanTx env test t
    .ok (r.1, [])
  | .unconfirmed t => do
    let r ← a.scanTx env test t
    .ok (r.1, [])
  | .forget ids => .ok ({ a with txs := ids.foldl (fun m i => m.erase i) a.txs }, [])
  | .reload => do
    let c ← Chains.load env a.chains.receive.db a.chains.change.db a.chains.look
    .ok ({ a with chains := c }, [])

/-- a history: the account after it and the addresses given to the user, in order.  An operation that fails changes nothing -/
def Account.run (env : Env) (test : CmdTest) (a : Account) : List Op → Account × List Given
  | [] => (a, [])
  | op :: rest =>
    match a.step env test op with
    | .error _ => a.run env test rest
    | .ok r => let s := r.1.run env test rest; (s.1, r.2 ++ s.2)

/-- the transactions of the chain, in order -/
def chainOf (ops : List Op) : List Tx := ops.filterMap fun op => match op with
  | .block t => some t
  | _ => none

/-- a history in which the wallet only sees transactions in blocks, and no block is undone -/
def Calm (ops : List Op) : Prop := ∀ op ∈ ops, match op with
  | .unconfirmed _ => False
  | .forget _ => False
  | _ => True

instance (ops : List Op) : Decidable (Calm ops) := by
  unfold Calm
  have : ∀ op : Op, Decidable (match op with | .unconfirmed _ => False | .forget _ => False | _ => True) := by
    intro op
    cases op <;> simp only <;> infer_instance
  exact List.decidableBAll _ _

/-- the destination of a key of the wallet: by key or by hash -/
def PaysTo (env : Env) (d : Dest) (p : Purpose) (i : Nat) : Prop :=
  i < maxKeys ∧ (d = .pubKey (env.key p i) ∨ d = .pubKeyHash (env.hash (env.key p i)))

/-- index `i` may be found after the indices in `before`: it is among the first `look`, or at most `look` after the largest -/
def Within (look : Nat) (before : List Nat) (i : Nat) : Prop :=
  i < look ∨ ∃ v ∈ before, i ≤ v + look

/-- no index of a sequence is too far from those before -/
def Gapless (look : Nat) (s : List Nat) : Prop := ∀ before i after, s = before ++ i :: after → Within look before i

/-- `s` lists, in order, the indices of the keys of the chain of `p` that are paid by `ds` -/
inductive Indices (env : Env) (p : Purpose) : List Dest → List Nat → Prop
  | nil : Indices env p [] []
  | own {d i ds s} : PaysTo env d p i → Indices env p ds s → Indices env p (d :: ds) (i :: s)
  | foreign {d ds s} : (∀ i, ¬ PaysTo env d p i) → Indices env p ds s → Indices env p (d :: ds) s

/-- a transaction without inputs of the wallet that pays to one destination -/
def payTx (id : Nat) (d : Dest) : Tx := ⟨id, [], [.pay d]⟩

/-- the destinations paid by outputs with one destination -/
def payDests (t : Tx) : List Dest := t.outs.filterMap fun o => match o with
  | .pay d => some d
  | _ => none

/-- a transaction whose outputs are payments only -/
def OnlyPays (t : Tx) : Prop := ∀ o ∈ t.outs, ∃ d, o = .pay d

end Verif.KeyChain
