import Verif.Sighash.Model
import Verif.Codec.Spec

/-!
What a signature is about, and which values a signable and a chain can hold.
-/
namespace Verif.Sighash.Spec

open Verif Verif.Codec Verif.Sighash

/-- The values of a `Signable`: all inputs and outputs have a binary form and the counts fit. -/
structure Fits (k : Crypto) (t : Signable) (cs : List InputCommitment) : Prop where
  inputs : ∀ l, t.inputs = some l → l.length < 2 ^ 32 ∧ ∀ x ∈ l, x.Fits k
  outputs : ∀ l, t.outputs = some l → l.length < 2 ^ 32 ∧ ∀ x ∈ l, x.Fits k
  flags : ∀ f, t.flags = some f → f < 2 ^ 128
  commitments : ∀ c ∈ cs, c.Fits k

/-- Both are transactions or both are block rewards. -/
def SameKind (t u : Signable) : Prop :=
  (t.version.isSome ↔ u.version.isSome) ∧ (t.flags.isSome ↔ u.flags.isSome)

/-- What a signer of input `i` agrees to. -/
structure View where
  mode : UInt8
  version : Option UInt8
  flags : Option Nat
  paid : List (TxInput × InputCommitment)
  outputs : List TxOutput
deriving DecidableEq, Repr

/-- The paid inputs: all of them, or with the highest bit of the mode only the signed one.  The outputs:
with mode 2 none, with mode 3 only the one beside the signed input, otherwise all. -/
def view (t : Signable) (cs : List InputCommitment) (mode : UInt8) (i : Nat) : View where
  mode := mode
  version := t.version
  flags := t.flags
  paid :=
    if mode.toNat < 128 then (t.inputs.getD []).zip cs
    else (((t.inputs.getD []).zip cs)[i]?).toList
  outputs :=
    if mode.toNat % 128 = 2 then []
    else if mode.toNat % 128 = 3 then ((t.outputs.getD [])[i]?).toList
    else t.outputs.getD []

/-- The inputs `v` knows enough about. -/
def Known (v : Info) : TxInput → Prop
  | .utxo o => ∃ u, v.utxo o = some u ∧
      ∀ d p, u = .produceBlockFromStake d p → (v.stakerBalance p).isSome
  | .accountCommand _ (.concludeOrder o) => (v.order o).isSome
  | .accountCommand _ (.fillOrder o _ _) => (v.order o).isSome
  | .orderAccountCommand (.concludeOrder o) => (v.order o).isSome
  | .orderAccountCommand (.fillOrder o _) => (v.order o).isSome
  | _ => True

/-- Two states of the chain say the same about what an input is worth. -/
def Agree (v w : Info) : TxInput → Prop
  | .utxo o => v.utxo o = w.utxo o ∧
      ∀ d p, v.utxo o = some (.produceBlockFromStake d p) → v.stakerBalance p = w.stakerBalance p
  | .accountCommand _ (.concludeOrder o) => v.order o = w.order o
  | .accountCommand _ (.fillOrder o _ _) =>
      (v.order o).map (fun q => (q.initiallyAsked, q.initiallyGiven)) =
        (w.order o).map (fun q => (q.initiallyAsked, q.initiallyGiven))
  | .orderAccountCommand (.concludeOrder o) => v.order o = w.order o
  | .orderAccountCommand (.fillOrder o _) =>
      (v.order o).map (fun q => (q.initiallyAsked, q.initiallyGiven)) =
        (w.order o).map (fun q => (q.initiallyAsked, q.initiallyGiven))
  | _ => True

/-- Two states of the chain hold the same spent output. -/
def AgreeUtxo (v w : Info) : TxInput → Prop
  | .utxo o => v.utxo o = w.utxo o
  | _ => True

/-- The inputs for which the two versions of the commitments are the same. -/
def Simple (v : Info) : TxInput → Prop
  | .utxo o => ∀ d p, v.utxo o ≠ some (.produceBlockFromStake d p)
  | .accountCommand _ (.concludeOrder _) => False
  | .accountCommand _ (.fillOrder _ _ _) => False
  | .orderAccountCommand (.concludeOrder _) => False
  | .orderAccountCommand (.fillOrder _ _) => False
  | _ => True

/-- The chain holds only values which have a binary form. -/
structure InfoFits (k : Crypto) (v : Info) : Prop where
  utxo : ∀ o u, v.utxo o = some u → u.Fits k
  stakerBalance : ∀ p b, v.stakerBalance p = some b → b < 2 ^ 128
  order : ∀ o q, v.order o = some q → q.initiallyAsked.Fits k ∧ q.initiallyGiven.Fits k ∧
    q.askBalance < 2 ^ 128 ∧ q.giveBalance < 2 ^ 128

end Verif.Sighash.Spec
