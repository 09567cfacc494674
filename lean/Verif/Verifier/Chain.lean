import Verif.Verifier.Model
import Verif.Mempool.Assemble

/-!
# Chains of blocks, and verifiers after a failed transaction
-/

namespace Verif.Verifier
open Verif

/-- connect blocks one after another – chainstateref/mod.rs 1254-1259 (`reorganize`), each in `connect_tip`, 1308-1363.
Only the tables of the transaction verifier are followed here. -/
def Ledger.connects (env : Env) (l : Ledger) : List Block → Except Err Ledger
  | [] => .ok l
  | b :: bs => do
    let l1 ← l.connect env b
    l1.connects env bs

/-- disconnect blocks, in the order given (tip first) – `disconnect_until`, chainstateref/mod.rs 1205-1223 -/
def Ledger.disconnects (l : Ledger) : List Block → Except Err Ledger
  | [] => .ok l
  | b :: bs => do
    let l1 ← l.disconnect b
    l1.disconnects bs

/-- `reorganize` – chainstateref/mod.rs 1226-1262: leave the branch `old`, follow the branch `new` -/
def Ledger.reorganize (env : Env) (l : Ledger) (old new : List Block) : Except Err Ledger := do
  let l1 ← l.disconnects old.reverse
  l1.connects env new

/-! ### Verifiers over verifiers -/

/-- what a verifier over a verifier finds as a nonce: a verifier is a storage for others – hierarchy.rs 136-148; other
tables are left out here -/
def TxVerifier.nonceBase (p : TxVerifier) (rest : Base) : Base := { rest with nonce := p.nonce }

/-- one nonce flushed – flush.rs 122-130: `set_account_nonce_count`, `del_account_nonce_count` of hierarchy.rs 275-290 -/
def flushNonce (cur : Option (COp Nat)) : COp Nat → Except Err (Option (COp Nat))
  | .write n => .ok (some (.write n))
  | .read _ => .ok cur
  | .erase => .ok (some .erase)

/-- the nonces of a verifier flushed to the verifier below – flush.rs 122-130, hierarchy.rs 275-290 -/
def flushNonces (p : TxVerifier) (c : BMap Account (COp Nat)) : Except Err TxVerifier := do
  let m ← BMap.mergeM (fun _ => flushNonce) p.nonces c
  pure { p with nonces := m }

/-! ### A transaction that fails

`connect_transaction` works on `&mut self` and returns at the first error (`?`), mod.rs 953-1018: whatever earlier
steps have changed stays.  Of the step that fails itself nothing is kept here, which is a simplification (its nonce, for
instance, may already have been used). -/

/-- the state after the steps that succeeded -/
def leftBy {V A U : Type} (f : V → A → Except Err (V × Option U)) (v : V) : List A → V
  | [] => v
  | x :: xs => match f v x with
    | .ok (v1, _) => leftBy f v1 xs
    | .error _ => v

/-- the state after inputs and outputs of a stage, as far as they succeeded -/
def stageLeft {U : Type} (f : TxVerifier → Input → Except Err (TxVerifier × Option U))
    (g : TxVerifier → Out → Except Err (TxVerifier × Option U)) (v : TxVerifier) (tx : Tx) : TxVerifier :=
  match collect f v tx.inputs with
  | .ok (v1, _) => leftBy g v1 tx.outputs
  | .error _ => leftBy f v tx.inputs

/-- the state left behind by a transaction that fails – mod.rs 953-1018 -/
def connectTxLeft (env : Env) (src : Src) (v : TxVerifier) (tx : Tx) : TxVerifier :=
  if env.checkTx src tx = true then
    match register v tx src.block with
    | .error _ => v
    | .ok v1 => match env.checkInputs v1.views src tx with
      | none => v1
      | some _ => match connectPos env src v1 tx with
        | .error _ => stageLeft (posInput env) (posOutput env tx) v1 tx
        | .ok v2 => match connectTokens env src v2 tx with
          | .error _ => if env.checkFrozen v2.views src tx = true then stageLeft (tokInput tx) tokOutput v2 tx else v2
          | .ok v3 => match connectOrders src v3 tx with
            | .error _ => stageLeft ordInput ordOutput v3 tx
            | .ok v4 => v4
  else v

/-- `connect_transaction` as its caller sees it: the state afterwards, and whether it succeeded -/
def attempt (env : Env) (src : Src) (v : TxVerifier) (tx : Tx) : TxVerifier × Bool :=
  match connectTx env src v tx with
  | .ok (v', _) => (v', true)
  | .error _ => (connectTxLeft env src v tx, false)

end Verif.Verifier
