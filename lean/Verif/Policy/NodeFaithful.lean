import Verif.Policy.NodeProps
import Verif.Sighash.Lemmas

/-!
# The verifier model sees the inputs of the codec model as they are
-/

namespace Verif.Policy
open Verif
open Verif.Codec
open Verif.Verifier (Src Effect Out Tx Block Views Env Ledger)

/-! ### What the inputs of a transaction ask for -/

/-- the order filled, and what is paid into it -/
def _root_.Verif.Codec.TxInput.fills : TxInput → Option (Bytes × Nat)
  | .accountCommand _ (.fillOrder id a _) => some (id, a)
  | .orderAccountCommand (.fillOrder id a) => some (id, a)
  | _ => none

/-- the order concluded -/
def _root_.Verif.Codec.TxInput.concludes : TxInput → Option Bytes
  | .accountCommand _ (.concludeOrder id) => some id
  | .orderAccountCommand (.concludeOrder id) => some id
  | _ => none

/-- the order frozen -/
def _root_.Verif.Codec.TxInput.freezesOrder : TxInput → Option Bytes
  | .orderAccountCommand (.freezeOrder id) => some id
  | _ => none

/-- the token minted, and how much of it -/
def _root_.Verif.Codec.TxInput.mints : TxInput → Option (Bytes × Nat)
  | .accountCommand _ (.mintTokens id a) => some (id, a)
  | _ => none

/-- the token frozen, and whether it can be unfrozen -/
def _root_.Verif.Codec.TxInput.freezes : TxInput → Option (Bytes × Bool)
  | .accountCommand _ (.freezeToken id u) => some (id, decide (u = .yes))
  | _ => none

def _root_.Verif.Codec.TxInput.unfreezes : TxInput → Option Bytes
  | .accountCommand _ (.unfreezeToken id) => some id
  | _ => none

/-- the delegation taken from, and how much -/
def _root_.Verif.Codec.TxInput.withdraws : TxInput → Option (Bytes × Nat)
  | .account ⟨_, .delegationBalance d a⟩ => some (d, a)
  | _ => none

/-- the same, as the verifier model sees it -/
def vFills : Verifier.Input → Option (Nat × Nat)
  | .orderV0 _ (.fill id a) => some (id, a)
  | .order (.fill id a) => some (id, a)
  | _ => none

def vConcludes : Verifier.Input → Option Nat
  | .orderV0 _ (.conclude id) => some id
  | .order (.conclude id) => some id
  | _ => none

def vFreezesOrder : Verifier.Input → Option Nat
  | .order (.freeze id) => some id
  | _ => none

def vMints : Verifier.Input → Option (Nat × Nat)
  | .token _ (.mint id a) => some (id, a)
  | _ => none

def vFreezes : Verifier.Input → Option (Nat × Bool)
  | .token _ (.freeze id u) => some (id, u)
  | _ => none

def vUnfreezes : Verifier.Input → Option Nat
  | .token _ (.unfreeze id) => some id
  | _ => none

def vWithdraws : Verifier.Input → Option (Nat × Nat)
  | .account _ d a => some (d, a)
  | _ => none

namespace Node
variable {N : Node} {env : Env}

/-- **C55** (inputs).  The verifier sees the commands of a transaction as they are: the same orders filled with the same amounts, concluded and
frozen, the same tokens minted, frozen and unfrozen, the same amounts taken from the same delegations, and the same outputs spent. -/
theorem C55_inputs_kept {s : Src} {c : TransactionV1} {t : Tx} (h : N.tx s c = some t) :
    t.spends = (Ids.spent c.inputs).map outpoint ∧
    t.inputs.map vFills = c.inputs.map (fun i => i.fills.map fun x => (num x.1, x.2)) ∧
    t.inputs.map vConcludes = c.inputs.map (fun i => i.concludes.map num) ∧
    t.inputs.map vFreezesOrder = c.inputs.map (fun i => i.freezesOrder.map num) ∧
    t.inputs.map vMints = c.inputs.map (fun i => i.mints.map fun x => (num x.1, x.2)) ∧
    t.inputs.map vFreezes = c.inputs.map (fun i => i.freezes.map fun x => (num x.1, x.2)) ∧
    t.inputs.map vUnfreezes = c.inputs.map (fun i => i.unfreezes.map num) ∧
    t.inputs.map vWithdraws = c.inputs.map (fun i => i.withdraws.map fun x => (num x.1, x.2)) := by
  refine ⟨spends_of h, ?_⟩
  obtain ⟨-, e, -⟩ := tx_some h
  rw [e]
  simp only [List.map_map]
  refine ⟨?_, ?_, ?_, ?_, ?_, ?_, ?_⟩ <;>
  · refine List.map_congr_left fun i _ => ?_
    simp only [Function.comp_def]
    cases i with
    | utxo o => rfl
    | account a => obtain ⟨_, ⟨⟩⟩ := a; rfl
    | accountCommand n c => cases c <;> rfl
    | orderAccountCommand c => cases c <;> rfl

/-- two inputs that only differ in the destination of a fill, which is only used for the signature of it and has no effect on the accounts -/
inductive SameButFill : TxInput → TxInput → Prop
  | same (i) : SameButFill i i
  | fill (n id a d d') : SameButFill (.accountCommand n (.fillOrder id a d)) (.accountCommand n (.fillOrder id a d'))

/-- **C55** (inputs).  Nothing else is lost: different inputs are different to the verifier. -/
theorem C55_inputs_distinct {i j : TxInput} (hi : i.Fits N.k) (hj : j.Fits N.k) (h : input N.k i = input N.k j) : SameButFill i j := by
  have dst : ∀ {d d' : Destination}, d.Fits N.k → d'.Fits N.k → destination N.k d = destination N.k d' → d = d' := by
    intro d d' h h' e
    exact ((Sighash.enc_inj (r := []) (s := []) (Destination.lawful N.k) ((Destination.ok_iff N.k d).2 h) ((Destination.ok_iff N.k d').2 h')).1
      (by rw [num_inj e])).1
  cases i with
  | utxo o =>
    cases j with
    | utxo o' =>
      simp only [input, Verifier.Input.utxo.injEq] at h
      rw [outpoint_inj h]; exact .same _
    | account a => obtain ⟨_, ⟨⟩⟩ := a; cases h
    | accountCommand m c => cases c <;> cases h
    | orderAccountCommand c => cases c <;> cases h
  | account a =>
    obtain ⟨n, d, x⟩ := a
    cases j with
    | utxo o => cases h
    | account b =>
      obtain ⟨m, e, y⟩ := b
      simp only [input, Verifier.Input.account.injEq] at h
      obtain ⟨rfl, h, rfl⟩ := h
      rw [num_inj h]; exact .same _
    | accountCommand m c => cases c <;> cases h
    | orderAccountCommand c => cases c <;> cases h
  | accountCommand n c =>
    cases j with
    | utxo o => cases c <;> cases h
    | account a => obtain ⟨_, ⟨⟩⟩ := a; cases c <;> cases h
    | orderAccountCommand d => cases c <;> cases d <;> cases h
    | accountCommand m d =>
      cases c <;> cases d <;> first | (exfalso; cases h; done) | (simp only [input] at h; injection h with h1 h2; subst h1; injection h2)
      case mintTokens.mintTokens h1 h2 => rw [num_inj h1, h2]; exact .same _
      case unmintTokens.unmintTokens h1 => rw [num_inj h1]; exact .same _
      case lockTokenSupply.lockTokenSupply h1 => rw [num_inj h1]; exact .same _
      case freezeToken.freezeToken u _ u' h1 h2 =>
        rw [num_inj h1]
        cases u <;> cases u' <;> simp at h2 <;> exact .same _
      case unfreezeToken.unfreezeToken h1 => rw [num_inj h1]; exact .same _
      case changeTokenAuthority.changeTokenAuthority h1 h2 => rw [num_inj h1, dst hi.2.2 hj.2.2 h2]; exact .same _
      case concludeOrder.concludeOrder h1 => rw [num_inj h1]; exact .same _
      case fillOrder.fillOrder h1 h2 => rw [num_inj h1, h2]; exact .fill ..
      case changeTokenMetadataUri.changeTokenMetadataUri h1 h2 => rw [num_inj h1, num_inj h2]; exact .same _
  | orderAccountCommand c =>
    cases j with
    | utxo o => cases c <;> cases h
    | account a => obtain ⟨_, ⟨⟩⟩ := a; cases c <;> cases h
    | accountCommand m d => cases c <;> cases d <;> cases h
    | orderAccountCommand d =>
      cases c <;> cases d <;> first | (exfalso; cases h; done) | (simp only [input] at h; injection h with h1; injection h1)
      case fillOrder.fillOrder h1 h2 => rw [num_inj h1, h2]; exact .same _
      case freezeOrder.freezeOrder h1 => rw [num_inj h1]; exact .same _
      case concludeOrder.concludeOrder h1 => rw [num_inj h1]; exact .same _

end Node

-- both kinds of fills, and what they look like
example : (input exCrypto (.accountCommand 4 (.fillOrder [1] 7 .anyoneCanSpend))) = .orderV0 4 (.fill 257 7) ∧
    vFills (input exCrypto (.orderAccountCommand (.fillOrder [1] 7))) = some (257, 7) ∧
    vConcludes (input exCrypto (.accountCommand 4 (.fillOrder [1] 7 .anyoneCanSpend))) = none := ⟨rfl, rfl, rfl⟩

end Verif.Policy
