import Verif.Script.Translate
import Verif.Script.Spec

/-! Who may spend what, stated as conditions on the witness and the chain. -/

namespace Verif.Script

/-- A multisignature is good for a message when its challenge is usable, it carries exactly the
required number of signatures, and each verifies under the key at its own index. -/
structure MultisigOk (cr : Crypto) (msg : Nat) (m : MsSpend) : Prop where
  positive : 0 < m.challenge.minRequired
  enough : m.challenge.minRequired ≤ m.challenge.keys.length
  bounded : m.challenge.keys.length ≤ cr.maxKeys
  count : m.sigs.size = m.challenge.minRequired
  valid : ∀ i s, m.sigs.get i = some s →
    ∃ k, m.challenge.keys[i]? = some k ∧ cr.verifyMsg k s msg = true

/-- The witness authorises spending from the destination. -/
def SigValid (cr : Crypto) (sighash : Nat → Option Nat) (d : Dest) (w : Witness) : Prop :=
  match d with
  | .anyoneCanSpend => w = .noSignature
  | .publicKeyHash h => ∃ mode raw msg k s, w = .standard mode raw ∧ sighash mode = some msg ∧
      cr.decodePkh raw = some (k, s) ∧ cr.hashKey k = h ∧ cr.verifyMsg k s msg = true
  | .publicKey k => ∃ mode raw msg s, w = .standard mode raw ∧ sighash mode = some msg ∧
      cr.decodePk raw = some s ∧ cr.verifyMsg k s msg = true
  | .scriptHash _ => False
  | .classicMultisig h => ∃ mode raw msg m, w = .standard mode raw ∧ sighash mode = some msg ∧
      cr.decodeMs raw = some m ∧ cr.hashChallenge m.challenge = h ∧ MultisigOk cr msg m

/-- The destination, if there is one, authorises the spend. -/
def SigBy (cr : Crypto) (i : Input) (d : Option Dest) : Prop :=
  ∃ a, d = some a ∧ SigValid cr i.sighash a i.witness

/-- When a transaction input may be spent. -/
def MaySpend (cr : Crypto) (ac : Accounts) (t : Tip) (i : Input) : Prop :=
  match i.info with
  | .utxo o _ =>
    match o with
    | .transfer d => SigValid cr i.sighash d i.witness
    | .lockThenTransfer d l => Expired (lockCtx t i.info) l ∧ SigValid cr i.sighash d i.witness
    | .createStakePool _ d => SigValid cr i.sighash d i.witness
    | .produceBlockFromStake _ p => SigBy cr i (ac.poolDecommission p)
    | .issueNft d => SigValid cr i.sighash d i.witness
    | .htlc h => ∃ mode raw, i.witness = .standard mode raw ∧
        ((∃ secret sig, cr.decodeHtlc raw = some (.spend secret sig) ∧
            cr.hash160 secret = h.secretHash ∧
            SigValid cr i.sighash h.spendKey (.standard mode sig)) ∨
         (∃ sig, cr.decodeHtlc raw = some (.refund sig) ∧
            Expired (lockCtx t i.info) h.refundTimelock ∧
            SigValid cr i.sighash h.refundKey (.standard mode sig)))
    | .burn | .createDelegationId | .delegateStaking | .issueFungibleToken | .dataDeposit
    | .createOrder => False
  | .delegation id => SigBy cr i (ac.delegationSpend id)
  | .tokenCommand tk => SigBy cr i (ac.tokenAuthority tk)
  | .concludeOrderV0 o => SigBy cr i (ac.orderConclude o)
  | .fillOrderV0 _ => True
  | .fillOrder _ => i.witness = .noSignature
  | .orderCommand o => SigBy cr i (ac.orderConclude o)

/-- When a block reward input may be spent. -/
def MayStake (cr : Crypto) (i : Input) : Prop :=
  match i.info with
  | .utxo (.produceBlockFromStake d _) _ => SigValid cr i.sighash d i.witness
  | .utxo (.createStakePool s _) _ => SigValid cr i.sighash s i.witness
  | _ => False

/-- The lock that applies to an input, if any: that of a locked output, or that of an HTLC when the
witness takes the refund branch. -/
def lockOf (cr : Crypto) (i : Input) : Option TimeLock :=
  match i.info with
  | .utxo (.lockThenTransfer _ l) _ => some l
  | .utxo (.htlc h) _ =>
    match i.witness with
    | .standard _ raw =>
      match cr.decodeHtlc raw with
      | some (.refund _) => some h.refundTimelock
      | _ => none
    | .noSignature => none
  | _ => none

end Verif.Script
