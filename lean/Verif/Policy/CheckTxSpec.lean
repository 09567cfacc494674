import Verif.Policy.CheckTx

/-!
# What each error of `check_transaction` means

For every error the rule that a transaction returned with that error has broken, in terms of the transaction and the
configuration alone.
-/

namespace Verif.Policy
open Verif
open Verif.Codec

/-- the values an output mentions -/
def valuesOf : TxOutput → List OutputValue
  | .transfer v _ => [v]
  | .lockThenTransfer v _ _ => [v]
  | .burn v => [v]
  | .htlc v _ => [v]
  | .createOrder d => [d.ask, d.give]
  | _ => []

/-- the output issues a token or an NFT -/
inductive Issues : TxOutput → Prop
  | token (t) : Issues (.issueFungibleToken t)
  | nft (id n d) : Issues (.issueNft id n d)
  | transferToken (t d) : Issues (.transfer (.tokenV0 (.issuance t)) d)
  | transferNft (t d) : Issues (.transfer (.tokenV0 (.nft t)) d)
  | lockToken (t d l) : Issues (.lockThenTransfer (.tokenV0 (.issuance t)) d l)
  | lockNft (t d l) : Issues (.lockThenTransfer (.tokenV0 (.nft t)) d l)
  | burnToken (t) : Issues (.burn (.tokenV0 (.issuance t)))
  | burnNft (t) : Issues (.burn (.tokenV0 (.nft t)))

/-- a URI is text of letters, digits and the characters of RFC 3986 -/
def UriOk (x : Text) (uri : Bytes) : Prop :=
  ∃ cs, x.decode uri = some cs ∧ ∀ c ∈ cs, x.alphanumeric c = true ∨
    c ∈ "%:/?#[]@!$&'()*+,;=-._~".toList.map Char.toNat

/-- letters and digits of ASCII -/
def AlphanumericText (b : Bytes) : Prop :=
  ∀ c ∈ b, ('0'.toNat ≤ c.toNat ∧ c.toNat ≤ '9'.toNat) ∨ ('A'.toNat ≤ c.toNat ∧ c.toNat ≤ 'Z'.toNat) ∨
    ('a'.toNat ≤ c.toNat ∧ c.toNat ≤ 'z'.toNat)

/-- `b` is empty or too long -/
def BadLength (b : Bytes) (max : Nat) : Prop := b.length = 0 ∨ max < b.length

/-- an optional URI that is given and not acceptable -/
def BadUri (l : Limits) (x : Text) (u : Option Bytes) : Prop :=
  ∃ b, u = some b ∧ b ≠ [] ∧ (l.maxUriLen < b.length ∨ ¬ UriOk x b)

/-- what is wrong with the NFT -/
def BadNft (l : Limits) (x : Text) (m : Metadata) : IssueErr → Prop
  | .tickerLength => BadLength m.ticker l.maxTickerLen
  | .tickerChars => ¬ AlphanumericText m.ticker
  | .nameLength => BadLength m.name l.maxNameLen
  | .nameChars => ¬ AlphanumericText m.name
  | .descriptionLength => BadLength m.description l.maxDescriptionLen
  | .descriptionChars => ¬ AlphanumericText m.description
  | .decimals => False
  | .iconUri => BadUri l x m.iconUri
  | .metadataUri => BadUri l x m.additionalMetadataUri
  | .mediaUri => BadUri l x m.mediaUri
  | .mediaHashShort => m.mediaHash.length < l.minHashLen
  | .mediaHashLong => l.maxHashLen < m.mediaHash.length

/-- what is wrong with the token -/
def BadToken (l : Limits) (x : Text) (t : TokenIssuanceV1) : IssueErr → Prop
  | .tickerLength => BadLength t.ticker l.maxTickerLen
  | .tickerChars => ¬ AlphanumericText t.ticker
  | .decimals => l.maxDecCount < t.decimals
  | .metadataUri => l.maxUriLen < t.uri.length ∨ ¬ UriOk x t.uri
  | _ => False

/-- **What each error means.** -/
def Broken (k : Crypto) (l : Limits) (r : Rules) (x : Text) (tx : SignedTransaction) : CheckErr → Prop
  | .sizeTooLarge => l.maxSizeScripts < ((SignedTransaction.codec k).enc tx).length
  | .emptyInputs => tx.transaction.inputs.length = 0
  | .duplicateInput => ∃ i j : Nat, i < j ∧ j < tx.transaction.inputs.length ∧ tx.transaction.inputs[i]? = tx.transaction.inputs[j]?
  | .witnessCount => tx.transaction.inputs.length ≠ tx.signatures.length
  | .deprecatedTokens => r.tokensV1 = true ∧ ∃ o ∈ tx.transaction.outputs, ∃ d, OutputValue.tokenV0 d ∈ valuesOf o
  | .multipleIssuance => ∃ (i j : Nat) (o o' : TxOutput), i < j ∧ tx.transaction.outputs[i]? = some o ∧ tx.transaction.outputs[j]? = some o' ∧
      Issues o ∧ Issues o'
  | .changeUriNotActivated => r.changeUriActivated = false ∧
      ∃ n id uri, TxInput.accountCommand n (.changeTokenMetadataUri id uri) ∈ tx.transaction.inputs
  | .uriTooLarge id => ∃ n uri, TxInput.accountCommand n (.changeTokenMetadataUri id uri) ∈ tx.transaction.inputs ∧
      l.maxUriLen < uri.length
  | .uriInvalid id => r.uriCheckRequired = true ∧
      ∃ n uri, TxInput.accountCommand n (.changeTokenMetadataUri id uri) ∈ tx.transaction.inputs ∧ ¬ UriOk x uri
  | .issue e => (∃ t, TxOutput.issueFungibleToken (.v1 t) ∈ tx.transaction.outputs ∧ BadToken l x t e) ∨
      ∃ id n d, TxOutput.issueNft id (.v0 n) d ∈ tx.transaction.outputs ∧ BadNft l x n.metadata e
  | .noSigDataNotAllowed => l.noSigDataAllowed = false ∧ ∃ d, InputWitness.noSignature (some d) ∈ tx.signatures
  | .noSigDataTooLarge n m => m = l.noSigDataMax ∧ m < n ∧ ∃ d, InputWitness.noSignature (some d) ∈ tx.signatures ∧ d.length = n
  | .dataDepositTooLarge n m => m = l.dataDepositMax ∧ m < n ∧ ∃ d, TxOutput.dataDeposit d ∈ tx.transaction.outputs ∧ d.length = n
  | .htlcNotActivated => r.htlcActivated = false ∧ ∃ v h, TxOutput.htlc v h ∈ tx.transaction.outputs
  | .deprecatedOrders => r.ordersVersion = .v1 ∧
      ((∃ n id a d, TxInput.accountCommand n (.fillOrder id a d) ∈ tx.transaction.inputs) ∨
        ∃ n id, TxInput.accountCommand n (.concludeOrder id) ∈ tx.transaction.inputs)
  | .ordersV1NotActivated => r.ordersVersion = .v0 ∧ ∃ c, TxInput.orderAccountCommand c ∈ tx.transaction.inputs
  | .fillWithZero id => TxInput.orderAccountCommand (.fillOrder id 0) ∈ tx.transaction.inputs
  | .ordersNotActivated => r.ordersActivated = false ∧ ∃ d, TxOutput.createOrder d ∈ tx.transaction.outputs
  | .sameCurrencies => ∃ d, TxOutput.createOrder d ∈ tx.transaction.outputs ∧
      ((∃ a b, d.ask = .coin a ∧ d.give = .coin b) ∨ (∃ a b, d.ask = .tokenV0 a ∧ d.give = .tokenV0 b) ∨
        ∃ id a b, d.ask = .tokenV1 id a ∧ d.give = .tokenV1 id b)

end Verif.Policy
