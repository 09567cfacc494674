import Verif.Base.Amount
import Verif.Codec.Types

/-!
# Model of `check_transaction`

chainstate/tx-verifier/src/transaction_verifier/check_transaction.rs (below `check_transaction.rs`) with
tokens_check/mod.rs and tokens_check/check_utils.rs, on the transactions of the codec model.  Errors do not carry
transaction ids.
-/

namespace Verif.Policy
open Verif
open Verif.Codec

/-- what `is_uri_valid` needs to know about text: how UTF-8 is decoded (`String::from_utf8`) and which characters are
letters or digits (`char::is_alphanumeric`).  Both belong to the standard library and are arbitrary here. -/
structure Text where
  decode : Bytes → Option (List Nat)
  alphanumeric : Nat → Bool

/-- the limits of `ChainConfig` – common/src/chain/config/mod.rs 290-303, 470-477, 517-525, 588-595, 653-697.
`dataDepositMax` is the limit in force at the height at which the transaction is checked. -/
structure Limits where
  maxSizeScripts : Nat
  maxSizeContracts : Nat
  maxUriLen : Nat
  maxDecCount : Nat
  maxTickerLen : Nat
  maxNameLen : Nat
  maxDescriptionLen : Nat
  minHashLen : Nat
  maxHashLen : Nat
  noSigDataAllowed : Bool
  noSigDataMax : Nat
  dataDepositMax : Nat

inductive OrdersVersion
  | v0
  | v1
  deriving DecidableEq

/-- the parts of `ChainstateUpgrade` the checks look at, as in force at the height at which the transaction is checked –
common/src/chain/upgrades/chainstate_upgrade/mod.rs 156-173.  `tokensV1`: `TokenIssuanceVersion::V1`. -/
structure Rules where
  tokensV1 : Bool
  changeUriActivated : Bool
  uriCheckRequired : Bool
  htlcActivated : Bool
  ordersActivated : Bool
  ordersVersion : OrdersVersion
  stakerDestinationUpdateForbidden : Bool
  zeroTokenTransferForbidden : Bool

/-- `TokenIssuanceError` – chainstate/tx-verifier/src/transaction_verifier/error.rs -/
inductive IssueErr
  | tickerLength
  | tickerChars
  | nameLength
  | nameChars
  | descriptionLength
  | descriptionChars
  | decimals
  | iconUri
  | metadataUri
  | mediaUri
  | mediaHashShort
  | mediaHashLong
  deriving DecidableEq

/-- `CheckTransactionError` – check_transaction.rs 30-76 -/
inductive CheckErr
  | sizeTooLarge
  | emptyInputs
  | duplicateInput
  | witnessCount
  | deprecatedTokens
  | multipleIssuance
  | changeUriNotActivated
  | uriTooLarge (token : Bytes)
  | uriInvalid (token : Bytes)
  | issue (e : IssueErr)
  | noSigDataNotAllowed
  | noSigDataTooLarge (size max : Nat)
  | dataDepositTooLarge (size max : Nat)
  | htlcNotActivated
  | deprecatedOrders
  | ordersV1NotActivated
  | fillWithZero (order : Bytes)
  | ordersNotActivated
  | sameCurrencies
  deriving DecidableEq

/-- `try_for_each` -/
def forEach {α ε : Type} (f : α → Except ε Unit) : List α → Except ε Unit
  | [] => .ok ()
  | x :: xs => do
    f x
    forEach f xs

/-! ### Tokens – tokens_check -/

/-- `u8::is_ascii_alphanumeric` -/
def asciiAlphanumeric (b : UInt8) : Bool :=
  (48 ≤ b && b ≤ 57) || (65 ≤ b && b ≤ 90) || (97 ≤ b && b ≤ 122)

/-- `is_rfc3986_valid_symbol` – common/src/chain/tokens/mod.rs 32-35: `%:/?#[]@!$&'()*+,;=-._~` -/
def uriSymbol (c : Nat) : Bool :=
  c ∈ [37, 58, 47, 63, 35, 91, 93, 64, 33, 36, 38, 39, 40, 41, 42, 43, 44, 59, 61, 45, 46, 95, 126]

/-- `is_uri_valid` – check_utils.rs 25-34 -/
def isUriValid (x : Text) (uri : Bytes) : Bool :=
  match x.decode uri with
  | some cs => cs.all fun c => x.alphanumeric c || uriSymbol c
  | none => false

/-- `check_media_hash` – check_utils.rs 36-46 -/
def checkMediaHash (l : Limits) (hash : Bytes) : Except IssueErr Unit := do
  ensure (l.minHashLen ≤ hash.length) .mediaHashShort
  ensure (hash.length ≤ l.maxHashLen) .mediaHashLong

/-- `check_token_ticker` – check_utils.rs 48-65 -/
def checkTicker (l : Limits) (ticker : Bytes) : Except IssueErr Unit := do
  ensure (ticker.length ≤ l.maxTickerLen ∧ ticker ≠ []) .tickerLength
  ensure (ticker.all asciiAlphanumeric = true) .tickerChars

/-- `check_nft_name` – check_utils.rs 67-81 -/
def checkName (l : Limits) (name : Bytes) : Except IssueErr Unit := do
  ensure (name.length ≤ l.maxNameLen ∧ name ≠ []) .nameLength
  ensure (name.all asciiAlphanumeric = true) .nameChars

/-- `check_nft_description` – check_utils.rs 83-100 -/
def checkDescription (l : Limits) (d : Bytes) : Except IssueErr Unit := do
  ensure (d.length ≤ l.maxDescriptionLen ∧ d ≠ []) .descriptionLength
  ensure (d.all asciiAlphanumeric = true) .descriptionChars

/-- one of the three URIs of an NFT – tokens_check/mod.rs 38-50 (51-64, 65-76).  The code encodes the optional value and
decodes it as a vector, which turns an absent one into an empty one. -/
def checkNftUri (l : Limits) (x : Text) (uri : Option Bytes) (e : IssueErr) : Except IssueErr Unit :=
  if uri.getD [] = [] then .ok ()
  else do
    ensure ((uri.getD []).length ≤ l.maxUriLen) e
    ensure (isUriValid x (uri.getD []) = true) e

/-- `check_nft_issuance_data` – tokens_check/mod.rs 29-78 -/
def checkNft (l : Limits) (x : Text) (m : Metadata) : Except IssueErr Unit := do
  checkTicker l m.ticker
  checkName l m.name
  checkDescription l m.description
  checkNftUri l x m.iconUri .iconUri
  checkNftUri l x m.additionalMetadataUri .metadataUri
  checkNftUri l x m.mediaUri .mediaUri
  checkMediaHash l m.mediaHash

/-- `check_tokens_issuance` – tokens_check/mod.rs 80-109 -/
def checkIssuance (l : Limits) (x : Text) (t : TokenIssuanceV1) : Except IssueErr Unit := do
  checkTicker l t.ticker
  ensure (t.decimals ≤ l.maxDecCount) .decimals
  ensure (isUriValid x t.uri = true) .metadataUri
  ensure (t.uri.length ≤ l.maxUriLen) .metadataUri

/-- a value in tokens of the first version -/
def isTokenV0 : OutputValue → Bool
  | .tokenV0 _ => true
  | _ => false

/-- an output that mentions tokens of the first version – check_transaction.rs 165-193 -/
def usesTokensV0 : TxOutput → Bool
  | .transfer v _ => isTokenV0 v
  | .burn v => isTokenV0 v
  | .lockThenTransfer v _ _ => isTokenV0 v
  | .htlc v _ => isTokenV0 v
  | .createOrder d => isTokenV0 d.ask || isTokenV0 d.give
  | _ => false

/-- a value that issues a token of the first version -/
def issuesV0 : OutputValue → Bool
  | .tokenV0 (.issuance _) => true
  | .tokenV0 (.nft _) => true
  | _ => false

/-- `is_token_or_nft_issuance` – common/src/chain/tokens/tokens_utils.rs 64-84; note that an HTLC that issues a token of the
first version is not counted -/
def isIssuance : TxOutput → Bool
  | .transfer v _ => issuesV0 v
  | .lockThenTransfer v _ _ => issuesV0 v
  | .burn v => issuesV0 v
  | .issueFungibleToken _ => true
  | .issueNft _ _ _ => true
  | _ => false

/-- a command that changes the metadata URI of a token – check_transaction.rs 215-258 -/
def checkUriChange (l : Limits) (r : Rules) (x : Text) : TxInput → Except CheckErr Unit
  | .accountCommand _ (.changeTokenMetadataUri id uri) => do
    ensure (r.changeUriActivated = true) .changeUriNotActivated
    ensure (uri.length ≤ l.maxUriLen) (.uriTooLarge id)
    ensure (r.uriCheckRequired = false ∨ isUriValid x uri = true) (.uriInvalid id)
  | _ => .ok ()

/-- check_transaction.rs 259-281 -/
def checkIssuanceOutput (l : Limits) (x : Text) : TxOutput → Except CheckErr Unit
  | .issueFungibleToken (.v1 t) => (checkIssuance l x t).mapError .issue
  | .issueNft _ (.v0 n) _ => (checkNft l x n.metadata).mapError .issue
  | _ => .ok ()

/-- `check_tokens_tx` – check_transaction.rs 152-283 -/
def checkTokens (l : Limits) (r : Rules) (x : Text) (tx : SignedTransaction) : Except CheckErr Unit := do
  ensure (r.tokensV1 = false ∨ tx.transaction.outputs.any usesTokensV0 = false) .deprecatedTokens
  ensure ((tx.transaction.outputs.filter isIssuance).length ≤ 1) .multipleIssuance
  forEach (checkUriChange l r x) tx.transaction.inputs
  forEach (checkIssuanceOutput l x) tx.transaction.outputs

/-! ### The other checks -/

/-- `check_size` – check_transaction.rs 94-123; `has_smart_contracts` is always false (common/src/chain/transaction/mod.rs
158-160), so the limit for smart contracts is never used -/
def checkSize (k : Crypto) (l : Limits) (tx : SignedTransaction) : Except CheckErr Unit :=
  ensure (((SignedTransaction.codec k).enc tx).length ≤ l.maxSizeScripts) .sizeTooLarge

/-- the loop over the inputs with the set of inputs seen so far – check_transaction.rs 132-138.  The set is a list here. -/
def noDuplicates (seen : List TxInput) : List TxInput → Except CheckErr Unit
  | [] => .ok ()
  | i :: is => do
    ensure (i ∉ seen) .duplicateInput
    noDuplicates (i :: seen) is

/-- `check_duplicate_inputs` – check_transaction.rs 125-141 -/
def checkDuplicateInputs (tx : SignedTransaction) : Except CheckErr Unit := do
  ensure (tx.transaction.inputs ≠ []) .emptyInputs
  noDuplicates [] tx.transaction.inputs

/-- `check_witness_count` – check_transaction.rs 143-150 -/
def checkWitnessCount (tx : SignedTransaction) : Except CheckErr Unit :=
  ensure (tx.transaction.inputs.length = tx.signatures.length) .witnessCount

/-- check_transaction.rs 289-311 -/
def checkNoSignature (l : Limits) : InputWitness → Except CheckErr Unit
  | .noSignature (some d) => do
    ensure (l.noSigDataAllowed = true) .noSigDataNotAllowed
    ensure (d.length ≤ l.noSigDataMax) (.noSigDataTooLarge d.length l.noSigDataMax)
  | _ => .ok ()

/-- check_transaction.rs 321-345 -/
def checkDataDeposit (l : Limits) : TxOutput → Except CheckErr Unit
  | .dataDeposit d => ensure (d.length ≤ l.dataDepositMax) (.dataDepositTooLarge d.length l.dataDepositMax)
  | _ => .ok ()

def isHtlc : TxOutput → Bool
  | .htlc _ _ => true
  | _ => false

/-- `check_htlc_outputs` – check_transaction.rs 350-383 -/
def checkHtlc (r : Rules) (tx : SignedTransaction) : Except CheckErr Unit :=
  ensure (r.htlcActivated = true ∨ tx.transaction.outputs.any isHtlc = false) .htlcNotActivated

/-- check_transaction.rs 396-444 -/
def checkOrderInput (r : Rules) : TxInput → Except CheckErr Unit
  | .accountCommand _ (.fillOrder _ _ _) => ensure (r.ordersVersion = .v0) .deprecatedOrders
  | .accountCommand _ (.concludeOrder _) => ensure (r.ordersVersion = .v0) .deprecatedOrders
  | .orderAccountCommand (.fillOrder id fill) => do
    ensure (r.ordersVersion = .v1) .ordersV1NotActivated
    ensure (0 < fill) (.fillWithZero id)
  | .orderAccountCommand _ => ensure (r.ordersVersion = .v1) .ordersV1NotActivated
  | _ => .ok ()

/-- `CoinOrTokenId::from_output_value` – common/src/primitives/mod.rs 53-59: `none` for tokens of the first version, and
`some none` for coins -/
def currency : OutputValue → Option (Option Bytes)
  | .coin _ => some none
  | .tokenV0 _ => none
  | .tokenV1 id _ => some (some id)

/-- check_transaction.rs 446-485 -/
def checkOrderOutput (r : Rules) : TxOutput → Except CheckErr Unit
  | .createOrder d => do
    ensure (r.ordersActivated = true) .ordersNotActivated
    ensure (currency d.ask ≠ currency d.give) .sameCurrencies
  | _ => .ok ()

/-- `check_transaction` – check_transaction.rs 78-92 -/
def checkTransaction (k : Crypto) (l : Limits) (r : Rules) (x : Text) (tx : SignedTransaction) : Except CheckErr Unit := do
  checkSize k l tx
  checkDuplicateInputs tx
  checkWitnessCount tx
  checkTokens l r x tx
  forEach (checkNoSignature l) tx.signatures
  forEach (checkDataDeposit l) tx.transaction.outputs
  checkHtlc r tx
  forEach (checkOrderInput r) tx.transaction.inputs
  forEach (checkOrderOutput r) tx.transaction.outputs

end Verif.Policy
