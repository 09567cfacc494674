import Verif.Codec.Base

/-!
The types of transactions and blocks and their binary forms, type by type.

Keys, signatures and proofs are kept as the bytes they are written as.  Whether bytes are a valid key or
proof is decided by the cryptographic libraries, which are not modelled: `Crypto` holds these decisions as
arbitrary functions.  It is assumed that a key read from valid bytes is written as the same bytes.
-/
namespace Verif.Codec

/-- Which byte strings the cryptographic libraries and the UTF-8 decoder accept. -/
structure Crypto where
  publicKey : Bytes → Bool
  vrfPublicKey : Bytes → Bool
  vrfPreout : Bytes → Bool
  vrfProof : Bytes → Bool
  utf8 : Bytes → Bool

/-- `H256` and `Id<T>` (common/src/primitives/id/mod.rs 37, 113-118): 32 bytes. -/
def hashC : Codec Bytes := bytesN 32

/-- `PublicKeyHash` (common/src/address/pubkeyhash.rs 38) and `HtlcSecretHash`
(common/src/chain/transaction/output/htlc.rs 99): 20 bytes. -/
def pkhC : Codec Bytes := bytesN 20

/-- `Amount` (common/src/primitives/amount/mod.rs 55-58). -/
def amountC : Codec Nat := compact 16

/-- `PerThousand` (common/src/primitives/per_thousand.rs 29, 116-124): at most 1000. -/
def perThousandC : Codec Nat := checked (fun v => v ≤ 1000) (uint 2)

/-- `PublicKey` (crypto/src/key/mod.rs 58-60, key_holder.rs 29, secp256k1/mod.rs 116-128): the kind 0 and
33 bytes. -/
def publicKeyC (k : Crypto) : Codec Bytes := tagged 0 (checked k.publicKey (bytesN 33))

/-- `Signature` (crypto/src/key/signature/mod.rs 40-73): the kind 0 and 64 bytes. -/
def signatureC : Codec Bytes := tagged 0 (bytesN 64)

/-- `VRFPublicKey` (crypto/src/vrf/mod.rs 71-73): the kind 0 and 32 bytes. -/
def vrfPublicKeyC (k : Crypto) : Codec Bytes := tagged 0 (checked k.vrfPublicKey (bytesN 32))

/-- `VRFReturn` (crypto/src/vrf/primitives.rs 22-25, schnorrkel/data.rs 47-80): the kind 0, the output (32
bytes) and the proof (64 bytes). -/
def vrfReturnC (k : Crypto) : Codec (Bytes × Bytes) :=
  tagged 0 (pair (checked k.vrfPreout (bytesN 32)) (checked k.vrfProof (bytesN 64)))

/-- `String`. -/
def stringC (k : Crypto) : Codec Bytes := checked k.utf8 blob

/-- `SigHashType` (common/src/chain/transaction/signature/sighash/sighashtype.rs 24-74): the low seven
bits are 1, 2 or 3. -/
def sighashTypeC : Codec UInt8 :=
  checked (fun b => b &&& 0x7f == 1 || b &&& 0x7f == 2 || b &&& 0x7f == 3) byte

/-- `OutPointSourceId` (common/src/chain/transaction/utxo_outpoint.rs 34-41). -/
inductive OutPointSourceId
  | transaction (a : Bytes)
  | blockReward (a : Bytes)
deriving DecidableEq, Repr

/-- The index of the variant. -/
def OutPointSourceId.tag : OutPointSourceId → UInt8
  | .transaction _ => 0
  | .blockReward _ => 1

/-- The variants. -/
def OutPointSourceId.variants (_k : Crypto) : List (Variant OutPointSourceId) :=
  [variant 0 (hashC) (fun a => .transaction a)
      (fun | .transaction a => Option.some a | _ => Option.none),
   variant 1 (hashC) (fun a => .blockReward a)
      (fun | .blockReward a => Option.some a | _ => Option.none)]

/-- Its binary form. -/
def OutPointSourceId.codec (k : Crypto) : Codec OutPointSourceId := enum (OutPointSourceId.variants k)

/-- `UtxoOutPoint` (common/src/chain/transaction/utxo_outpoint.rs 86-91). -/
structure UtxoOutPoint where
  id : OutPointSourceId
  index : Nat
deriving DecidableEq, Repr

/-- Its binary form. -/
def UtxoOutPoint.codec (k : Crypto) : Codec UtxoOutPoint :=
  iso (fun x => (x.id, x.index))
    (fun (a, b) => ⟨a, b⟩)
    ((pair (OutPointSourceId.codec k) (uint 4)))

/-- `Destination` (common/src/chain/transaction/output/mod.rs 53-70). -/
inductive Destination
  | anyoneCanSpend
  | publicKeyHash (a : Bytes)
  | publicKey (a : Bytes)
  | scriptHash (a : Bytes)
  | classicMultisig (a : Bytes)
deriving DecidableEq, Repr

/-- The index of the variant. -/
def Destination.tag : Destination → UInt8
  | .anyoneCanSpend => 0
  | .publicKeyHash _ => 1
  | .publicKey _ => 2
  | .scriptHash _ => 3
  | .classicMultisig _ => 4

/-- The variants. -/
def Destination.variants (k : Crypto) : List (Variant Destination) :=
  [variant 0 nothing (fun _ => .anyoneCanSpend)
      (fun | .anyoneCanSpend => Option.some () | _ => Option.none),
   variant 1 (pkhC) (fun a => .publicKeyHash a)
      (fun | .publicKeyHash a => Option.some a | _ => Option.none),
   variant 2 (publicKeyC k) (fun a => .publicKey a)
      (fun | .publicKey a => Option.some a | _ => Option.none),
   variant 3 (hashC) (fun a => .scriptHash a)
      (fun | .scriptHash a => Option.some a | _ => Option.none),
   variant 4 (pkhC) (fun a => .classicMultisig a)
      (fun | .classicMultisig a => Option.some a | _ => Option.none)]

/-- Its binary form. -/
def Destination.codec (k : Crypto) : Codec Destination := enum (Destination.variants k)

/-- `IsTokenFreezable` (common/src/chain/tokens/issuance.rs 59-64). -/
inductive IsTokenFreezable
  | no
  | yes
deriving DecidableEq, Repr

/-- The index of the variant. -/
def IsTokenFreezable.tag : IsTokenFreezable → UInt8
  | .no => 0
  | .yes => 1

/-- The variants. -/
def IsTokenFreezable.variants (_k : Crypto) : List (Variant IsTokenFreezable) :=
  [variant 0 nothing (fun _ => .no)
      (fun | .no => Option.some () | _ => Option.none),
   variant 1 nothing (fun _ => .yes)
      (fun | .yes => Option.some () | _ => Option.none)]

/-- Its binary form. -/
def IsTokenFreezable.codec (k : Crypto) : Codec IsTokenFreezable := enum (IsTokenFreezable.variants k)

/-- `IsTokenUnfreezable` (common/src/chain/tokens/issuance.rs 90-95). -/
inductive IsTokenUnfreezable
  | no
  | yes
deriving DecidableEq, Repr

/-- The index of the variant. -/
def IsTokenUnfreezable.tag : IsTokenUnfreezable → UInt8
  | .no => 0
  | .yes => 1

/-- The variants. -/
def IsTokenUnfreezable.variants (_k : Crypto) : List (Variant IsTokenUnfreezable) :=
  [variant 0 nothing (fun _ => .no)
      (fun | .no => Option.some () | _ => Option.none),
   variant 1 nothing (fun _ => .yes)
      (fun | .yes => Option.some () | _ => Option.none)]

/-- Its binary form. -/
def IsTokenUnfreezable.codec (k : Crypto) : Codec IsTokenUnfreezable := enum (IsTokenUnfreezable.variants k)

/-- `AccountSpending` (common/src/chain/transaction/account_outpoint.rs 97-101). -/
inductive AccountSpending
  | delegationBalance (a : Bytes) (b : Nat)
deriving DecidableEq, Repr

/-- The index of the variant. -/
def AccountSpending.tag : AccountSpending → UInt8
  | .delegationBalance _ _ => 0

/-- The variants. -/
def AccountSpending.variants (_k : Crypto) : List (Variant AccountSpending) :=
  [variant 0 (pair (hashC) (amountC)) (fun (a, b) => .delegationBalance a b)
      (fun | .delegationBalance a b => Option.some (a, b))]

/-- Its binary form. -/
def AccountSpending.codec (k : Crypto) : Codec AccountSpending := enum (AccountSpending.variants k)

/-- `AccountOutPoint` (common/src/chain/transaction/account_outpoint.rs 186-191). -/
structure AccountOutPoint where
  nonce : Nat
  account : AccountSpending
deriving DecidableEq, Repr

/-- Its binary form. -/
def AccountOutPoint.codec (k : Crypto) : Codec AccountOutPoint :=
  iso (fun x => (x.nonce, x.account))
    (fun (a, b) => ⟨a, b⟩)
    ((pair (compact 8) (AccountSpending.codec k)))

/-- `AccountCommand` (common/src/chain/transaction/account_outpoint.rs 118-147). -/
inductive AccountCommand
  | mintTokens (a : Bytes) (b : Nat)
  | unmintTokens (a : Bytes)
  | lockTokenSupply (a : Bytes)
  | freezeToken (a : Bytes) (b : IsTokenUnfreezable)
  | unfreezeToken (a : Bytes)
  | changeTokenAuthority (a : Bytes) (b : Destination)
  | concludeOrder (a : Bytes)
  | fillOrder (a : Bytes) (b : Nat) (c : Destination)
  | changeTokenMetadataUri (a : Bytes) (b : Bytes)
deriving DecidableEq, Repr

/-- The index of the variant. -/
def AccountCommand.tag : AccountCommand → UInt8
  | .mintTokens _ _ => 0
  | .unmintTokens _ => 1
  | .lockTokenSupply _ => 2
  | .freezeToken _ _ => 3
  | .unfreezeToken _ => 4
  | .changeTokenAuthority _ _ => 5
  | .concludeOrder _ => 6
  | .fillOrder _ _ _ => 7
  | .changeTokenMetadataUri _ _ => 8

/-- The variants. -/
def AccountCommand.variants (k : Crypto) : List (Variant AccountCommand) :=
  [variant 0 (pair (hashC) (amountC)) (fun (a, b) => .mintTokens a b)
      (fun | .mintTokens a b => Option.some (a, b) | _ => Option.none),
   variant 1 (hashC) (fun a => .unmintTokens a)
      (fun | .unmintTokens a => Option.some a | _ => Option.none),
   variant 2 (hashC) (fun a => .lockTokenSupply a)
      (fun | .lockTokenSupply a => Option.some a | _ => Option.none),
   variant 3 (pair (hashC) (IsTokenUnfreezable.codec k)) (fun (a, b) => .freezeToken a b)
      (fun | .freezeToken a b => Option.some (a, b) | _ => Option.none),
   variant 4 (hashC) (fun a => .unfreezeToken a)
      (fun | .unfreezeToken a => Option.some a | _ => Option.none),
   variant 5 (pair (hashC) (Destination.codec k)) (fun (a, b) => .changeTokenAuthority a b)
      (fun | .changeTokenAuthority a b => Option.some (a, b) | _ => Option.none),
   variant 6 (hashC) (fun a => .concludeOrder a)
      (fun | .concludeOrder a => Option.some a | _ => Option.none),
   variant 7 (pair (hashC) (pair (amountC) (Destination.codec k))) (fun (a, b, c) => .fillOrder a b c)
      (fun | .fillOrder a b c => Option.some (a, b, c) | _ => Option.none),
   variant 8 (pair (hashC) (blob)) (fun (a, b) => .changeTokenMetadataUri a b)
      (fun | .changeTokenMetadataUri a b => Option.some (a, b) | _ => Option.none)]

/-- Its binary form. -/
def AccountCommand.codec (k : Crypto) : Codec AccountCommand := enum (AccountCommand.variants k)

/-- `OrderAccountCommand` (common/src/chain/transaction/account_outpoint.rs 219-230). -/
inductive OrderAccountCommand
  | fillOrder (a : Bytes) (b : Nat)
  | freezeOrder (a : Bytes)
  | concludeOrder (a : Bytes)
deriving DecidableEq, Repr

/-- The index of the variant. -/
def OrderAccountCommand.tag : OrderAccountCommand → UInt8
  | .fillOrder _ _ => 0
  | .freezeOrder _ => 1
  | .concludeOrder _ => 2

/-- The variants. -/
def OrderAccountCommand.variants (_k : Crypto) : List (Variant OrderAccountCommand) :=
  [variant 0 (pair (hashC) (amountC)) (fun (a, b) => .fillOrder a b)
      (fun | .fillOrder a b => Option.some (a, b) | _ => Option.none),
   variant 1 (hashC) (fun a => .freezeOrder a)
      (fun | .freezeOrder a => Option.some a | _ => Option.none),
   variant 2 (hashC) (fun a => .concludeOrder a)
      (fun | .concludeOrder a => Option.some a | _ => Option.none)]

/-- Its binary form. -/
def OrderAccountCommand.codec (k : Crypto) : Codec OrderAccountCommand := enum (OrderAccountCommand.variants k)

/-- `TxInput` (common/src/chain/transaction/input.rs 39-48). -/
inductive TxInput
  | utxo (a : UtxoOutPoint)
  | account (a : AccountOutPoint)
  | accountCommand (a : Nat) (b : AccountCommand)
  | orderAccountCommand (a : OrderAccountCommand)
deriving DecidableEq, Repr

/-- The index of the variant. -/
def TxInput.tag : TxInput → UInt8
  | .utxo _ => 0
  | .account _ => 1
  | .accountCommand _ _ => 2
  | .orderAccountCommand _ => 3

/-- The variants. -/
def TxInput.variants (k : Crypto) : List (Variant TxInput) :=
  [variant 0 (UtxoOutPoint.codec k) (fun a => .utxo a)
      (fun | .utxo a => Option.some a | _ => Option.none),
   variant 1 (AccountOutPoint.codec k) (fun a => .account a)
      (fun | .account a => Option.some a | _ => Option.none),
   variant 2 (pair (compact 8) (AccountCommand.codec k)) (fun (a, b) => .accountCommand a b)
      (fun | .accountCommand a b => Option.some (a, b) | _ => Option.none),
   variant 3 (OrderAccountCommand.codec k) (fun a => .orderAccountCommand a)
      (fun | .orderAccountCommand a => Option.some a | _ => Option.none)]

/-- Its binary form. -/
def TxInput.codec (k : Crypto) : Codec TxInput := enum (TxInput.variants k)

/-- `TokenTransfer` (common/src/chain/tokens/mod.rs 73-76). -/
structure TokenTransfer where
  tokenId : Bytes
  amount : Nat
deriving DecidableEq, Repr

/-- Its binary form. -/
def TokenTransfer.codec (_k : Crypto) : Codec TokenTransfer :=
  iso (fun x => (x.tokenId, x.amount))
    (fun (a, b) => ⟨a, b⟩)
    ((pair (hashC) (amountC)))

/-- `TokenIssuanceV0` (common/src/chain/tokens/mod.rs 90-95). -/
structure TokenIssuanceV0 where
  ticker : Bytes
  amount : Nat
  decimals : Nat
  uri : Bytes
deriving DecidableEq, Repr

/-- Its binary form. -/
def TokenIssuanceV0.codec (_k : Crypto) : Codec TokenIssuanceV0 :=
  iso (fun x => (x.ticker, x.amount, x.decimals, x.uri))
    (fun (a, b, c, d) => ⟨a, b, c, d⟩)
    ((pair (blob) (pair (amountC) (pair (uint 1) (blob)))))

/-- `Metadata` (common/src/chain/tokens/nft.rs 94-103); the creator is `TokenCreator` (72-74), a public key. -/
structure Metadata where
  creator : Option Bytes
  name : Bytes
  description : Bytes
  ticker : Bytes
  iconUri : Option Bytes
  additionalMetadataUri : Option Bytes
  mediaUri : Option Bytes
  mediaHash : Bytes
deriving DecidableEq, Repr

/-- Its binary form. -/
def Metadata.codec (k : Crypto) : Codec Metadata :=
  iso (fun x => (x.creator, x.name, x.description, x.ticker, x.iconUri, x.additionalMetadataUri, x.mediaUri, x.mediaHash))
    (fun (a, b, c, d, e, f, g, h) => ⟨a, b, c, d, e, f, g, h⟩)
    ((pair (option (publicKeyC k)) (pair (blob) (pair (blob) (pair (blob) (pair (noVec) (pair (noVec) (pair (noVec) (blob)))))))))

/-- `NftIssuanceV0` (common/src/chain/tokens/nft.rs 48-50). -/
structure NftIssuanceV0 where
  metadata : Metadata
deriving DecidableEq, Repr

/-- Its binary form. -/
def NftIssuanceV0.codec (k : Crypto) : Codec NftIssuanceV0 :=
  iso (fun x => x.metadata) (fun a => ⟨a⟩) (Metadata.codec k)

/-- `NftIssuance` (common/src/chain/tokens/nft.rs 31-34). -/
inductive NftIssuance
  | v0 (a : NftIssuanceV0)
deriving DecidableEq, Repr

/-- The index of the variant. -/
def NftIssuance.tag : NftIssuance → UInt8
  | .v0 _ => 0

/-- The variants. -/
def NftIssuance.variants (k : Crypto) : List (Variant NftIssuance) :=
  [variant 0 (NftIssuanceV0.codec k) (fun a => .v0 a)
      (fun | .v0 a => Option.some a)]

/-- Its binary form. -/
def NftIssuance.codec (k : Crypto) : Codec NftIssuance := enum (NftIssuance.variants k)

/-- `TokenData` (common/src/chain/tokens/mod.rs 110-120). -/
inductive TokenData
  | transfer (a : TokenTransfer)
  | issuance (a : TokenIssuanceV0)
  | nft (a : NftIssuanceV0)
deriving DecidableEq, Repr

/-- The index of the variant. -/
def TokenData.tag : TokenData → UInt8
  | .transfer _ => 1
  | .issuance _ => 2
  | .nft _ => 3

/-- The variants. -/
def TokenData.variants (k : Crypto) : List (Variant TokenData) :=
  [variant 1 (TokenTransfer.codec k) (fun a => .transfer a)
      (fun | .transfer a => Option.some a | _ => Option.none),
   variant 2 (TokenIssuanceV0.codec k) (fun a => .issuance a)
      (fun | .issuance a => Option.some a | _ => Option.none),
   variant 3 (NftIssuanceV0.codec k) (fun a => .nft a)
      (fun | .nft a => Option.some a | _ => Option.none)]

/-- Its binary form. -/
def TokenData.codec (k : Crypto) : Codec TokenData := enum (TokenData.variants k)

/-- `OutputValue` (common/src/chain/transaction/output/output_value.rs 40-47). -/
inductive OutputValue
  | coin (a : Nat)
  | tokenV0 (a : TokenData)
  | tokenV1 (a : Bytes) (b : Nat)
deriving DecidableEq, Repr

/-- The index of the variant. -/
def OutputValue.tag : OutputValue → UInt8
  | .coin _ => 0
  | .tokenV0 _ => 1
  | .tokenV1 _ _ => 2

/-- The variants. -/
def OutputValue.variants (k : Crypto) : List (Variant OutputValue) :=
  [variant 0 (amountC) (fun a => .coin a)
      (fun | .coin a => Option.some a | _ => Option.none),
   variant 1 (TokenData.codec k) (fun a => .tokenV0 a)
      (fun | .tokenV0 a => Option.some a | _ => Option.none),
   variant 2 (pair (hashC) (amountC)) (fun (a, b) => .tokenV1 a b)
      (fun | .tokenV1 a b => Option.some (a, b) | _ => Option.none)]

/-- Its binary form. -/
def OutputValue.codec (k : Crypto) : Codec OutputValue := enum (OutputValue.variants k)

/-- `OutputTimeLock` (common/src/chain/transaction/output/timelock.rs 37-46). -/
inductive OutputTimeLock
  | untilHeight (a : Nat)
  | untilTime (a : Nat)
  | forBlockCount (a : Nat)
  | forSeconds (a : Nat)
deriving DecidableEq, Repr

/-- The index of the variant. -/
def OutputTimeLock.tag : OutputTimeLock → UInt8
  | .untilHeight _ => 0
  | .untilTime _ => 1
  | .forBlockCount _ => 2
  | .forSeconds _ => 3

/-- The variants. -/
def OutputTimeLock.variants (_k : Crypto) : List (Variant OutputTimeLock) :=
  [variant 0 (compact 8) (fun a => .untilHeight a)
      (fun | .untilHeight a => Option.some a | _ => Option.none),
   variant 1 (compact 8) (fun a => .untilTime a)
      (fun | .untilTime a => Option.some a | _ => Option.none),
   variant 2 (compact 8) (fun a => .forBlockCount a)
      (fun | .forBlockCount a => Option.some a | _ => Option.none),
   variant 3 (compact 8) (fun a => .forSeconds a)
      (fun | .forSeconds a => Option.some a | _ => Option.none)]

/-- Its binary form. -/
def OutputTimeLock.codec (k : Crypto) : Codec OutputTimeLock := enum (OutputTimeLock.variants k)

/-- `StakePoolData` (common/src/chain/transaction/output/stakelock.rs 35-42). -/
structure StakePoolData where
  pledge : Nat
  staker : Destination
  vrfPublicKey : Bytes
  decommissionKey : Destination
  marginRatio : Nat
  costPerBlock : Nat
deriving DecidableEq, Repr

/-- Its binary form. -/
def StakePoolData.codec (k : Crypto) : Codec StakePoolData :=
  iso (fun x => (x.pledge, x.staker, x.vrfPublicKey, x.decommissionKey, x.marginRatio, x.costPerBlock))
    (fun (a, b, c, d, e, f) => ⟨a, b, c, d, e, f⟩)
    ((pair (amountC) (pair (Destination.codec k) (pair (vrfPublicKeyC k) (pair (Destination.codec k) (pair (perThousandC) (amountC)))))))

/-- `TokenTotalSupply` (common/src/chain/tokens/issuance.rs 35-42). -/
inductive TokenTotalSupply
  | fixed (a : Nat)
  | lockable
  | unlimited
deriving DecidableEq, Repr

/-- The index of the variant. -/
def TokenTotalSupply.tag : TokenTotalSupply → UInt8
  | .fixed _ => 0
  | .lockable => 1
  | .unlimited => 2

/-- The variants. -/
def TokenTotalSupply.variants (_k : Crypto) : List (Variant TokenTotalSupply) :=
  [variant 0 (amountC) (fun a => .fixed a)
      (fun | .fixed a => Option.some a | _ => Option.none),
   variant 1 nothing (fun _ => .lockable)
      (fun | .lockable => Option.some () | _ => Option.none),
   variant 2 nothing (fun _ => .unlimited)
      (fun | .unlimited => Option.some () | _ => Option.none)]

/-- Its binary form. -/
def TokenTotalSupply.codec (k : Crypto) : Codec TokenTotalSupply := enum (TokenTotalSupply.variants k)

/-- `TokenIssuanceV1` (common/src/chain/tokens/issuance.rs 160-167). -/
structure TokenIssuanceV1 where
  ticker : Bytes
  decimals : Nat
  uri : Bytes
  totalSupply : TokenTotalSupply
  authority : Destination
  isFreezable : IsTokenFreezable
deriving DecidableEq, Repr

/-- Its binary form. -/
def TokenIssuanceV1.codec (k : Crypto) : Codec TokenIssuanceV1 :=
  iso (fun x => (x.ticker, x.decimals, x.uri, x.totalSupply, x.authority, x.isFreezable))
    (fun (a, b, c, d, e, f) => ⟨a, b, c, d, e, f⟩)
    ((pair (blob) (pair (uint 1) (pair (blob) (pair (TokenTotalSupply.codec k) (pair (Destination.codec k) (IsTokenFreezable.codec k)))))))

/-- `TokenIssuance` (common/src/chain/tokens/issuance.rs 143-146). -/
inductive TokenIssuance
  | v1 (a : TokenIssuanceV1)
deriving DecidableEq, Repr

/-- The index of the variant. -/
def TokenIssuance.tag : TokenIssuance → UInt8
  | .v1 _ => 1

/-- The variants. -/
def TokenIssuance.variants (k : Crypto) : List (Variant TokenIssuance) :=
  [variant 1 (TokenIssuanceV1.codec k) (fun a => .v1 a)
      (fun | .v1 a => Option.some a)]

/-- Its binary form. -/
def TokenIssuance.codec (k : Crypto) : Codec TokenIssuance := enum (TokenIssuance.variants k)

/-- `HashedTimelockContract` (common/src/chain/transaction/output/htlc.rs 28-38). -/
structure HashedTimelockContract where
  secretHash : Bytes
  spendKey : Destination
  refundTimelock : OutputTimeLock
  refundKey : Destination
deriving DecidableEq, Repr

/-- Its binary form. -/
def HashedTimelockContract.codec (k : Crypto) : Codec HashedTimelockContract :=
  iso (fun x => (x.secretHash, x.spendKey, x.refundTimelock, x.refundKey))
    (fun (a, b, c, d) => ⟨a, b, c, d⟩)
    ((pair (pkhC) (pair (Destination.codec k) (pair (OutputTimeLock.codec k) (Destination.codec k)))))

/-- `OrderData` (common/src/chain/order/mod.rs 30-37). -/
structure OrderData where
  concludeKey : Destination
  ask : OutputValue
  give : OutputValue
deriving DecidableEq, Repr

/-- Its binary form. -/
def OrderData.codec (k : Crypto) : Codec OrderData :=
  iso (fun x => (x.concludeKey, x.ask, x.give))
    (fun (a, b, c) => ⟨a, b, c⟩)
    ((pair (Destination.codec k) (pair (OutputValue.codec k) (OutputValue.codec k))))

/-- `TxOutput` (common/src/chain/transaction/output/mod.rs 121-165). -/
inductive TxOutput
  | transfer (a : OutputValue) (b : Destination)
  | lockThenTransfer (a : OutputValue) (b : Destination) (c : OutputTimeLock)
  | burn (a : OutputValue)
  | createStakePool (a : Bytes) (b : StakePoolData)
  | produceBlockFromStake (a : Destination) (b : Bytes)
  | createDelegationId (a : Destination) (b : Bytes)
  | delegateStaking (a : Nat) (b : Bytes)
  | issueFungibleToken (a : TokenIssuance)
  | issueNft (a : Bytes) (b : NftIssuance) (c : Destination)
  | dataDeposit (a : Bytes)
  | htlc (a : OutputValue) (b : HashedTimelockContract)
  | createOrder (a : OrderData)
deriving DecidableEq, Repr

/-- The index of the variant. -/
def TxOutput.tag : TxOutput → UInt8
  | .transfer _ _ => 0
  | .lockThenTransfer _ _ _ => 1
  | .burn _ => 2
  | .createStakePool _ _ => 3
  | .produceBlockFromStake _ _ => 4
  | .createDelegationId _ _ => 5
  | .delegateStaking _ _ => 6
  | .issueFungibleToken _ => 7
  | .issueNft _ _ _ => 8
  | .dataDeposit _ => 9
  | .htlc _ _ => 10
  | .createOrder _ => 11

/-- The variants. -/
def TxOutput.variants (k : Crypto) : List (Variant TxOutput) :=
  [variant 0 (pair (OutputValue.codec k) (Destination.codec k)) (fun (a, b) => .transfer a b)
      (fun | .transfer a b => Option.some (a, b) | _ => Option.none),
   variant 1 (pair (OutputValue.codec k) (pair (Destination.codec k) (OutputTimeLock.codec k))) (fun (a, b, c) => .lockThenTransfer a b c)
      (fun | .lockThenTransfer a b c => Option.some (a, b, c) | _ => Option.none),
   variant 2 (OutputValue.codec k) (fun a => .burn a)
      (fun | .burn a => Option.some a | _ => Option.none),
   variant 3 (pair (hashC) (StakePoolData.codec k)) (fun (a, b) => .createStakePool a b)
      (fun | .createStakePool a b => Option.some (a, b) | _ => Option.none),
   variant 4 (pair (Destination.codec k) (hashC)) (fun (a, b) => .produceBlockFromStake a b)
      (fun | .produceBlockFromStake a b => Option.some (a, b) | _ => Option.none),
   variant 5 (pair (Destination.codec k) (hashC)) (fun (a, b) => .createDelegationId a b)
      (fun | .createDelegationId a b => Option.some (a, b) | _ => Option.none),
   variant 6 (pair (amountC) (hashC)) (fun (a, b) => .delegateStaking a b)
      (fun | .delegateStaking a b => Option.some (a, b) | _ => Option.none),
   variant 7 (TokenIssuance.codec k) (fun a => .issueFungibleToken a)
      (fun | .issueFungibleToken a => Option.some a | _ => Option.none),
   variant 8 (pair (hashC) (pair (NftIssuance.codec k) (Destination.codec k))) (fun (a, b, c) => .issueNft a b c)
      (fun | .issueNft a b c => Option.some (a, b, c) | _ => Option.none),
   variant 9 (blob) (fun a => .dataDeposit a)
      (fun | .dataDeposit a => Option.some a | _ => Option.none),
   variant 10 (pair (OutputValue.codec k) (HashedTimelockContract.codec k)) (fun (a, b) => .htlc a b)
      (fun | .htlc a b => Option.some (a, b) | _ => Option.none),
   variant 11 (OrderData.codec k) (fun a => .createOrder a)
      (fun | .createOrder a => Option.some a | _ => Option.none)]

/-- Its binary form. -/
def TxOutput.codec (k : Crypto) : Codec TxOutput := enum (TxOutput.variants k)

/-- `TransactionV1` (common/src/chain/transaction/transaction_v1.rs 26-32), the version tag (1) is not kept. -/
structure TransactionV1 where
  flags : Nat
  inputs : List TxInput
  outputs : List TxOutput
deriving DecidableEq, Repr

/-- Its binary form. -/
def TransactionV1.codec (k : Crypto) : Codec TransactionV1 :=
  tagged 1 (iso (fun x => (x.flags, x.inputs, x.outputs))
    (fun (a, b, c) => ⟨a, b, c⟩)
    ((pair (compact 16) (pair (vec (TxInput.codec k)) (vec (TxOutput.codec k))))))

/-- `StandardInputSignature` (common/src/chain/transaction/signature/inputsig/standard_signature.rs 51-56, 187-222). -/
structure StandardInputSignature where
  sighashType : UInt8
  rawSignature : Bytes
deriving DecidableEq, Repr

/-- Its binary form. -/
def StandardInputSignature.codec (_k : Crypto) : Codec StandardInputSignature :=
  iso (fun x => (x.sighashType, x.rawSignature))
    (fun (a, b) => ⟨a, b⟩)
    ((pair (sighashTypeC) (blob)))

/-- `InputWitness` (common/src/chain/transaction/signature/inputsig/mod.rs 44-49). -/
inductive InputWitness
  | noSignature (a : Option Bytes)
  | standard (a : StandardInputSignature)
deriving DecidableEq, Repr

/-- The index of the variant. -/
def InputWitness.tag : InputWitness → UInt8
  | .noSignature _ => 0
  | .standard _ => 1

/-- The variants. -/
def InputWitness.variants (k : Crypto) : List (Variant InputWitness) :=
  [variant 0 (option blob) (fun a => .noSignature a)
      (fun | .noSignature a => Option.some a | _ => Option.none),
   variant 1 (StandardInputSignature.codec k) (fun a => .standard a)
      (fun | .standard a => Option.some a | _ => Option.none)]

/-- Its binary form. -/
def InputWitness.codec (k : Crypto) : Codec InputWitness := enum (InputWitness.variants k)

/-- `Transaction` (common/src/chain/transaction/mod.rs 65-69). -/
def Transaction.codec (k : Crypto) : Codec TransactionV1 := direct 1 (TransactionV1.codec k)

/-- `SignedTransaction` (common/src/chain/transaction/signed_transaction.rs 31-34). -/
structure SignedTransaction where
  transaction : TransactionV1
  signatures : List InputWitness
deriving DecidableEq, Repr

/-- Its binary form; reading refuses a number of witnesses different from the number of inputs
(common/src/chain/transaction/signed_transaction.rs 125-142). -/
def SignedTransaction.codec (k : Crypto) : Codec SignedTransaction :=
  checked (fun s => s.signatures.length == s.transaction.inputs.length)
    (iso (fun x => (x.transaction, x.signatures)) (fun (a, b) => ⟨a, b⟩)
      (pair (Transaction.codec k) (vec (InputWitness.codec k))))

/-- `PoWData` (common/src/chain/block/consensus_data.rs 121-124). -/
structure PoWData where
  bits : Nat
  nonce : Nat
deriving DecidableEq, Repr

/-- Its binary form. -/
def PoWData.codec (_k : Crypto) : Codec PoWData :=
  iso (fun x => (x.bits, x.nonce))
    (fun (a, b) => ⟨a, b⟩)
    ((pair (uint 4) (uint 16)))

/-- `PoSData` (common/src/chain/block/consensus_data.rs 63-69). -/
structure PoSData where
  kernelInputs : List TxInput
  kernelWitness : List InputWitness
  stakePoolId : Bytes
  vrfData : Bytes × Bytes
  compactTarget : Nat
deriving DecidableEq, Repr

/-- Its binary form. -/
def PoSData.codec (k : Crypto) : Codec PoSData :=
  iso (fun x => (x.kernelInputs, x.kernelWitness, x.stakePoolId, x.vrfData, x.compactTarget))
    (fun (a, b, c, d, e) => ⟨a, b, c, d, e⟩)
    ((pair (vec (TxInput.codec k)) (pair (vec (InputWitness.codec k)) (pair (hashC) (pair (vrfReturnC k) (uint 4))))))

/-- `ConsensusData` (common/src/chain/block/consensus_data.rs 28-35). -/
inductive ConsensusData
  | none
  | pow (a : PoWData)
  | pos (a : PoSData)
deriving DecidableEq, Repr

/-- The index of the variant. -/
def ConsensusData.tag : ConsensusData → UInt8
  | .none => 0
  | .pow _ => 1
  | .pos _ => 2

/-- The variants. -/
def ConsensusData.variants (k : Crypto) : List (Variant ConsensusData) :=
  [variant 0 nothing (fun _ => .none)
      (fun | .none => Option.some () | _ => Option.none),
   variant 1 (PoWData.codec k) (fun a => .pow a)
      (fun | .pow a => Option.some a | _ => Option.none),
   variant 2 (PoSData.codec k) (fun a => .pos a)
      (fun | .pos a => Option.some a | _ => Option.none)]

/-- Its binary form. -/
def ConsensusData.codec (k : Crypto) : Codec ConsensusData := enum (ConsensusData.variants k)

/-- `BlockHeader` (common/src/chain/block/block_header.rs 26-33), the version tag (1) is not kept. -/
structure BlockHeader where
  prevBlockId : Bytes
  txMerkleRoot : Bytes
  witnessMerkleRoot : Bytes
  timestamp : Nat
  consensusData : ConsensusData
deriving DecidableEq, Repr

/-- Its binary form. -/
def BlockHeader.codec (k : Crypto) : Codec BlockHeader :=
  tagged 1 (iso (fun x => (x.prevBlockId, x.txMerkleRoot, x.witnessMerkleRoot, x.timestamp, x.consensusData))
    (fun (a, b, c, d, e) => ⟨a, b, c, d, e⟩)
    ((pair (hashC) (pair (hashC) (pair (hashC) (pair (compact 8) (ConsensusData.codec k)))))))

/-- `BlockHeaderSignature` (common/src/chain/block/signed_block_header.rs 31-33, 47-52). -/
inductive BlockHeaderSignature
  | none
  | headerSignature (a : Bytes)
deriving DecidableEq, Repr

/-- The index of the variant. -/
def BlockHeaderSignature.tag : BlockHeaderSignature → UInt8
  | .none => 0
  | .headerSignature _ => 1

/-- The variants. -/
def BlockHeaderSignature.variants (_k : Crypto) : List (Variant BlockHeaderSignature) :=
  [variant 0 nothing (fun _ => .none)
      (fun | .none => Option.some () | _ => Option.none),
   variant 1 (signatureC) (fun a => .headerSignature a)
      (fun | .headerSignature a => Option.some a | _ => Option.none)]

/-- Its binary form. -/
def BlockHeaderSignature.codec (k : Crypto) : Codec BlockHeaderSignature := enum (BlockHeaderSignature.variants k)

/-- `SignedBlockHeader` (common/src/chain/block/signed_block_header.rs 55-58). -/
structure SignedBlockHeader where
  header : BlockHeader
  signatureData : BlockHeaderSignature
deriving DecidableEq, Repr

/-- Its binary form. -/
def SignedBlockHeader.codec (k : Crypto) : Codec SignedBlockHeader :=
  iso (fun x => (x.header, x.signatureData))
    (fun (a, b) => ⟨a, b⟩)
    ((pair (BlockHeader.codec k) (BlockHeaderSignature.codec k)))

/-- `BlockReward` (common/src/chain/block/block_reward.rs 28-30). -/
structure BlockReward where
  outputs : List TxOutput
deriving DecidableEq, Repr

/-- Its binary form. -/
def BlockReward.codec (k : Crypto) : Codec BlockReward :=
  iso (fun x => x.outputs) (fun a => ⟨a⟩) (vec (TxOutput.codec k))

/-- `BlockBody` (common/src/chain/block/block_body/mod.rs 42-45). -/
structure BlockBody where
  reward : BlockReward
  transactions : List SignedTransaction
deriving DecidableEq, Repr

/-- Its binary form. -/
def BlockBody.codec (k : Crypto) : Codec BlockBody :=
  iso (fun x => (x.reward, x.transactions))
    (fun (a, b) => ⟨a, b⟩)
    ((pair (BlockReward.codec k) (vec (SignedTransaction.codec k))))

/-- `BlockV1` (common/src/chain/block/block_v1.rs 32-35). -/
structure BlockV1 where
  header : SignedBlockHeader
  body : BlockBody
deriving DecidableEq, Repr

/-- Its binary form. -/
def BlockV1.codec (k : Crypto) : Codec BlockV1 :=
  iso (fun x => (x.header, x.body))
    (fun (a, b) => ⟨a, b⟩)
    ((pair (SignedBlockHeader.codec k) (BlockBody.codec k)))

/-- `Block` (common/src/chain/block/mod.rs 70-74). -/
def Block.codec (k : Crypto) : Codec BlockV1 := direct 1 (BlockV1.codec k)

/-- `Genesis` (common/src/chain/genesis.rs 25-29). -/
structure Genesis where
  message : Bytes
  timestamp : Nat
  utxos : List TxOutput
deriving DecidableEq, Repr

/-- Its binary form. -/
def Genesis.codec (k : Crypto) : Codec Genesis :=
  iso (fun x => (x.message, x.timestamp, x.utxos))
    (fun (a, b, c) => ⟨a, b, c⟩)
    ((pair (stringC k) (pair (compact 8) (vec (TxOutput.codec k)))))

/-- `ClassicMultisigChallenge` (common/src/chain/transaction/output/classic_multisig.rs 27-30). -/
structure MultisigChallenge where
  minRequired : Nat
  publicKeys : List Bytes
deriving DecidableEq, Repr

/-- Its binary form. -/
def MultisigChallenge.codec (k : Crypto) : Codec MultisigChallenge :=
  iso (fun x => (x.minRequired, x.publicKeys))
    (fun (a, b) => ⟨a, b⟩)
    ((pair (uint 1) (vec (publicKeyC k))))

/-- `AuthorizedHashedTimelockContractSpend` (common/src/chain/transaction/signature/inputsig/authorize_hashed_timelock_contract_spend.rs 24-27). -/
inductive HtlcSpend
  | spend (a : Bytes) (b : Bytes)
  | refund (a : Bytes)
deriving DecidableEq, Repr

/-- The index of the variant. -/
def HtlcSpend.tag : HtlcSpend → UInt8
  | .spend _ _ => 0
  | .refund _ => 1

/-- The variants. -/
def HtlcSpend.variants (_k : Crypto) : List (Variant HtlcSpend) :=
  [variant 0 (pair (bytesN 32) (blob)) (fun (a, b) => .spend a b)
      (fun | .spend a b => Option.some (a, b) | _ => Option.none),
   variant 1 (blob) (fun a => .refund a)
      (fun | .refund a => Option.some a | _ => Option.none)]

/-- Its binary form. -/
def HtlcSpend.codec (k : Crypto) : Codec HtlcSpend := enum (HtlcSpend.variants k)

/-- `SighashInputCommitment` (common/src/chain/transaction/signature/sighash/input_commitments/mod.rs 57-90). -/
inductive InputCommitment
  | none
  | utxo (a : TxOutput)
  | produceBlockFromStakeUtxo (a : TxOutput) (b : Nat)
  | fillOrder (a : OutputValue) (b : OutputValue)
  | concludeOrder (a : OutputValue) (b : OutputValue) (c : Nat) (d : Nat)
deriving DecidableEq, Repr

/-- The index of the variant. -/
def InputCommitment.tag : InputCommitment → UInt8
  | .none => 0
  | .utxo _ => 1
  | .produceBlockFromStakeUtxo _ _ => 2
  | .fillOrder _ _ => 3
  | .concludeOrder _ _ _ _ => 4

/-- The variants. -/
def InputCommitment.variants (k : Crypto) : List (Variant InputCommitment) :=
  [variant 0 nothing (fun _ => .none)
      (fun | .none => Option.some () | _ => Option.none),
   variant 1 (TxOutput.codec k) (fun a => .utxo a)
      (fun | .utxo a => Option.some a | _ => Option.none),
   variant 2 (pair (TxOutput.codec k) (amountC)) (fun (a, b) => .produceBlockFromStakeUtxo a b)
      (fun | .produceBlockFromStakeUtxo a b => Option.some (a, b) | _ => Option.none),
   variant 3 (pair (OutputValue.codec k) (OutputValue.codec k)) (fun (a, b) => .fillOrder a b)
      (fun | .fillOrder a b => Option.some (a, b) | _ => Option.none),
   variant 4 (pair (OutputValue.codec k) (pair (OutputValue.codec k) (pair (amountC) (amountC)))) (fun (a, b, c, d) => .concludeOrder a b c d)
      (fun | .concludeOrder a b c d => Option.some (a, b, c, d) | _ => Option.none)]

/-- Its binary form. -/
def InputCommitment.codec (k : Crypto) : Codec InputCommitment := enum (InputCommitment.variants k)

end Verif.Codec
