import Verif.Codec.Types

/-!
Which values the types of transactions and blocks can hold: the widths of the integers, the lengths of
hashes and keys, at most `2^32 - 1` elements in a vector.  Written out without reference to the binary
forms.
-/
namespace Verif.Codec

/-- The values of `OutPointSourceId`. -/
def OutPointSourceId.Fits (_k : Crypto) : OutPointSourceId → Prop
  | .transaction a => a.length = 32
  | .blockReward a => a.length = 32

/-- The values of `UtxoOutPoint`. -/
def UtxoOutPoint.Fits (k : Crypto) (x : UtxoOutPoint) : Prop :=
  x.id.Fits k ∧
  x.index < 2 ^ 32

/-- The values of `Destination`. -/
def Destination.Fits (k : Crypto) : Destination → Prop
  | .anyoneCanSpend => True
  | .publicKeyHash a => a.length = 20
  | .publicKey a => (a.length = 33 ∧ k.publicKey a)
  | .scriptHash a => a.length = 32
  | .classicMultisig a => a.length = 20

/-- The values of `IsTokenFreezable`. -/
def IsTokenFreezable.Fits (_k : Crypto) : IsTokenFreezable → Prop
  | .no => True
  | .yes => True

/-- The values of `IsTokenUnfreezable`. -/
def IsTokenUnfreezable.Fits (_k : Crypto) : IsTokenUnfreezable → Prop
  | .no => True
  | .yes => True

/-- The values of `AccountSpending`. -/
def AccountSpending.Fits (_k : Crypto) : AccountSpending → Prop
  | .delegationBalance a b => a.length = 32 ∧ b < 2 ^ 128

/-- The values of `AccountOutPoint`. -/
def AccountOutPoint.Fits (k : Crypto) (x : AccountOutPoint) : Prop :=
  x.nonce < 2 ^ 64 ∧
  x.account.Fits k

/-- The values of `AccountCommand`. -/
def AccountCommand.Fits (k : Crypto) : AccountCommand → Prop
  | .mintTokens a b => a.length = 32 ∧ b < 2 ^ 128
  | .unmintTokens a => a.length = 32
  | .lockTokenSupply a => a.length = 32
  | .freezeToken a b => a.length = 32 ∧ b.Fits k
  | .unfreezeToken a => a.length = 32
  | .changeTokenAuthority a b => a.length = 32 ∧ b.Fits k
  | .concludeOrder a => a.length = 32
  | .fillOrder a b c => a.length = 32 ∧ b < 2 ^ 128 ∧ c.Fits k
  | .changeTokenMetadataUri a b => a.length = 32 ∧ b.length < 2 ^ 32

/-- The values of `OrderAccountCommand`. -/
def OrderAccountCommand.Fits (_k : Crypto) : OrderAccountCommand → Prop
  | .fillOrder a b => a.length = 32 ∧ b < 2 ^ 128
  | .freezeOrder a => a.length = 32
  | .concludeOrder a => a.length = 32

/-- The values of `TxInput`. -/
def TxInput.Fits (k : Crypto) : TxInput → Prop
  | .utxo a => a.Fits k
  | .account a => a.Fits k
  | .accountCommand a b => a < 2 ^ 64 ∧ b.Fits k
  | .orderAccountCommand a => a.Fits k

/-- The values of `TokenTransfer`. -/
def TokenTransfer.Fits (_k : Crypto) (x : TokenTransfer) : Prop :=
  x.tokenId.length = 32 ∧
  x.amount < 2 ^ 128

/-- The values of `TokenIssuanceV0`. -/
def TokenIssuanceV0.Fits (_k : Crypto) (x : TokenIssuanceV0) : Prop :=
  x.ticker.length < 2 ^ 32 ∧
  x.amount < 2 ^ 128 ∧
  x.decimals < 2 ^ 8 ∧
  x.uri.length < 2 ^ 32

/-- The values of `Metadata`. -/
def Metadata.Fits (k : Crypto) (x : Metadata) : Prop :=
  (∀ l, x.creator = some l → l.length = 33 ∧ k.publicKey l) ∧
  x.name.length < 2 ^ 32 ∧
  x.description.length < 2 ^ 32 ∧
  x.ticker.length < 2 ^ 32 ∧
  (∀ l, x.iconUri = some l → 0 < l.length ∧ l.length < 2 ^ 32) ∧
  (∀ l, x.additionalMetadataUri = some l → 0 < l.length ∧ l.length < 2 ^ 32) ∧
  (∀ l, x.mediaUri = some l → 0 < l.length ∧ l.length < 2 ^ 32) ∧
  x.mediaHash.length < 2 ^ 32

/-- The values of `NftIssuanceV0`. -/
def NftIssuanceV0.Fits (k : Crypto) (x : NftIssuanceV0) : Prop :=
  x.metadata.Fits k

/-- The values of `NftIssuance`. -/
def NftIssuance.Fits (k : Crypto) : NftIssuance → Prop
  | .v0 a => a.Fits k

/-- The values of `TokenData`. -/
def TokenData.Fits (k : Crypto) : TokenData → Prop
  | .transfer a => a.Fits k
  | .issuance a => a.Fits k
  | .nft a => a.Fits k

/-- The values of `OutputValue`. -/
def OutputValue.Fits (k : Crypto) : OutputValue → Prop
  | .coin a => a < 2 ^ 128
  | .tokenV0 a => a.Fits k
  | .tokenV1 a b => a.length = 32 ∧ b < 2 ^ 128

/-- The values of `OutputTimeLock`. -/
def OutputTimeLock.Fits (_k : Crypto) : OutputTimeLock → Prop
  | .untilHeight a => a < 2 ^ 64
  | .untilTime a => a < 2 ^ 64
  | .forBlockCount a => a < 2 ^ 64
  | .forSeconds a => a < 2 ^ 64

/-- The values of `StakePoolData`. -/
def StakePoolData.Fits (k : Crypto) (x : StakePoolData) : Prop :=
  x.pledge < 2 ^ 128 ∧
  x.staker.Fits k ∧
  (x.vrfPublicKey.length = 32 ∧ k.vrfPublicKey x.vrfPublicKey) ∧
  x.decommissionKey.Fits k ∧
  x.marginRatio ≤ 1000 ∧
  x.costPerBlock < 2 ^ 128

/-- The values of `TokenTotalSupply`. -/
def TokenTotalSupply.Fits (_k : Crypto) : TokenTotalSupply → Prop
  | .fixed a => a < 2 ^ 128
  | .lockable => True
  | .unlimited => True

/-- The values of `TokenIssuanceV1`. -/
def TokenIssuanceV1.Fits (k : Crypto) (x : TokenIssuanceV1) : Prop :=
  x.ticker.length < 2 ^ 32 ∧
  x.decimals < 2 ^ 8 ∧
  x.uri.length < 2 ^ 32 ∧
  x.totalSupply.Fits k ∧
  x.authority.Fits k ∧
  x.isFreezable.Fits k

/-- The values of `TokenIssuance`. -/
def TokenIssuance.Fits (k : Crypto) : TokenIssuance → Prop
  | .v1 a => a.Fits k

/-- The values of `HashedTimelockContract`. -/
def HashedTimelockContract.Fits (k : Crypto) (x : HashedTimelockContract) : Prop :=
  x.secretHash.length = 20 ∧
  x.spendKey.Fits k ∧
  x.refundTimelock.Fits k ∧
  x.refundKey.Fits k

/-- The values of `OrderData`. -/
def OrderData.Fits (k : Crypto) (x : OrderData) : Prop :=
  x.concludeKey.Fits k ∧
  x.ask.Fits k ∧
  x.give.Fits k

/-- The values of `TxOutput`. -/
def TxOutput.Fits (k : Crypto) : TxOutput → Prop
  | .transfer a b => a.Fits k ∧ b.Fits k
  | .lockThenTransfer a b c => a.Fits k ∧ b.Fits k ∧ c.Fits k
  | .burn a => a.Fits k
  | .createStakePool a b => a.length = 32 ∧ b.Fits k
  | .produceBlockFromStake a b => a.Fits k ∧ b.length = 32
  | .createDelegationId a b => a.Fits k ∧ b.length = 32
  | .delegateStaking a b => a < 2 ^ 128 ∧ b.length = 32
  | .issueFungibleToken a => a.Fits k
  | .issueNft a b c => a.length = 32 ∧ b.Fits k ∧ c.Fits k
  | .dataDeposit a => a.length < 2 ^ 32
  | .htlc a b => a.Fits k ∧ b.Fits k
  | .createOrder a => a.Fits k

/-- The values of `TransactionV1`. -/
def TransactionV1.Fits (k : Crypto) (x : TransactionV1) : Prop :=
  x.flags < 2 ^ 128 ∧
  (x.inputs.length < 2 ^ 32 ∧ ∀ y ∈ x.inputs, y.Fits k) ∧
  (x.outputs.length < 2 ^ 32 ∧ ∀ y ∈ x.outputs, y.Fits k)

/-- The values of `StandardInputSignature`. -/
def StandardInputSignature.Fits (_k : Crypto) (x : StandardInputSignature) : Prop :=
  x.sighashType ∈ [1, 2, 3, 0x81, 0x82, 0x83] ∧
  x.rawSignature.length < 2 ^ 32

/-- The values of `InputWitness`. -/
def InputWitness.Fits (k : Crypto) : InputWitness → Prop
  | .noSignature a => (∀ l, a = some l → l.length < 2 ^ 32)
  | .standard a => a.Fits k

/-- The values of `SignedTransaction`. -/
def SignedTransaction.Fits (k : Crypto) (x : SignedTransaction) : Prop :=
  x.transaction.Fits k ∧
  (x.signatures.length < 2 ^ 32 ∧ ∀ y ∈ x.signatures, y.Fits k) ∧
  x.signatures.length = x.transaction.inputs.length

/-- The values of `PoWData`. -/
def PoWData.Fits (_k : Crypto) (x : PoWData) : Prop :=
  x.bits < 2 ^ 32 ∧
  x.nonce < 2 ^ 128

/-- The values of `PoSData`. -/
def PoSData.Fits (k : Crypto) (x : PoSData) : Prop :=
  (x.kernelInputs.length < 2 ^ 32 ∧ ∀ y ∈ x.kernelInputs, y.Fits k) ∧
  (x.kernelWitness.length < 2 ^ 32 ∧ ∀ y ∈ x.kernelWitness, y.Fits k) ∧
  x.stakePoolId.length = 32 ∧
  (x.vrfData.1.length = 32 ∧ k.vrfPreout x.vrfData.1 ∧ x.vrfData.2.length = 64 ∧ k.vrfProof x.vrfData.2) ∧
  x.compactTarget < 2 ^ 32

/-- The values of `ConsensusData`. -/
def ConsensusData.Fits (k : Crypto) : ConsensusData → Prop
  | .none => True
  | .pow a => a.Fits k
  | .pos a => a.Fits k

/-- The values of `BlockHeader`. -/
def BlockHeader.Fits (k : Crypto) (x : BlockHeader) : Prop :=
  x.prevBlockId.length = 32 ∧
  x.txMerkleRoot.length = 32 ∧
  x.witnessMerkleRoot.length = 32 ∧
  x.timestamp < 2 ^ 64 ∧
  x.consensusData.Fits k

/-- The values of `BlockHeaderSignature`. -/
def BlockHeaderSignature.Fits (_k : Crypto) : BlockHeaderSignature → Prop
  | .none => True
  | .headerSignature a => a.length = 64

/-- The values of `SignedBlockHeader`. -/
def SignedBlockHeader.Fits (k : Crypto) (x : SignedBlockHeader) : Prop :=
  x.header.Fits k ∧
  x.signatureData.Fits k

/-- The values of `BlockReward`. -/
def BlockReward.Fits (k : Crypto) (x : BlockReward) : Prop :=
  (x.outputs.length < 2 ^ 32 ∧ ∀ y ∈ x.outputs, y.Fits k)

/-- The values of `BlockBody`. -/
def BlockBody.Fits (k : Crypto) (x : BlockBody) : Prop :=
  x.reward.Fits k ∧
  (x.transactions.length < 2 ^ 32 ∧ ∀ y ∈ x.transactions, y.Fits k)

/-- The values of `BlockV1`. -/
def BlockV1.Fits (k : Crypto) (x : BlockV1) : Prop :=
  x.header.Fits k ∧
  x.body.Fits k

/-- The values of `Genesis`. -/
def Genesis.Fits (k : Crypto) (x : Genesis) : Prop :=
  (x.message.length < 2 ^ 32 ∧ k.utf8 x.message) ∧
  x.timestamp < 2 ^ 64 ∧
  (x.utxos.length < 2 ^ 32 ∧ ∀ y ∈ x.utxos, y.Fits k)

/-- The values of `MultisigChallenge`. -/
def MultisigChallenge.Fits (k : Crypto) (x : MultisigChallenge) : Prop :=
  x.minRequired < 2 ^ 8 ∧
  (x.publicKeys.length < 2 ^ 32 ∧ ∀ y ∈ x.publicKeys, (y.length = 33 ∧ k.publicKey y))

/-- The values of `HtlcSpend`. -/
def HtlcSpend.Fits (_k : Crypto) : HtlcSpend → Prop
  | .spend a b => a.length = 32 ∧ b.length < 2 ^ 32
  | .refund a => a.length < 2 ^ 32

/-- The values of `InputCommitment`. -/
def InputCommitment.Fits (k : Crypto) : InputCommitment → Prop
  | .none => True
  | .utxo a => a.Fits k
  | .produceBlockFromStakeUtxo a b => a.Fits k ∧ b < 2 ^ 128
  | .fillOrder a b => a.Fits k ∧ b.Fits k
  | .concludeOrder a b c d => a.Fits k ∧ b.Fits k ∧ c < 2 ^ 128 ∧ d < 2 ^ 128

end Verif.Codec
