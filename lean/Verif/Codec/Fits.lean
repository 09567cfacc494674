import Verif.Codec.Spec
import Verif.Codec.TypeLaws

/-!
The values a binary form can carry are exactly the values of the type.
-/
set_option linter.unusedSimpArgs false
set_option linter.unnecessarySeqFocus false

namespace Verif.Codec

theorem pow256_4 : (256 : Nat) ^ 4 = 2 ^ 32 := by norm_num
theorem pow256_8 : (256 : Nat) ^ 8 = 2 ^ 64 := by norm_num
theorem pow256_16 : (256 : Nat) ^ 16 = 2 ^ 128 := by norm_num

theorem ok_hash (l : Bytes) : hashC.ok l ↔ l.length = 32 := Iff.rfl
theorem ok_pkh (l : Bytes) : pkhC.ok l ↔ l.length = 20 := Iff.rfl
theorem ok_bytesN (n : Nat) (l : Bytes) : (bytesN n).ok l ↔ l.length = n := Iff.rfl
theorem ok_amount (v : Nat) : amountC.ok v ↔ v < 2 ^ 128 := by
  rw [← pow256_16]; exact Iff.rfl
theorem ok_u8 (v : Nat) : (uint 1).ok v ↔ v < 2 ^ 8 := Iff.rfl
theorem ok_u32 (v : Nat) : (uint 4).ok v ↔ v < 2 ^ 32 := by
  rw [← pow256_4]; exact Iff.rfl
theorem ok_u128 (v : Nat) : (uint 16).ok v ↔ v < 2 ^ 128 := by
  rw [← pow256_16]; exact Iff.rfl
theorem ok_c64 (v : Nat) : (compact 8).ok v ↔ v < 2 ^ 64 := by
  rw [← pow256_8]; exact Iff.rfl
theorem ok_c128 (v : Nat) : (compact 16).ok v ↔ v < 2 ^ 128 := by
  rw [← pow256_16]; exact Iff.rfl
theorem ok_vec {α : Type} (c : Codec α) (l : List α) :
    (vec c).ok l ↔ l.length < 2 ^ 32 ∧ ∀ a ∈ l, c.ok a := by
  rw [← pow256_4]; exact Iff.rfl
theorem ok_blob (l : Bytes) : blob.ok l ↔ l.length < 2 ^ 32 := by
  unfold blob
  rw [ok_vec]
  exact ⟨fun h => h.1, fun h => ⟨h, fun _ _ => trivial⟩⟩
theorem ok_pk (k : Crypto) (l : Bytes) : (publicKeyC k).ok l ↔ l.length = 33 ∧ k.publicKey l :=
  Iff.rfl
theorem ok_vrfpk (k : Crypto) (l : Bytes) :
    (vrfPublicKeyC k).ok l ↔ l.length = 32 ∧ k.vrfPublicKey l := Iff.rfl
theorem ok_vrfret (k : Crypto) (l : Bytes × Bytes) :
    (vrfReturnC k).ok l ↔
      l.1.length = 32 ∧ k.vrfPreout l.1 ∧ l.2.length = 64 ∧ k.vrfProof l.2 := by
  exact ⟨fun h => ⟨h.1.1, h.1.2, h.2.1, h.2.2⟩, fun h => ⟨⟨h.1, h.2.1⟩, h.2.2.1, h.2.2.2⟩⟩
theorem ok_sig (l : Bytes) : signatureC.ok l ↔ l.length = 64 := Iff.rfl
theorem ok_string (k : Crypto) (l : Bytes) :
    (stringC k).ok l ↔ l.length < 2 ^ 32 ∧ k.utf8 l := by
  rw [← ok_blob]; exact Iff.rfl
theorem ok_pt (v : Nat) : perThousandC.ok v ↔ v ≤ 1000 := by
  constructor
  · intro h
    simpa using h.2
  · intro h
    refine ⟨?_, by simpa using h⟩
    show v < 256 ^ 2
    omega
theorem ok_option {α : Type} (c : Codec α) (o : Option α) :
    (option c).ok o ↔ ∀ a, o = some a → c.ok a := Iff.rfl
theorem ok_nov (o : Option Bytes) :
    noVec.ok o ↔ ∀ l, o = some l → 0 < l.length ∧ l.length < 2 ^ 32 := by
  simp only [noVec, ok_blob, List.length_pos_iff]
theorem ok_shtype (b : UInt8) : sighashTypeC.ok b ↔ b ∈ [1, 2, 3, 0x81, 0x82, 0x83] := by
  have key : ∀ n : Fin 256, ((UInt8.ofNat n.1 &&& 0x7f == 1 || UInt8.ofNat n.1 &&& 0x7f == 2 ||
      UInt8.ofNat n.1 &&& 0x7f == 3) = true ↔ UInt8.ofNat n.1 ∈ [1, 2, 3, 0x81, 0x82, 0x83]) := by
    decide +kernel
  have := key ⟨b.toNat, b.toNat_lt⟩
  simp only [UInt8.ofNat_toNat] at this
  rw [← this]
  exact ⟨fun h => h.2, fun h => ⟨trivial, h⟩⟩

theorem OutPointSourceId.ok_iff (k : Crypto) (x : OutPointSourceId) : (OutPointSourceId.codec k).ok x ↔ x.Fits k := by
  cases x <;>
    simp [OutPointSourceId.codec, OutPointSourceId.variants, enum, variant, pair, nothing, OutPointSourceId.Fits, -Nat.reducePow, ok_hash, ok_pkh, ok_bytesN, ok_amount, ok_u8, ok_u32, ok_u128, ok_c64, ok_c128, ok_vec, ok_blob, ok_pk, ok_vrfpk,
    ok_vrfret, ok_sig, ok_string, ok_pt, ok_option, ok_nov, ok_shtype]

theorem UtxoOutPoint.ok_iff (k : Crypto) (x : UtxoOutPoint) : (UtxoOutPoint.codec k).ok x ↔ x.Fits k := by
  simp only [UtxoOutPoint.codec, iso, pair, UtxoOutPoint.Fits, ok_hash, ok_pkh, ok_bytesN, ok_amount, ok_u8, ok_u32, ok_u128, ok_c64, ok_c128, ok_vec, ok_blob, ok_pk, ok_vrfpk,
    ok_vrfret, ok_sig, ok_string, ok_pt, ok_option, ok_nov, ok_shtype, OutPointSourceId.ok_iff k]

theorem Destination.ok_iff (k : Crypto) (x : Destination) : (Destination.codec k).ok x ↔ x.Fits k := by
  cases x <;>
    simp [Destination.codec, Destination.variants, enum, variant, pair, nothing, Destination.Fits, -Nat.reducePow, ok_hash, ok_pkh, ok_bytesN, ok_amount, ok_u8, ok_u32, ok_u128, ok_c64, ok_c128, ok_vec, ok_blob, ok_pk, ok_vrfpk,
    ok_vrfret, ok_sig, ok_string, ok_pt, ok_option, ok_nov, ok_shtype]

theorem IsTokenFreezable.ok_iff (k : Crypto) (x : IsTokenFreezable) : (IsTokenFreezable.codec k).ok x ↔ x.Fits k := by
  cases x <;>
    simp [IsTokenFreezable.codec, IsTokenFreezable.variants, enum, variant, pair, nothing, IsTokenFreezable.Fits, -Nat.reducePow, ok_hash, ok_pkh, ok_bytesN, ok_amount, ok_u8, ok_u32, ok_u128, ok_c64, ok_c128, ok_vec, ok_blob, ok_pk, ok_vrfpk,
    ok_vrfret, ok_sig, ok_string, ok_pt, ok_option, ok_nov, ok_shtype]

theorem IsTokenUnfreezable.ok_iff (k : Crypto) (x : IsTokenUnfreezable) : (IsTokenUnfreezable.codec k).ok x ↔ x.Fits k := by
  cases x <;>
    simp [IsTokenUnfreezable.codec, IsTokenUnfreezable.variants, enum, variant, pair, nothing, IsTokenUnfreezable.Fits, -Nat.reducePow, ok_hash, ok_pkh, ok_bytesN, ok_amount, ok_u8, ok_u32, ok_u128, ok_c64, ok_c128, ok_vec, ok_blob, ok_pk, ok_vrfpk,
    ok_vrfret, ok_sig, ok_string, ok_pt, ok_option, ok_nov, ok_shtype]

theorem AccountSpending.ok_iff (k : Crypto) (x : AccountSpending) : (AccountSpending.codec k).ok x ↔ x.Fits k := by
  cases x <;>
    simp [AccountSpending.codec, AccountSpending.variants, enum, variant, pair, nothing, AccountSpending.Fits, -Nat.reducePow, ok_hash, ok_pkh, ok_bytesN, ok_amount, ok_u8, ok_u32, ok_u128, ok_c64, ok_c128, ok_vec, ok_blob, ok_pk, ok_vrfpk,
    ok_vrfret, ok_sig, ok_string, ok_pt, ok_option, ok_nov, ok_shtype]

theorem AccountOutPoint.ok_iff (k : Crypto) (x : AccountOutPoint) : (AccountOutPoint.codec k).ok x ↔ x.Fits k := by
  simp only [AccountOutPoint.codec, iso, pair, AccountOutPoint.Fits, ok_hash, ok_pkh, ok_bytesN, ok_amount, ok_u8, ok_u32, ok_u128, ok_c64, ok_c128, ok_vec, ok_blob, ok_pk, ok_vrfpk,
    ok_vrfret, ok_sig, ok_string, ok_pt, ok_option, ok_nov, ok_shtype, AccountSpending.ok_iff k]

theorem AccountCommand.ok_iff (k : Crypto) (x : AccountCommand) : (AccountCommand.codec k).ok x ↔ x.Fits k := by
  cases x <;>
    simp [AccountCommand.codec, AccountCommand.variants, enum, variant, pair, nothing, AccountCommand.Fits, -Nat.reducePow, ok_hash, ok_pkh, ok_bytesN, ok_amount, ok_u8, ok_u32, ok_u128, ok_c64, ok_c128, ok_vec, ok_blob, ok_pk, ok_vrfpk,
    ok_vrfret, ok_sig, ok_string, ok_pt, ok_option, ok_nov, ok_shtype, Destination.ok_iff k, IsTokenUnfreezable.ok_iff k]

theorem OrderAccountCommand.ok_iff (k : Crypto) (x : OrderAccountCommand) : (OrderAccountCommand.codec k).ok x ↔ x.Fits k := by
  cases x <;>
    simp [OrderAccountCommand.codec, OrderAccountCommand.variants, enum, variant, pair, nothing, OrderAccountCommand.Fits, -Nat.reducePow, ok_hash, ok_pkh, ok_bytesN, ok_amount, ok_u8, ok_u32, ok_u128, ok_c64, ok_c128, ok_vec, ok_blob, ok_pk, ok_vrfpk,
    ok_vrfret, ok_sig, ok_string, ok_pt, ok_option, ok_nov, ok_shtype]

theorem TxInput.ok_iff (k : Crypto) (x : TxInput) : (TxInput.codec k).ok x ↔ x.Fits k := by
  cases x <;>
    simp [TxInput.codec, TxInput.variants, enum, variant, pair, nothing, TxInput.Fits, -Nat.reducePow, ok_hash, ok_pkh, ok_bytesN, ok_amount, ok_u8, ok_u32, ok_u128, ok_c64, ok_c128, ok_vec, ok_blob, ok_pk, ok_vrfpk,
    ok_vrfret, ok_sig, ok_string, ok_pt, ok_option, ok_nov, ok_shtype, UtxoOutPoint.ok_iff k, AccountOutPoint.ok_iff k, AccountCommand.ok_iff k, OrderAccountCommand.ok_iff k]

theorem TokenTransfer.ok_iff (k : Crypto) (x : TokenTransfer) : (TokenTransfer.codec k).ok x ↔ x.Fits k := by
  simp only [TokenTransfer.codec, iso, pair, TokenTransfer.Fits, ok_hash, ok_pkh, ok_bytesN, ok_amount, ok_u8, ok_u32, ok_u128, ok_c64, ok_c128, ok_vec, ok_blob, ok_pk, ok_vrfpk,
    ok_vrfret, ok_sig, ok_string, ok_pt, ok_option, ok_nov, ok_shtype]

theorem TokenIssuanceV0.ok_iff (k : Crypto) (x : TokenIssuanceV0) : (TokenIssuanceV0.codec k).ok x ↔ x.Fits k := by
  simp only [TokenIssuanceV0.codec, iso, pair, TokenIssuanceV0.Fits, ok_hash, ok_pkh, ok_bytesN, ok_amount, ok_u8, ok_u32, ok_u128, ok_c64, ok_c128, ok_vec, ok_blob, ok_pk, ok_vrfpk,
    ok_vrfret, ok_sig, ok_string, ok_pt, ok_option, ok_nov, ok_shtype]

theorem Metadata.ok_iff (k : Crypto) (x : Metadata) : (Metadata.codec k).ok x ↔ x.Fits k := by
  simp only [Metadata.codec, iso, pair, Metadata.Fits, ok_hash, ok_pkh, ok_bytesN, ok_amount, ok_u8, ok_u32, ok_u128, ok_c64, ok_c128, ok_vec, ok_blob, ok_pk, ok_vrfpk,
    ok_vrfret, ok_sig, ok_string, ok_pt, ok_option, ok_nov, ok_shtype]

theorem NftIssuanceV0.ok_iff (k : Crypto) (x : NftIssuanceV0) : (NftIssuanceV0.codec k).ok x ↔ x.Fits k := by
  simp only [NftIssuanceV0.codec, iso, pair, NftIssuanceV0.Fits, ok_hash, ok_pkh, ok_bytesN, ok_amount, ok_u8, ok_u32, ok_u128, ok_c64, ok_c128, ok_vec, ok_blob, ok_pk, ok_vrfpk,
    ok_vrfret, ok_sig, ok_string, ok_pt, ok_option, ok_nov, ok_shtype, Metadata.ok_iff k]

theorem NftIssuance.ok_iff (k : Crypto) (x : NftIssuance) : (NftIssuance.codec k).ok x ↔ x.Fits k := by
  cases x <;>
    simp [NftIssuance.codec, NftIssuance.variants, enum, variant, pair, nothing, NftIssuance.Fits, -Nat.reducePow, ok_hash, ok_pkh, ok_bytesN, ok_amount, ok_u8, ok_u32, ok_u128, ok_c64, ok_c128, ok_vec, ok_blob, ok_pk, ok_vrfpk,
    ok_vrfret, ok_sig, ok_string, ok_pt, ok_option, ok_nov, ok_shtype, NftIssuanceV0.ok_iff k]

theorem TokenData.ok_iff (k : Crypto) (x : TokenData) : (TokenData.codec k).ok x ↔ x.Fits k := by
  cases x <;>
    simp [TokenData.codec, TokenData.variants, enum, variant, pair, nothing, TokenData.Fits, -Nat.reducePow, ok_hash, ok_pkh, ok_bytesN, ok_amount, ok_u8, ok_u32, ok_u128, ok_c64, ok_c128, ok_vec, ok_blob, ok_pk, ok_vrfpk,
    ok_vrfret, ok_sig, ok_string, ok_pt, ok_option, ok_nov, ok_shtype, TokenTransfer.ok_iff k, TokenIssuanceV0.ok_iff k, NftIssuanceV0.ok_iff k]

theorem OutputValue.ok_iff (k : Crypto) (x : OutputValue) : (OutputValue.codec k).ok x ↔ x.Fits k := by
  cases x <;>
    simp [OutputValue.codec, OutputValue.variants, enum, variant, pair, nothing, OutputValue.Fits, -Nat.reducePow, ok_hash, ok_pkh, ok_bytesN, ok_amount, ok_u8, ok_u32, ok_u128, ok_c64, ok_c128, ok_vec, ok_blob, ok_pk, ok_vrfpk,
    ok_vrfret, ok_sig, ok_string, ok_pt, ok_option, ok_nov, ok_shtype, TokenData.ok_iff k]

theorem OutputTimeLock.ok_iff (k : Crypto) (x : OutputTimeLock) : (OutputTimeLock.codec k).ok x ↔ x.Fits k := by
  cases x <;>
    simp [OutputTimeLock.codec, OutputTimeLock.variants, enum, variant, pair, nothing, OutputTimeLock.Fits, -Nat.reducePow, ok_hash, ok_pkh, ok_bytesN, ok_amount, ok_u8, ok_u32, ok_u128, ok_c64, ok_c128, ok_vec, ok_blob, ok_pk, ok_vrfpk,
    ok_vrfret, ok_sig, ok_string, ok_pt, ok_option, ok_nov, ok_shtype]

theorem StakePoolData.ok_iff (k : Crypto) (x : StakePoolData) : (StakePoolData.codec k).ok x ↔ x.Fits k := by
  simp only [StakePoolData.codec, iso, pair, StakePoolData.Fits, ok_hash, ok_pkh, ok_bytesN, ok_amount, ok_u8, ok_u32, ok_u128, ok_c64, ok_c128, ok_vec, ok_blob, ok_pk, ok_vrfpk,
    ok_vrfret, ok_sig, ok_string, ok_pt, ok_option, ok_nov, ok_shtype, Destination.ok_iff k]

theorem TokenTotalSupply.ok_iff (k : Crypto) (x : TokenTotalSupply) : (TokenTotalSupply.codec k).ok x ↔ x.Fits k := by
  cases x <;>
    simp [TokenTotalSupply.codec, TokenTotalSupply.variants, enum, variant, pair, nothing, TokenTotalSupply.Fits, -Nat.reducePow, ok_hash, ok_pkh, ok_bytesN, ok_amount, ok_u8, ok_u32, ok_u128, ok_c64, ok_c128, ok_vec, ok_blob, ok_pk, ok_vrfpk,
    ok_vrfret, ok_sig, ok_string, ok_pt, ok_option, ok_nov, ok_shtype]

theorem TokenIssuanceV1.ok_iff (k : Crypto) (x : TokenIssuanceV1) : (TokenIssuanceV1.codec k).ok x ↔ x.Fits k := by
  simp only [TokenIssuanceV1.codec, iso, pair, TokenIssuanceV1.Fits, ok_hash, ok_pkh, ok_bytesN, ok_amount, ok_u8, ok_u32, ok_u128, ok_c64, ok_c128, ok_vec, ok_blob, ok_pk, ok_vrfpk,
    ok_vrfret, ok_sig, ok_string, ok_pt, ok_option, ok_nov, ok_shtype, Destination.ok_iff k, IsTokenFreezable.ok_iff k, TokenTotalSupply.ok_iff k]

theorem TokenIssuance.ok_iff (k : Crypto) (x : TokenIssuance) : (TokenIssuance.codec k).ok x ↔ x.Fits k := by
  cases x <;>
    simp [TokenIssuance.codec, TokenIssuance.variants, enum, variant, pair, nothing, TokenIssuance.Fits, -Nat.reducePow, ok_hash, ok_pkh, ok_bytesN, ok_amount, ok_u8, ok_u32, ok_u128, ok_c64, ok_c128, ok_vec, ok_blob, ok_pk, ok_vrfpk,
    ok_vrfret, ok_sig, ok_string, ok_pt, ok_option, ok_nov, ok_shtype, TokenIssuanceV1.ok_iff k]

theorem HashedTimelockContract.ok_iff (k : Crypto) (x : HashedTimelockContract) : (HashedTimelockContract.codec k).ok x ↔ x.Fits k := by
  simp only [HashedTimelockContract.codec, iso, pair, HashedTimelockContract.Fits, ok_hash, ok_pkh, ok_bytesN, ok_amount, ok_u8, ok_u32, ok_u128, ok_c64, ok_c128, ok_vec, ok_blob, ok_pk, ok_vrfpk,
    ok_vrfret, ok_sig, ok_string, ok_pt, ok_option, ok_nov, ok_shtype, Destination.ok_iff k, OutputTimeLock.ok_iff k]

theorem OrderData.ok_iff (k : Crypto) (x : OrderData) : (OrderData.codec k).ok x ↔ x.Fits k := by
  simp only [OrderData.codec, iso, pair, OrderData.Fits, ok_hash, ok_pkh, ok_bytesN, ok_amount, ok_u8, ok_u32, ok_u128, ok_c64, ok_c128, ok_vec, ok_blob, ok_pk, ok_vrfpk,
    ok_vrfret, ok_sig, ok_string, ok_pt, ok_option, ok_nov, ok_shtype, Destination.ok_iff k, OutputValue.ok_iff k]

theorem TxOutput.ok_iff (k : Crypto) (x : TxOutput) : (TxOutput.codec k).ok x ↔ x.Fits k := by
  cases x <;>
    simp [TxOutput.codec, TxOutput.variants, enum, variant, pair, nothing, TxOutput.Fits, -Nat.reducePow, ok_hash, ok_pkh, ok_bytesN, ok_amount, ok_u8, ok_u32, ok_u128, ok_c64, ok_c128, ok_vec, ok_blob, ok_pk, ok_vrfpk,
    ok_vrfret, ok_sig, ok_string, ok_pt, ok_option, ok_nov, ok_shtype, Destination.ok_iff k, NftIssuance.ok_iff k, OutputValue.ok_iff k, OutputTimeLock.ok_iff k, StakePoolData.ok_iff k, TokenIssuance.ok_iff k, HashedTimelockContract.ok_iff k, OrderData.ok_iff k]

theorem TransactionV1.ok_iff (k : Crypto) (x : TransactionV1) : (TransactionV1.codec k).ok x ↔ x.Fits k := by
  simp only [TransactionV1.codec, tagged, iso, pair, TransactionV1.Fits, ok_hash, ok_pkh, ok_bytesN, ok_amount, ok_u8, ok_u32, ok_u128, ok_c64, ok_c128, ok_vec, ok_blob, ok_pk, ok_vrfpk,
    ok_vrfret, ok_sig, ok_string, ok_pt, ok_option, ok_nov, ok_shtype, TxInput.ok_iff k, TxOutput.ok_iff k]

theorem Transaction.ok_iff (k : Crypto) (x : TransactionV1) :
    (Transaction.codec k).ok x ↔ x.Fits k := TransactionV1.ok_iff k x

theorem StandardInputSignature.ok_iff (k : Crypto) (x : StandardInputSignature) : (StandardInputSignature.codec k).ok x ↔ x.Fits k := by
  simp only [StandardInputSignature.codec, iso, pair, StandardInputSignature.Fits, ok_hash, ok_pkh, ok_bytesN, ok_amount, ok_u8, ok_u32, ok_u128, ok_c64, ok_c128, ok_vec, ok_blob, ok_pk, ok_vrfpk,
    ok_vrfret, ok_sig, ok_string, ok_pt, ok_option, ok_nov, ok_shtype]

theorem InputWitness.ok_iff (k : Crypto) (x : InputWitness) : (InputWitness.codec k).ok x ↔ x.Fits k := by
  cases x <;>
    simp [InputWitness.codec, InputWitness.variants, enum, variant, pair, nothing, InputWitness.Fits, -Nat.reducePow, ok_hash, ok_pkh, ok_bytesN, ok_amount, ok_u8, ok_u32, ok_u128, ok_c64, ok_c128, ok_vec, ok_blob, ok_pk, ok_vrfpk,
    ok_vrfret, ok_sig, ok_string, ok_pt, ok_option, ok_nov, ok_shtype, StandardInputSignature.ok_iff k]

theorem SignedTransaction.ok_iff (k : Crypto) (x : SignedTransaction) : (SignedTransaction.codec k).ok x ↔ x.Fits k := by
  simp only [SignedTransaction.codec, checked, iso, pair, SignedTransaction.Fits, ok_hash, ok_pkh, ok_bytesN, ok_amount, ok_u8, ok_u32, ok_u128, ok_c64, ok_c128, ok_vec, ok_blob, ok_pk, ok_vrfpk,
    ok_vrfret, ok_sig, ok_string, ok_pt, ok_option, ok_nov, ok_shtype, TransactionV1.ok_iff k, InputWitness.ok_iff k, Transaction.ok_iff k, and_assoc, beq_iff_eq]

theorem PoWData.ok_iff (k : Crypto) (x : PoWData) : (PoWData.codec k).ok x ↔ x.Fits k := by
  simp only [PoWData.codec, iso, pair, PoWData.Fits, ok_hash, ok_pkh, ok_bytesN, ok_amount, ok_u8, ok_u32, ok_u128, ok_c64, ok_c128, ok_vec, ok_blob, ok_pk, ok_vrfpk,
    ok_vrfret, ok_sig, ok_string, ok_pt, ok_option, ok_nov, ok_shtype]

theorem PoSData.ok_iff (k : Crypto) (x : PoSData) : (PoSData.codec k).ok x ↔ x.Fits k := by
  simp only [PoSData.codec, iso, pair, PoSData.Fits, ok_hash, ok_pkh, ok_bytesN, ok_amount, ok_u8, ok_u32, ok_u128, ok_c64, ok_c128, ok_vec, ok_blob, ok_pk, ok_vrfpk,
    ok_vrfret, ok_sig, ok_string, ok_pt, ok_option, ok_nov, ok_shtype, TxInput.ok_iff k, InputWitness.ok_iff k]

theorem ConsensusData.ok_iff (k : Crypto) (x : ConsensusData) : (ConsensusData.codec k).ok x ↔ x.Fits k := by
  cases x <;>
    simp [ConsensusData.codec, ConsensusData.variants, enum, variant, pair, nothing, ConsensusData.Fits, -Nat.reducePow, ok_hash, ok_pkh, ok_bytesN, ok_amount, ok_u8, ok_u32, ok_u128, ok_c64, ok_c128, ok_vec, ok_blob, ok_pk, ok_vrfpk,
    ok_vrfret, ok_sig, ok_string, ok_pt, ok_option, ok_nov, ok_shtype, PoWData.ok_iff k, PoSData.ok_iff k]

theorem BlockHeader.ok_iff (k : Crypto) (x : BlockHeader) : (BlockHeader.codec k).ok x ↔ x.Fits k := by
  simp only [BlockHeader.codec, tagged, iso, pair, BlockHeader.Fits, ok_hash, ok_pkh, ok_bytesN, ok_amount, ok_u8, ok_u32, ok_u128, ok_c64, ok_c128, ok_vec, ok_blob, ok_pk, ok_vrfpk,
    ok_vrfret, ok_sig, ok_string, ok_pt, ok_option, ok_nov, ok_shtype, ConsensusData.ok_iff k]

theorem BlockHeaderSignature.ok_iff (k : Crypto) (x : BlockHeaderSignature) : (BlockHeaderSignature.codec k).ok x ↔ x.Fits k := by
  cases x <;>
    simp [BlockHeaderSignature.codec, BlockHeaderSignature.variants, enum, variant, pair, nothing, BlockHeaderSignature.Fits, -Nat.reducePow, ok_hash, ok_pkh, ok_bytesN, ok_amount, ok_u8, ok_u32, ok_u128, ok_c64, ok_c128, ok_vec, ok_blob, ok_pk, ok_vrfpk,
    ok_vrfret, ok_sig, ok_string, ok_pt, ok_option, ok_nov, ok_shtype]

theorem SignedBlockHeader.ok_iff (k : Crypto) (x : SignedBlockHeader) : (SignedBlockHeader.codec k).ok x ↔ x.Fits k := by
  simp only [SignedBlockHeader.codec, iso, pair, SignedBlockHeader.Fits, ok_hash, ok_pkh, ok_bytesN, ok_amount, ok_u8, ok_u32, ok_u128, ok_c64, ok_c128, ok_vec, ok_blob, ok_pk, ok_vrfpk,
    ok_vrfret, ok_sig, ok_string, ok_pt, ok_option, ok_nov, ok_shtype, BlockHeader.ok_iff k, BlockHeaderSignature.ok_iff k]

theorem BlockReward.ok_iff (k : Crypto) (x : BlockReward) : (BlockReward.codec k).ok x ↔ x.Fits k := by
  simp only [BlockReward.codec, iso, pair, BlockReward.Fits, ok_hash, ok_pkh, ok_bytesN, ok_amount, ok_u8, ok_u32, ok_u128, ok_c64, ok_c128, ok_vec, ok_blob, ok_pk, ok_vrfpk,
    ok_vrfret, ok_sig, ok_string, ok_pt, ok_option, ok_nov, ok_shtype, TxOutput.ok_iff k]

theorem BlockBody.ok_iff (k : Crypto) (x : BlockBody) : (BlockBody.codec k).ok x ↔ x.Fits k := by
  simp only [BlockBody.codec, iso, pair, BlockBody.Fits, ok_hash, ok_pkh, ok_bytesN, ok_amount, ok_u8, ok_u32, ok_u128, ok_c64, ok_c128, ok_vec, ok_blob, ok_pk, ok_vrfpk,
    ok_vrfret, ok_sig, ok_string, ok_pt, ok_option, ok_nov, ok_shtype, SignedTransaction.ok_iff k, BlockReward.ok_iff k]

theorem BlockV1.ok_iff (k : Crypto) (x : BlockV1) : (BlockV1.codec k).ok x ↔ x.Fits k := by
  simp only [BlockV1.codec, iso, pair, BlockV1.Fits, ok_hash, ok_pkh, ok_bytesN, ok_amount, ok_u8, ok_u32, ok_u128, ok_c64, ok_c128, ok_vec, ok_blob, ok_pk, ok_vrfpk,
    ok_vrfret, ok_sig, ok_string, ok_pt, ok_option, ok_nov, ok_shtype, BlockHeader.ok_iff k, SignedBlockHeader.ok_iff k, BlockBody.ok_iff k]

theorem Block.ok_iff (k : Crypto) (x : BlockV1) : (Block.codec k).ok x ↔ x.Fits k :=
  BlockV1.ok_iff k x

theorem Genesis.ok_iff (k : Crypto) (x : Genesis) : (Genesis.codec k).ok x ↔ x.Fits k := by
  simp only [Genesis.codec, iso, pair, Genesis.Fits, ok_hash, ok_pkh, ok_bytesN, ok_amount, ok_u8, ok_u32, ok_u128, ok_c64, ok_c128, ok_vec, ok_blob, ok_pk, ok_vrfpk,
    ok_vrfret, ok_sig, ok_string, ok_pt, ok_option, ok_nov, ok_shtype, TxOutput.ok_iff k]

theorem MultisigChallenge.ok_iff (k : Crypto) (x : MultisigChallenge) : (MultisigChallenge.codec k).ok x ↔ x.Fits k := by
  simp only [MultisigChallenge.codec, iso, pair, MultisigChallenge.Fits, ok_hash, ok_pkh, ok_bytesN, ok_amount, ok_u8, ok_u32, ok_u128, ok_c64, ok_c128, ok_vec, ok_blob, ok_pk, ok_vrfpk,
    ok_vrfret, ok_sig, ok_string, ok_pt, ok_option, ok_nov, ok_shtype]

theorem HtlcSpend.ok_iff (k : Crypto) (x : HtlcSpend) : (HtlcSpend.codec k).ok x ↔ x.Fits k := by
  cases x <;>
    simp [HtlcSpend.codec, HtlcSpend.variants, enum, variant, pair, nothing, HtlcSpend.Fits, -Nat.reducePow, ok_hash, ok_pkh, ok_bytesN, ok_amount, ok_u8, ok_u32, ok_u128, ok_c64, ok_c128, ok_vec, ok_blob, ok_pk, ok_vrfpk,
    ok_vrfret, ok_sig, ok_string, ok_pt, ok_option, ok_nov, ok_shtype]

theorem InputCommitment.ok_iff (k : Crypto) (x : InputCommitment) : (InputCommitment.codec k).ok x ↔ x.Fits k := by
  cases x <;>
    simp [InputCommitment.codec, InputCommitment.variants, enum, variant, pair, nothing, InputCommitment.Fits, -Nat.reducePow, ok_hash, ok_pkh, ok_bytesN, ok_amount, ok_u8, ok_u32, ok_u128, ok_c64, ok_c128, ok_vec, ok_blob, ok_pk, ok_vrfpk,
    ok_vrfret, ok_sig, ok_string, ok_pt, ok_option, ok_nov, ok_shtype, OutputValue.ok_iff k, TxOutput.ok_iff k]
  exact ⟨fun h => h _ _ _ _ rfl rfl rfl rfl, by rintro h _ _ _ _ rfl rfl rfl rfl; exact h⟩

end Verif.Codec
