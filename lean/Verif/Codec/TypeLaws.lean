import Verif.Codec.Laws
import Verif.Codec.Types

/-!
The binary forms of all types of transactions and blocks are lawful.
-/
set_option linter.unnecessarySeqFocus false

namespace Verif.Codec

instance : Lawful hashC := lawful_bytesN 32
instance : Lawful pkhC := lawful_bytesN 20
instance : Lawful amountC := lawful_compact (by norm_num) (by norm_num)
instance : Lawful perThousandC := lawful_checked
instance (k : Crypto) : Lawful (publicKeyC k) := lawful_tagged
instance : Lawful signatureC := lawful_tagged
instance (k : Crypto) : Lawful (vrfPublicKeyC k) := lawful_tagged
instance (k : Crypto) : Lawful (vrfReturnC k) := lawful_tagged
instance (k : Crypto) : Lawful (stringC k) := lawful_checked
instance : Lawful sighashTypeC := lawful_checked

/-- Proves the conditions on the variants of an enum one by one. -/
macro "enum_each" t:ident : tactic => `(tactic|
  (simp only [List.forall_mem_cons, List.not_mem_nil, false_imp_iff, implies_true, and_true]
   repeat' apply And.intro
   all_goals
     refine lawfulV_variant inferInstance ?_ ?_ ?_
     · intro a b h
       cases a <;> first | (cases h; rfl) | cases h
     · intro b
       rfl
     · intro a
       cases a <;> simp [$t:ident]))

theorem OutPointSourceId.each (k : Crypto) : ∀ v ∈ OutPointSourceId.variants k, LawfulV OutPointSourceId.tag v := by
  unfold OutPointSourceId.variants
  enum_each OutPointSourceId.tag

theorem OutPointSourceId.total (k : Crypto) : ∀ a, OutPointSourceId.tag a ∈ (OutPointSourceId.variants k).map (·.idx) := by
  intro a
  cases a <;> simp [OutPointSourceId.variants, variant, OutPointSourceId.tag]

instance OutPointSourceId.lawful (k : Crypto) : Lawful (OutPointSourceId.codec k) :=
  lawful_enum OutPointSourceId.tag (OutPointSourceId.each k) (by simp [OutPointSourceId.variants, variant]) (OutPointSourceId.total k)

instance UtxoOutPoint.lawful (k : Crypto) : Lawful (UtxoOutPoint.codec k) :=
  lawful_iso inferInstance (fun _ => rfl) (fun _ => rfl)

theorem Destination.each (k : Crypto) : ∀ v ∈ Destination.variants k, LawfulV Destination.tag v := by
  unfold Destination.variants
  enum_each Destination.tag

theorem Destination.total (k : Crypto) : ∀ a, Destination.tag a ∈ (Destination.variants k).map (·.idx) := by
  intro a
  cases a <;> simp [Destination.variants, variant, Destination.tag]

instance Destination.lawful (k : Crypto) : Lawful (Destination.codec k) :=
  lawful_enum Destination.tag (Destination.each k) (by simp [Destination.variants, variant]) (Destination.total k)

theorem IsTokenFreezable.each (k : Crypto) : ∀ v ∈ IsTokenFreezable.variants k, LawfulV IsTokenFreezable.tag v := by
  unfold IsTokenFreezable.variants
  enum_each IsTokenFreezable.tag

theorem IsTokenFreezable.total (k : Crypto) : ∀ a, IsTokenFreezable.tag a ∈ (IsTokenFreezable.variants k).map (·.idx) := by
  intro a
  cases a <;> simp [IsTokenFreezable.variants, variant, IsTokenFreezable.tag]

instance IsTokenFreezable.lawful (k : Crypto) : Lawful (IsTokenFreezable.codec k) :=
  lawful_enum IsTokenFreezable.tag (IsTokenFreezable.each k) (by simp [IsTokenFreezable.variants, variant]) (IsTokenFreezable.total k)

theorem IsTokenUnfreezable.each (k : Crypto) : ∀ v ∈ IsTokenUnfreezable.variants k, LawfulV IsTokenUnfreezable.tag v := by
  unfold IsTokenUnfreezable.variants
  enum_each IsTokenUnfreezable.tag

theorem IsTokenUnfreezable.total (k : Crypto) : ∀ a, IsTokenUnfreezable.tag a ∈ (IsTokenUnfreezable.variants k).map (·.idx) := by
  intro a
  cases a <;> simp [IsTokenUnfreezable.variants, variant, IsTokenUnfreezable.tag]

instance IsTokenUnfreezable.lawful (k : Crypto) : Lawful (IsTokenUnfreezable.codec k) :=
  lawful_enum IsTokenUnfreezable.tag (IsTokenUnfreezable.each k) (by simp [IsTokenUnfreezable.variants, variant]) (IsTokenUnfreezable.total k)

theorem AccountSpending.each (k : Crypto) : ∀ v ∈ AccountSpending.variants k, LawfulV AccountSpending.tag v := by
  unfold AccountSpending.variants
  enum_each AccountSpending.tag

theorem AccountSpending.total (k : Crypto) : ∀ a, AccountSpending.tag a ∈ (AccountSpending.variants k).map (·.idx) := by
  intro a
  cases a <;> simp [AccountSpending.variants, variant, AccountSpending.tag]

instance AccountSpending.lawful (k : Crypto) : Lawful (AccountSpending.codec k) :=
  lawful_enum AccountSpending.tag (AccountSpending.each k) (by simp [AccountSpending.variants, variant]) (AccountSpending.total k)

instance AccountOutPoint.lawful (k : Crypto) : Lawful (AccountOutPoint.codec k) :=
  lawful_iso inferInstance (fun _ => rfl) (fun _ => rfl)

theorem AccountCommand.each (k : Crypto) : ∀ v ∈ AccountCommand.variants k, LawfulV AccountCommand.tag v := by
  unfold AccountCommand.variants
  enum_each AccountCommand.tag

theorem AccountCommand.total (k : Crypto) : ∀ a, AccountCommand.tag a ∈ (AccountCommand.variants k).map (·.idx) := by
  intro a
  cases a <;> simp [AccountCommand.variants, variant, AccountCommand.tag]

instance AccountCommand.lawful (k : Crypto) : Lawful (AccountCommand.codec k) :=
  lawful_enum AccountCommand.tag (AccountCommand.each k) (by simp [AccountCommand.variants, variant]) (AccountCommand.total k)

theorem OrderAccountCommand.each (k : Crypto) : ∀ v ∈ OrderAccountCommand.variants k, LawfulV OrderAccountCommand.tag v := by
  unfold OrderAccountCommand.variants
  enum_each OrderAccountCommand.tag

theorem OrderAccountCommand.total (k : Crypto) : ∀ a, OrderAccountCommand.tag a ∈ (OrderAccountCommand.variants k).map (·.idx) := by
  intro a
  cases a <;> simp [OrderAccountCommand.variants, variant, OrderAccountCommand.tag]

instance OrderAccountCommand.lawful (k : Crypto) : Lawful (OrderAccountCommand.codec k) :=
  lawful_enum OrderAccountCommand.tag (OrderAccountCommand.each k) (by simp [OrderAccountCommand.variants, variant]) (OrderAccountCommand.total k)

theorem TxInput.each (k : Crypto) : ∀ v ∈ TxInput.variants k, LawfulV TxInput.tag v := by
  unfold TxInput.variants
  enum_each TxInput.tag

theorem TxInput.total (k : Crypto) : ∀ a, TxInput.tag a ∈ (TxInput.variants k).map (·.idx) := by
  intro a
  cases a <;> simp [TxInput.variants, variant, TxInput.tag]

instance TxInput.lawful (k : Crypto) : Lawful (TxInput.codec k) :=
  lawful_enum TxInput.tag (TxInput.each k) (by simp [TxInput.variants, variant]) (TxInput.total k)

instance TokenTransfer.lawful (k : Crypto) : Lawful (TokenTransfer.codec k) :=
  lawful_iso inferInstance (fun _ => rfl) (fun _ => rfl)

instance TokenIssuanceV0.lawful (k : Crypto) : Lawful (TokenIssuanceV0.codec k) :=
  lawful_iso inferInstance (fun _ => rfl) (fun _ => rfl)

instance Metadata.lawful (k : Crypto) : Lawful (Metadata.codec k) :=
  lawful_iso inferInstance (fun _ => rfl) (fun _ => rfl)

instance NftIssuanceV0.lawful (k : Crypto) : Lawful (NftIssuanceV0.codec k) :=
  lawful_iso inferInstance (fun _ => rfl) (fun _ => rfl)

theorem NftIssuance.each (k : Crypto) : ∀ v ∈ NftIssuance.variants k, LawfulV NftIssuance.tag v := by
  unfold NftIssuance.variants
  enum_each NftIssuance.tag

theorem NftIssuance.total (k : Crypto) : ∀ a, NftIssuance.tag a ∈ (NftIssuance.variants k).map (·.idx) := by
  intro a
  cases a <;> simp [NftIssuance.variants, variant, NftIssuance.tag]

instance NftIssuance.lawful (k : Crypto) : Lawful (NftIssuance.codec k) :=
  lawful_enum NftIssuance.tag (NftIssuance.each k) (by simp [NftIssuance.variants, variant]) (NftIssuance.total k)

theorem TokenData.each (k : Crypto) : ∀ v ∈ TokenData.variants k, LawfulV TokenData.tag v := by
  unfold TokenData.variants
  enum_each TokenData.tag

theorem TokenData.total (k : Crypto) : ∀ a, TokenData.tag a ∈ (TokenData.variants k).map (·.idx) := by
  intro a
  cases a <;> simp [TokenData.variants, variant, TokenData.tag]

instance TokenData.lawful (k : Crypto) : Lawful (TokenData.codec k) :=
  lawful_enum TokenData.tag (TokenData.each k) (by simp [TokenData.variants, variant]) (TokenData.total k)

theorem OutputValue.each (k : Crypto) : ∀ v ∈ OutputValue.variants k, LawfulV OutputValue.tag v := by
  unfold OutputValue.variants
  enum_each OutputValue.tag

theorem OutputValue.total (k : Crypto) : ∀ a, OutputValue.tag a ∈ (OutputValue.variants k).map (·.idx) := by
  intro a
  cases a <;> simp [OutputValue.variants, variant, OutputValue.tag]

instance OutputValue.lawful (k : Crypto) : Lawful (OutputValue.codec k) :=
  lawful_enum OutputValue.tag (OutputValue.each k) (by simp [OutputValue.variants, variant]) (OutputValue.total k)

theorem OutputTimeLock.each (k : Crypto) : ∀ v ∈ OutputTimeLock.variants k, LawfulV OutputTimeLock.tag v := by
  unfold OutputTimeLock.variants
  enum_each OutputTimeLock.tag

theorem OutputTimeLock.total (k : Crypto) : ∀ a, OutputTimeLock.tag a ∈ (OutputTimeLock.variants k).map (·.idx) := by
  intro a
  cases a <;> simp [OutputTimeLock.variants, variant, OutputTimeLock.tag]

instance OutputTimeLock.lawful (k : Crypto) : Lawful (OutputTimeLock.codec k) :=
  lawful_enum OutputTimeLock.tag (OutputTimeLock.each k) (by simp [OutputTimeLock.variants, variant]) (OutputTimeLock.total k)

instance StakePoolData.lawful (k : Crypto) : Lawful (StakePoolData.codec k) :=
  lawful_iso inferInstance (fun _ => rfl) (fun _ => rfl)

theorem TokenTotalSupply.each (k : Crypto) : ∀ v ∈ TokenTotalSupply.variants k, LawfulV TokenTotalSupply.tag v := by
  unfold TokenTotalSupply.variants
  enum_each TokenTotalSupply.tag

theorem TokenTotalSupply.total (k : Crypto) : ∀ a, TokenTotalSupply.tag a ∈ (TokenTotalSupply.variants k).map (·.idx) := by
  intro a
  cases a <;> simp [TokenTotalSupply.variants, variant, TokenTotalSupply.tag]

instance TokenTotalSupply.lawful (k : Crypto) : Lawful (TokenTotalSupply.codec k) :=
  lawful_enum TokenTotalSupply.tag (TokenTotalSupply.each k) (by simp [TokenTotalSupply.variants, variant]) (TokenTotalSupply.total k)

instance TokenIssuanceV1.lawful (k : Crypto) : Lawful (TokenIssuanceV1.codec k) :=
  lawful_iso inferInstance (fun _ => rfl) (fun _ => rfl)

theorem TokenIssuance.each (k : Crypto) : ∀ v ∈ TokenIssuance.variants k, LawfulV TokenIssuance.tag v := by
  unfold TokenIssuance.variants
  enum_each TokenIssuance.tag

theorem TokenIssuance.total (k : Crypto) : ∀ a, TokenIssuance.tag a ∈ (TokenIssuance.variants k).map (·.idx) := by
  intro a
  cases a <;> simp [TokenIssuance.variants, variant, TokenIssuance.tag]

instance TokenIssuance.lawful (k : Crypto) : Lawful (TokenIssuance.codec k) :=
  lawful_enum TokenIssuance.tag (TokenIssuance.each k) (by simp [TokenIssuance.variants, variant]) (TokenIssuance.total k)

instance HashedTimelockContract.lawful (k : Crypto) : Lawful (HashedTimelockContract.codec k) :=
  lawful_iso inferInstance (fun _ => rfl) (fun _ => rfl)

instance OrderData.lawful (k : Crypto) : Lawful (OrderData.codec k) :=
  lawful_iso inferInstance (fun _ => rfl) (fun _ => rfl)

theorem TxOutput.each (k : Crypto) : ∀ v ∈ TxOutput.variants k, LawfulV TxOutput.tag v := by
  unfold TxOutput.variants
  enum_each TxOutput.tag

theorem TxOutput.total (k : Crypto) : ∀ a, TxOutput.tag a ∈ (TxOutput.variants k).map (·.idx) := by
  intro a
  cases a <;> simp [TxOutput.variants, variant, TxOutput.tag]

instance TxOutput.lawful (k : Crypto) : Lawful (TxOutput.codec k) :=
  lawful_enum TxOutput.tag (TxOutput.each k) (by simp [TxOutput.variants, variant]) (TxOutput.total k)

instance TransactionV1.lawful (k : Crypto) : Lawful (TransactionV1.codec k) :=
  @lawful_tagged _ _ _ (lawful_iso inferInstance (fun _ => rfl) (fun _ => rfl))

instance StandardInputSignature.lawful (k : Crypto) : Lawful (StandardInputSignature.codec k) :=
  lawful_iso inferInstance (fun _ => rfl) (fun _ => rfl)

theorem InputWitness.each (k : Crypto) : ∀ v ∈ InputWitness.variants k, LawfulV InputWitness.tag v := by
  unfold InputWitness.variants
  enum_each InputWitness.tag

theorem InputWitness.total (k : Crypto) : ∀ a, InputWitness.tag a ∈ (InputWitness.variants k).map (·.idx) := by
  intro a
  cases a <;> simp [InputWitness.variants, variant, InputWitness.tag]

instance InputWitness.lawful (k : Crypto) : Lawful (InputWitness.codec k) :=
  lawful_enum InputWitness.tag (InputWitness.each k) (by simp [InputWitness.variants, variant]) (InputWitness.total k)

instance Transaction.lawful (k : Crypto) : Lawful (Transaction.codec k) :=
  lawful_direct inferInstance (fun _ => ⟨_, rfl⟩)

instance SignedTransaction.lawful (k : Crypto) : Lawful (SignedTransaction.codec k) := by
  have : Lawful (iso (fun x : SignedTransaction => (x.transaction, x.signatures))
      (fun (a, b) => ⟨a, b⟩) (pair (Transaction.codec k) (vec (InputWitness.codec k)))) :=
    lawful_iso inferInstance (fun _ => rfl) (fun _ => rfl)
  exact lawful_checked

instance PoWData.lawful (k : Crypto) : Lawful (PoWData.codec k) :=
  lawful_iso inferInstance (fun _ => rfl) (fun _ => rfl)

instance PoSData.lawful (k : Crypto) : Lawful (PoSData.codec k) :=
  lawful_iso inferInstance (fun _ => rfl) (fun _ => rfl)

theorem ConsensusData.each (k : Crypto) : ∀ v ∈ ConsensusData.variants k, LawfulV ConsensusData.tag v := by
  unfold ConsensusData.variants
  enum_each ConsensusData.tag

theorem ConsensusData.total (k : Crypto) : ∀ a, ConsensusData.tag a ∈ (ConsensusData.variants k).map (·.idx) := by
  intro a
  cases a <;> simp [ConsensusData.variants, variant, ConsensusData.tag]

instance ConsensusData.lawful (k : Crypto) : Lawful (ConsensusData.codec k) :=
  lawful_enum ConsensusData.tag (ConsensusData.each k) (by simp [ConsensusData.variants, variant]) (ConsensusData.total k)

instance BlockHeader.lawful (k : Crypto) : Lawful (BlockHeader.codec k) :=
  @lawful_tagged _ _ _ (lawful_iso inferInstance (fun _ => rfl) (fun _ => rfl))

theorem BlockHeaderSignature.each (k : Crypto) : ∀ v ∈ BlockHeaderSignature.variants k, LawfulV BlockHeaderSignature.tag v := by
  unfold BlockHeaderSignature.variants
  enum_each BlockHeaderSignature.tag

theorem BlockHeaderSignature.total (k : Crypto) : ∀ a, BlockHeaderSignature.tag a ∈ (BlockHeaderSignature.variants k).map (·.idx) := by
  intro a
  cases a <;> simp [BlockHeaderSignature.variants, variant, BlockHeaderSignature.tag]

instance BlockHeaderSignature.lawful (k : Crypto) : Lawful (BlockHeaderSignature.codec k) :=
  lawful_enum BlockHeaderSignature.tag (BlockHeaderSignature.each k) (by simp [BlockHeaderSignature.variants, variant]) (BlockHeaderSignature.total k)

instance SignedBlockHeader.lawful (k : Crypto) : Lawful (SignedBlockHeader.codec k) :=
  lawful_iso inferInstance (fun _ => rfl) (fun _ => rfl)

instance BlockReward.lawful (k : Crypto) : Lawful (BlockReward.codec k) :=
  lawful_iso inferInstance (fun _ => rfl) (fun _ => rfl)

instance BlockBody.lawful (k : Crypto) : Lawful (BlockBody.codec k) :=
  lawful_iso inferInstance (fun _ => rfl) (fun _ => rfl)

instance BlockV1.lawful (k : Crypto) : Lawful (BlockV1.codec k) :=
  lawful_iso inferInstance (fun _ => rfl) (fun _ => rfl)

instance Block.lawful (k : Crypto) : Lawful (Block.codec k) :=
  lawful_direct inferInstance (fun _ => ⟨_, rfl⟩)

instance Genesis.lawful (k : Crypto) : Lawful (Genesis.codec k) :=
  lawful_iso inferInstance (fun _ => rfl) (fun _ => rfl)

instance MultisigChallenge.lawful (k : Crypto) : Lawful (MultisigChallenge.codec k) :=
  lawful_iso inferInstance (fun _ => rfl) (fun _ => rfl)

theorem HtlcSpend.each (k : Crypto) : ∀ v ∈ HtlcSpend.variants k, LawfulV HtlcSpend.tag v := by
  unfold HtlcSpend.variants
  enum_each HtlcSpend.tag

theorem HtlcSpend.total (k : Crypto) : ∀ a, HtlcSpend.tag a ∈ (HtlcSpend.variants k).map (·.idx) := by
  intro a
  cases a <;> simp [HtlcSpend.variants, variant, HtlcSpend.tag]

instance HtlcSpend.lawful (k : Crypto) : Lawful (HtlcSpend.codec k) :=
  lawful_enum HtlcSpend.tag (HtlcSpend.each k) (by simp [HtlcSpend.variants, variant]) (HtlcSpend.total k)

theorem InputCommitment.each (k : Crypto) : ∀ v ∈ InputCommitment.variants k, LawfulV InputCommitment.tag v := by
  unfold InputCommitment.variants
  enum_each InputCommitment.tag

theorem InputCommitment.total (k : Crypto) : ∀ a, InputCommitment.tag a ∈ (InputCommitment.variants k).map (·.idx) := by
  intro a
  cases a <;> simp [InputCommitment.variants, variant, InputCommitment.tag]

instance InputCommitment.lawful (k : Crypto) : Lawful (InputCommitment.codec k) :=
  lawful_enum InputCommitment.tag (InputCommitment.each k) (by simp [InputCommitment.variants, variant]) (InputCommitment.total k)

end Verif.Codec
