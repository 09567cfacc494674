import Verif.Codec.Props

/-!
The binary forms which the test suite of the code base expects (wasm-wrappers/js-bindings-test/tests) are
those of the model: all of them are read as the values which the tests describe and are written back as
the same bytes.  These are checks of the model, not proofs of properties.
-/
set_option maxRecDepth 100000

namespace Verif.Codec.Vectors

/-- Accepts every key. -/
def k : Crypto := ⟨fun _ => true, fun _ => true, fun _ => true, fun _ => true, fun _ => true⟩

/-- `INPUTS` (test_encode_other_inputs.ts 48). -/
def v_inputs_bytes : Bytes :=
  [0, 0, 0, 0, 0, 0, 0, 0, 0, 0, 0, 0, 0, 0, 0, 0, 0, 0, 0, 0, 0, 0, 0, 0, 0, 0, 0, 0, 0, 0, 0, 0,
  0, 0, 1, 0, 0, 0, 1, 4, 0, 0, 0, 0, 0, 0, 0, 0, 0, 0, 0, 0, 0, 0, 0, 0, 0, 0, 0, 0, 0, 0, 0, 0, 0,
  0, 0, 0, 0, 0, 0, 0, 0, 4]

/-- The value described by the test. -/
def v_inputs : TxInput × TxInput :=
  (TxInput.utxo ⟨OutPointSourceId.transaction [0, 0, 0, 0, 0, 0, 0, 0, 0, 0, 0, 0, 0, 0, 0,
  0, 0, 0, 0, 0, 0, 0, 0, 0, 0, 0, 0, 0, 0, 0, 0, 0], 1⟩, TxInput.account ⟨1,
  AccountSpending.delegationBalance [0, 0, 0, 0, 0, 0, 0, 0, 0, 0, 0, 0, 0, 0, 0, 0, 0,
  0, 0, 0, 0, 0, 0, 0, 0, 0, 0, 0, 0, 0, 0, 0] 1⟩)

example : (pair (TxInput.codec k) (TxInput.codec k)).decodeAll v_inputs_bytes = some v_inputs := by
  decide +kernel
example : (pair (TxInput.codec k) (TxInput.codec k)).enc v_inputs = v_inputs_bytes := by decide +kernel

/-- `expected_mint_tokens_input` (test_encode_other_inputs.ts 109). -/
def v_expected_mint_tokens_input_bytes : Bytes :=
  [2, 4, 0, 162, 208, 145, 194, 165, 27, 14, 118, 31, 139, 199, 254, 11, 190, 108, 15, 64, 180, 50,
  106, 211, 26, 107, 242, 121, 29, 55, 172, 185, 5, 196, 119, 145, 1]

/-- The value described by the test. -/
def v_expected_mint_tokens_input : TxInput :=
  TxInput.accountCommand 1 (AccountCommand.mintTokens [162, 208, 145, 194, 165, 27, 14, 118, 31,
  139, 199, 254, 11, 190, 108, 15, 64, 180, 50, 106, 211, 26, 107, 242, 121, 29, 55, 172, 185, 5,
  196, 119] 100)

example : (TxInput.codec k).decodeAll v_expected_mint_tokens_input_bytes = some v_expected_mint_tokens_input := by
  decide +kernel
example : (TxInput.codec k).enc v_expected_mint_tokens_input = v_expected_mint_tokens_input_bytes := by
  decide +kernel

/-- `expected_unmint_tokens_input` (test_encode_other_inputs.ts 125). -/
def v_expected_unmint_tokens_input_bytes : Bytes :=
  [2, 8, 1, 162, 208, 145, 194, 165, 27, 14, 118, 31, 139, 199, 254, 11, 190, 108, 15, 64, 180, 50,
  106, 211, 26, 107, 242, 121, 29, 55, 172, 185, 5, 196, 119]

/-- The value described by the test. -/
def v_expected_unmint_tokens_input : TxInput :=
  TxInput.accountCommand 2 (AccountCommand.unmintTokens [162, 208, 145, 194, 165, 27, 14, 118, 31,
  139, 199, 254, 11, 190, 108, 15, 64, 180, 50, 106, 211, 26, 107, 242, 121, 29, 55, 172, 185, 5,
  196, 119])

example : (TxInput.codec k).decodeAll v_expected_unmint_tokens_input_bytes = some v_expected_unmint_tokens_input := by
  decide +kernel
example : (TxInput.codec k).enc v_expected_unmint_tokens_input = v_expected_unmint_tokens_input_bytes := by
  decide +kernel

/-- `expected_lock_token_supply_input` (test_encode_other_inputs.ts 141). -/
def v_expected_lock_token_supply_input_bytes : Bytes :=
  [2, 8, 2, 162, 208, 145, 194, 165, 27, 14, 118, 31, 139, 199, 254, 11, 190, 108, 15, 64, 180, 50,
  106, 211, 26, 107, 242, 121, 29, 55, 172, 185, 5, 196, 119]

/-- The value described by the test. -/
def v_expected_lock_token_supply_input : TxInput :=
  TxInput.accountCommand 2 (AccountCommand.lockTokenSupply [162, 208, 145, 194, 165, 27, 14, 118,
  31, 139, 199, 254, 11, 190, 108, 15, 64, 180, 50, 106, 211, 26, 107, 242, 121, 29, 55, 172, 185,
  5, 196, 119])

example : (TxInput.codec k).decodeAll v_expected_lock_token_supply_input_bytes = some v_expected_lock_token_supply_input := by
  decide +kernel
example : (TxInput.codec k).enc v_expected_lock_token_supply_input = v_expected_lock_token_supply_input_bytes := by
  decide +kernel

/-- `expected_freeze_token_input` (test_encode_other_inputs.ts 158). -/
def v_expected_freeze_token_input_bytes : Bytes :=
  [2, 8, 3, 162, 208, 145, 194, 165, 27, 14, 118, 31, 139, 199, 254, 11, 190, 108, 15, 64, 180, 50,
  106, 211, 26, 107, 242, 121, 29, 55, 172, 185, 5, 196, 119, 1]

/-- The value described by the test. -/
def v_expected_freeze_token_input : TxInput :=
  TxInput.accountCommand 2 (AccountCommand.freezeToken [162, 208, 145, 194, 165, 27, 14, 118, 31,
  139, 199, 254, 11, 190, 108, 15, 64, 180, 50, 106, 211, 26, 107, 242, 121, 29, 55, 172, 185, 5,
  196, 119] (IsTokenUnfreezable.yes))

example : (TxInput.codec k).decodeAll v_expected_freeze_token_input_bytes = some v_expected_freeze_token_input := by
  decide +kernel
example : (TxInput.codec k).enc v_expected_freeze_token_input = v_expected_freeze_token_input_bytes := by
  decide +kernel

/-- `expected_unfreeze_token_input` (test_encode_other_inputs.ts 174). -/
def v_expected_unfreeze_token_input_bytes : Bytes :=
  [2, 8, 4, 162, 208, 145, 194, 165, 27, 14, 118, 31, 139, 199, 254, 11, 190, 108, 15, 64, 180, 50,
  106, 211, 26, 107, 242, 121, 29, 55, 172, 185, 5, 196, 119]

/-- The value described by the test. -/
def v_expected_unfreeze_token_input : TxInput :=
  TxInput.accountCommand 2 (AccountCommand.unfreezeToken [162, 208, 145, 194, 165, 27, 14, 118, 31,
  139, 199, 254, 11, 190, 108, 15, 64, 180, 50, 106, 211, 26, 107, 242, 121, 29, 55, 172, 185, 5,
  196, 119])

example : (TxInput.codec k).decodeAll v_expected_unfreeze_token_input_bytes = some v_expected_unfreeze_token_input := by
  decide +kernel
example : (TxInput.codec k).enc v_expected_unfreeze_token_input = v_expected_unfreeze_token_input_bytes := by
  decide +kernel

/-- `expected_change_token_authority_input` (test_encode_other_inputs.ts 191). -/
def v_expected_change_token_authority_input_bytes : Bytes :=
  [2, 8, 5, 162, 208, 145, 194, 165, 27, 14, 118, 31, 139, 199, 254, 11, 190, 108, 15, 64, 180, 50,
  106, 211, 26, 107, 242, 121, 29, 55, 172, 185, 5, 196, 119, 1, 91, 58, 110, 176, 100, 207, 6, 194,
  41, 193, 30, 91, 4, 195, 202, 103, 207, 80, 217, 178]

/-- The value described by the test. -/
def v_expected_change_token_authority_input : TxInput :=
  TxInput.accountCommand 2 (AccountCommand.changeTokenAuthority [162, 208, 145, 194, 165, 27, 14,
  118, 31, 139, 199, 254, 11, 190, 108, 15, 64, 180, 50, 106, 211, 26, 107, 242, 121, 29, 55, 172,
  185, 5, 196, 119] (Destination.publicKeyHash [91, 58, 110, 176, 100, 207, 6, 194, 41, 193, 30, 91,
  4, 195, 202, 103, 207, 80, 217, 178]))

example : (TxInput.codec k).decodeAll v_expected_change_token_authority_input_bytes = some v_expected_change_token_authority_input := by
  decide +kernel
example : (TxInput.codec k).enc v_expected_change_token_authority_input = v_expected_change_token_authority_input_bytes := by
  decide +kernel

/-- `expected_change_token_metadata_uri` (test_encode_other_inputs.ts 209). -/
def v_expected_change_token_metadata_uri_bytes : Bytes :=
  [2, 8, 8, 162, 208, 145, 194, 165, 27, 14, 118, 31, 139, 199, 254, 11, 190, 108, 15, 64, 180, 50,
  106, 211, 26, 107, 242, 121, 29, 55, 172, 185, 5, 196, 119, 176, 116, 109, 116, 49, 113, 57, 100,
  110, 53, 109, 52, 115, 118, 110, 56, 115, 100, 115, 51, 102, 99, 121, 48, 57, 107, 112, 120, 114,
  101, 102, 110, 117, 55, 53, 120, 101, 107, 103, 114, 53, 119, 97, 51, 110]

/-- The value described by the test. -/
def v_expected_change_token_metadata_uri : TxInput :=
  TxInput.accountCommand 2 (AccountCommand.changeTokenMetadataUri [162, 208, 145, 194, 165, 27, 14,
  118, 31, 139, 199, 254, 11, 190, 108, 15, 64, 180, 50, 106, 211, 26, 107, 242, 121, 29, 55, 172,
  185, 5, 196, 119] [116, 109, 116, 49, 113, 57, 100, 110, 53, 109, 52, 115, 118, 110, 56, 115, 100,
  115, 51, 102, 99, 121, 48, 57, 107, 112, 120, 114, 101, 102, 110, 117, 55, 53, 120, 101, 107, 103,
  114, 53, 119, 97, 51, 110])

example : (TxInput.codec k).decodeAll v_expected_change_token_metadata_uri_bytes = some v_expected_change_token_metadata_uri := by
  decide +kernel
example : (TxInput.codec k).enc v_expected_change_token_metadata_uri = v_expected_change_token_metadata_uri_bytes := by
  decide +kernel

/-- `OUTPUT_LOCK_THEN_TRANSFER` (test_encode_other_outputs.ts 53). -/
def v_output_lock_then_transfer_bytes : Bytes :=
  [1, 0, 145, 1, 1, 91, 58, 110, 176, 100, 207, 6, 194, 41, 193, 30, 91, 4, 195, 202, 103, 207, 80,
  217, 178, 0, 145, 1]

/-- The value described by the test. -/
def v_output_lock_then_transfer : TxOutput :=
  TxOutput.lockThenTransfer (OutputValue.coin 100) (Destination.publicKeyHash [91, 58, 110, 176,
  100, 207, 6, 194, 41, 193, 30, 91, 4, 195, 202, 103, 207, 80, 217, 178])
  (OutputTimeLock.untilHeight 100)

example : (TxOutput.codec k).decodeAll v_output_lock_then_transfer_bytes = some v_output_lock_then_transfer := by
  decide +kernel
example : (TxOutput.codec k).enc v_output_lock_then_transfer = v_output_lock_then_transfer_bytes := by
  decide +kernel

/-- `OUTPUT_CREATE_STAKE_POOL` (test_encode_other_outputs.ts 58). -/
def v_output_create_stake_pool_bytes : Bytes :=
  [3, 0, 0, 0, 0, 0, 0, 0, 0, 0, 0, 0, 0, 0, 0, 0, 0, 0, 0, 0, 0, 0, 0, 0, 0, 0, 0, 0, 0, 0, 0, 0,
  0, 2, 113, 2, 0, 1, 91, 58, 110, 176, 100, 207, 6, 194, 41, 193, 30, 91, 4, 195, 202, 103, 207,
  80, 217, 178, 0, 108, 245, 234, 97, 170, 9, 247, 158, 169, 100, 84, 123, 235, 183, 147, 29, 136,
  118, 203, 24, 146, 56, 60, 217, 2, 198, 32, 133, 255, 240, 84, 123, 1, 91, 58, 110, 176, 100, 207,
  6, 194, 41, 193, 30, 91, 4, 195, 202, 103, 207, 80, 217, 178, 100, 0, 0]

/-- The value described by the test. -/
def v_output_create_stake_pool : TxOutput :=
  TxOutput.createStakePool [0, 0, 0, 0, 0, 0, 0, 0, 0, 0, 0, 0, 0, 0, 0, 0, 0, 0, 0, 0, 0, 0, 0, 0,
  0, 0, 0, 0, 0, 0, 0, 0] ⟨40000, Destination.publicKeyHash [91, 58, 110, 176,
  100, 207, 6, 194, 41, 193, 30, 91, 4, 195, 202, 103, 207, 80, 217, 178], [108,
  245, 234, 97, 170, 9, 247, 158, 169, 100, 84, 123, 235, 183, 147, 29, 136, 118, 203, 24, 146, 56,
  60, 217, 2, 198, 32, 133, 255, 240, 84, 123], Destination.publicKeyHash [91,
  58, 110, 176, 100, 207, 6, 194, 41, 193, 30, 91, 4, 195, 202, 103, 207, 80, 217, 178], 100, 0⟩

example : (TxOutput.codec k).decodeAll v_output_create_stake_pool_bytes = some v_output_create_stake_pool := by
  decide +kernel
example : (TxOutput.codec k).enc v_output_create_stake_pool = v_output_create_stake_pool_bytes := by
  decide +kernel

/-- `expected_pool_data` (test_encode_other_outputs.ts 97). -/
def v_expected_pool_data_bytes : Bytes :=
  [2, 113, 2, 0, 1, 91, 58, 110, 176, 100, 207, 6, 194, 41, 193, 30, 91, 4, 195, 202, 103, 207, 80,
  217, 178, 0, 108, 245, 234, 97, 170, 9, 247, 158, 169, 100, 84, 123, 235, 183, 147, 29, 136, 118,
  203, 24, 146, 56, 60, 217, 2, 198, 32, 133, 255, 240, 84, 123, 1, 91, 58, 110, 176, 100, 207, 6,
  194, 41, 193, 30, 91, 4, 195, 202, 103, 207, 80, 217, 178, 100, 0, 0]

/-- The value described by the test. -/
def v_expected_pool_data : StakePoolData :=
  ⟨40000, Destination.publicKeyHash [91, 58, 110, 176, 100, 207, 6, 194, 41,
  193, 30, 91, 4, 195, 202, 103, 207, 80, 217, 178], [108, 245, 234, 97, 170, 9,
  247, 158, 169, 100, 84, 123, 235, 183, 147, 29, 136, 118, 203, 24, 146, 56, 60, 217, 2, 198, 32,
  133, 255, 240, 84, 123], Destination.publicKeyHash [91, 58, 110, 176, 100, 207,
  6, 194, 41, 193, 30, 91, 4, 195, 202, 103, 207, 80, 217, 178], 100, 0⟩

example : (StakePoolData.codec k).decodeAll v_expected_pool_data_bytes = some v_expected_pool_data := by
  decide +kernel
example : (StakePoolData.codec k).enc v_expected_pool_data = v_expected_pool_data_bytes := by
  decide +kernel

/-- `expected_output` (test_encode_other_outputs.ts 169). -/
def v_expected_output_bytes : Bytes :=
  [4, 1, 91, 58, 110, 176, 100, 207, 6, 194, 41, 193, 30, 91, 4, 195, 202, 103, 207, 80, 217, 178,
  0, 0, 0, 0, 0, 0, 0, 0, 0, 0, 0, 0, 0, 0, 0, 0, 0, 0, 0, 0, 0, 0, 0, 0, 0, 0, 0, 0, 0, 0, 0, 0]

/-- The value described by the test. -/
def v_expected_output : TxOutput :=
  TxOutput.produceBlockFromStake (Destination.publicKeyHash [91, 58, 110, 176, 100, 207, 6, 194, 41,
  193, 30, 91, 4, 195, 202, 103, 207, 80, 217, 178]) [0, 0, 0, 0, 0, 0, 0, 0, 0, 0, 0, 0, 0, 0, 0,
  0, 0, 0, 0, 0, 0, 0, 0, 0, 0, 0, 0, 0, 0, 0, 0, 0]

example : (TxOutput.codec k).decodeAll v_expected_output_bytes = some v_expected_output := by
  decide +kernel
example : (TxOutput.codec k).enc v_expected_output = v_expected_output_bytes := by decide +kernel

/-- `expected_token_burn` (test_encode_other_outputs.ts 225). -/
def v_expected_token_burn_bytes : Bytes :=
  [2, 2, 162, 208, 145, 194, 165, 27, 14, 118, 31, 139, 199, 254, 11, 190, 108, 15, 64, 180, 50,
  106, 211, 26, 107, 242, 121, 29, 55, 172, 185, 5, 196, 119, 145, 1]

/-- The value described by the test. -/
def v_expected_token_burn : TxOutput :=
  TxOutput.burn (OutputValue.tokenV1 [162, 208, 145, 194, 165, 27, 14, 118, 31, 139, 199, 254, 11,
  190, 108, 15, 64, 180, 50, 106, 211, 26, 107, 242, 121, 29, 55, 172, 185, 5, 196, 119] 100)

example : (TxOutput.codec k).decodeAll v_expected_token_burn_bytes = some v_expected_token_burn := by
  decide +kernel
example : (TxOutput.codec k).enc v_expected_token_burn = v_expected_token_burn_bytes := by
  decide +kernel

/-- `expected_token_lock_transfer_out` (test_encode_other_outputs.ts 296). -/
def v_expected_token_lock_transfer_out_bytes : Bytes :=
  [1, 2, 162, 208, 145, 194, 165, 27, 14, 118, 31, 139, 199, 254, 11, 190, 108, 15, 64, 180, 50,
  106, 211, 26, 107, 242, 121, 29, 55, 172, 185, 5, 196, 119, 145, 1, 1, 91, 58, 110, 176, 100, 207,
  6, 194, 41, 193, 30, 91, 4, 195, 202, 103, 207, 80, 217, 178, 0, 145, 1]

/-- The value described by the test. -/
def v_expected_token_lock_transfer_out : TxOutput :=
  TxOutput.lockThenTransfer (OutputValue.tokenV1 [162, 208, 145, 194, 165, 27, 14, 118, 31, 139,
  199, 254, 11, 190, 108, 15, 64, 180, 50, 106, 211, 26, 107, 242, 121, 29, 55, 172, 185, 5, 196,
  119] 100) (Destination.publicKeyHash [91, 58, 110, 176, 100, 207, 6, 194, 41, 193, 30, 91, 4, 195,
  202, 103, 207, 80, 217, 178]) (OutputTimeLock.untilHeight 100)

example : (TxOutput.codec k).decodeAll v_expected_token_lock_transfer_out_bytes = some v_expected_token_lock_transfer_out := by
  decide +kernel
example : (TxOutput.codec k).enc v_expected_token_lock_transfer_out = v_expected_token_lock_transfer_out_bytes := by
  decide +kernel

/-- `expected_token_transfer_out` (test_encode_other_outputs.ts 348). -/
def v_expected_token_transfer_out_bytes : Bytes :=
  [0, 2, 162, 208, 145, 194, 165, 27, 14, 118, 31, 139, 199, 254, 11, 190, 108, 15, 64, 180, 50,
  106, 211, 26, 107, 242, 121, 29, 55, 172, 185, 5, 196, 119, 145, 1, 1, 91, 58, 110, 176, 100, 207,
  6, 194, 41, 193, 30, 91, 4, 195, 202, 103, 207, 80, 217, 178]

/-- The value described by the test. -/
def v_expected_token_transfer_out : TxOutput :=
  TxOutput.transfer (OutputValue.tokenV1 [162, 208, 145, 194, 165, 27, 14, 118, 31, 139, 199, 254,
  11, 190, 108, 15, 64, 180, 50, 106, 211, 26, 107, 242, 121, 29, 55, 172, 185, 5, 196, 119] 100)
  (Destination.publicKeyHash [91, 58, 110, 176, 100, 207, 6, 194, 41, 193, 30, 91, 4, 195, 202, 103,
  207, 80, 217, 178])

example : (TxOutput.codec k).decodeAll v_expected_token_transfer_out_bytes = some v_expected_token_transfer_out := by
  decide +kernel
example : (TxOutput.codec k).enc v_expected_token_transfer_out = v_expected_token_transfer_out_bytes := by
  decide +kernel

/-- `expected_fungible_token` (test_encode_other_outputs.ts 371). -/
def v_expected_fungible_token_bytes : Bytes :=
  [7, 1, 12, 88, 88, 88, 2, 56, 104, 116, 116, 112, 58, 47, 47, 117, 114, 105, 46, 99, 111, 109, 2,
  1, 91, 58, 110, 176, 100, 207, 6, 194, 41, 193, 30, 91, 4, 195, 202, 103, 207, 80, 217, 178, 1]

/-- The value described by the test. -/
def v_expected_fungible_token : TxOutput :=
  TxOutput.issueFungibleToken (TokenIssuance.v1 ⟨[88, 88, 88], 2, [104, 116, 116, 112, 58, 47, 47, 117, 114, 105, 46, 99, 111, 109], TokenTotalSupply.unlimited, Destination.publicKeyHash [91, 58, 110, 176, 100, 207, 6,
  194, 41, 193, 30, 91, 4, 195, 202, 103, 207, 80, 217, 178], IsTokenFreezable.yes⟩)

example : (TxOutput.codec k).decodeAll v_expected_fungible_token_bytes = some v_expected_fungible_token := by
  decide +kernel
example : (TxOutput.codec k).enc v_expected_fungible_token = v_expected_fungible_token_bytes := by
  decide +kernel

/-- `expected_nft_encoding` (test_encode_other_outputs.ts 405). -/
def v_expected_nft_encoding_bytes : Bytes :=
  [8, 162, 208, 145, 194, 165, 27, 14, 118, 31, 139, 199, 254, 11, 190, 108, 15, 64, 180, 50, 106,
  211, 26, 107, 242, 121, 29, 55, 172, 185, 5, 196, 119, 0, 1, 0, 2, 227, 252, 33, 195, 223, 44, 38,
  35, 73, 145, 212, 180, 49, 115, 4, 150, 204, 250, 205, 123, 131, 201, 114, 130, 186, 209, 98, 181,
  118, 233, 133, 89, 12, 110, 102, 116, 16, 100, 101, 115, 99, 12, 88, 88, 88, 44, 104, 116, 116,
  112, 58, 47, 47, 105, 99, 111, 110, 40, 104, 116, 116, 112, 58, 47, 47, 102, 111, 111, 40, 104,
  116, 116, 112, 58, 47, 47, 117, 114, 105, 16, 1, 2, 3, 4, 1, 91, 58, 110, 176, 100, 207, 6, 194,
  41, 193, 30, 91, 4, 195, 202, 103, 207, 80, 217, 178]

/-- The value described by the test. -/
def v_expected_nft_encoding : TxOutput :=
  TxOutput.issueNft [162, 208, 145, 194, 165, 27, 14, 118, 31, 139, 199, 254, 11, 190, 108, 15, 64,
  180, 50, 106, 211, 26, 107, 242, 121, 29, 55, 172, 185, 5, 196, 119] (NftIssuance.v0 ⟨⟨some [2, 227, 252, 33, 195, 223, 44, 38, 35, 73, 145, 212, 180, 49, 115, 4, 150, 204,
  250, 205, 123, 131, 201, 114, 130, 186, 209, 98, 181, 118, 233, 133, 89], [110, 102, 116],
  [100, 101, 115, 99], [88, 88, 88], some [104, 116, 116, 112,
  58, 47, 47, 105, 99, 111, 110], some [104, 116, 116, 112, 58, 47, 47,
  102, 111, 111], some [104, 116, 116, 112, 58, 47, 47, 117, 114, 105], [1,
  2, 3, 4]⟩⟩) (Destination.publicKeyHash [91, 58, 110, 176, 100, 207, 6, 194, 41, 193, 30, 91, 4,
  195, 202, 103, 207, 80, 217, 178])

example : (TxOutput.codec k).decodeAll v_expected_nft_encoding_bytes = some v_expected_nft_encoding := by
  decide +kernel
example : (TxOutput.codec k).enc v_expected_nft_encoding = v_expected_nft_encoding_bytes := by
  decide +kernel

/-- `expected_order_output` (test_orders.ts 49). -/
def v_expected_order_output_bytes : Bytes :=
  [11, 1, 91, 58, 110, 176, 100, 207, 6, 194, 41, 193, 30, 91, 4, 195, 202, 103, 207, 80, 217, 178,
  0, 2, 113, 2, 0, 2, 162, 208, 145, 194, 165, 27, 14, 118, 31, 139, 199, 254, 11, 190, 108, 15, 64,
  180, 50, 106, 211, 26, 107, 242, 121, 29, 55, 172, 185, 5, 196, 119, 65, 156]

/-- The value described by the test. -/
def v_expected_order_output : TxOutput :=
  TxOutput.createOrder ⟨Destination.publicKeyHash [91, 58, 110, 176, 100, 207, 6,
  194, 41, 193, 30, 91, 4, 195, 202, 103, 207, 80, 217, 178], OutputValue.coin 40000, OutputValue.tokenV1 [162, 208, 145, 194, 165, 27, 14, 118, 31, 139, 199, 254, 11, 190, 108, 15,
  64, 180, 50, 106, 211, 26, 107, 242, 121, 29, 55, 172, 185, 5, 196, 119] 10000⟩

example : (TxOutput.codec k).decodeAll v_expected_order_output_bytes = some v_expected_order_output := by
  decide +kernel
example : (TxOutput.codec k).enc v_expected_order_output = v_expected_order_output_bytes := by
  decide +kernel

/-- `expected_create_order_output_2` (test_orders.ts 69). -/
def v_expected_create_order_output_2_bytes : Bytes :=
  [11, 1, 91, 58, 110, 176, 100, 207, 6, 194, 41, 193, 30, 91, 4, 195, 202, 103, 207, 80, 217, 178,
  2, 162, 208, 145, 194, 165, 27, 14, 118, 31, 139, 199, 254, 11, 190, 108, 15, 64, 180, 50, 106,
  211, 26, 107, 242, 121, 29, 55, 172, 185, 5, 196, 119, 65, 156, 0, 2, 113, 2, 0]

/-- The value described by the test. -/
def v_expected_create_order_output_2 : TxOutput :=
  TxOutput.createOrder ⟨Destination.publicKeyHash [91, 58, 110, 176, 100, 207, 6,
  194, 41, 193, 30, 91, 4, 195, 202, 103, 207, 80, 217, 178], OutputValue.tokenV1 [162, 208,
  145, 194, 165, 27, 14, 118, 31, 139, 199, 254, 11, 190, 108, 15, 64, 180, 50, 106, 211, 26, 107,
  242, 121, 29, 55, 172, 185, 5, 196, 119] 10000, OutputValue.coin 40000⟩

example : (TxOutput.codec k).decodeAll v_expected_create_order_output_2_bytes = some v_expected_create_order_output_2 := by
  decide +kernel
example : (TxOutput.codec k).enc v_expected_create_order_output_2 = v_expected_create_order_output_2_bytes := by
  decide +kernel

/-- `expected_fill_order_v0_input` (test_orders.ts 94). -/
def v_expected_fill_order_v0_input_bytes : Bytes :=
  [2, 4, 7, 49, 150, 254, 178, 75, 93, 83, 251, 1, 235, 159, 200, 27, 237, 187, 175, 123, 34, 179,
  118, 53, 6, 173, 213, 7, 212, 102, 232, 253, 9, 244, 197, 2, 113, 2, 0, 1, 91, 58, 110, 176, 100,
  207, 6, 194, 41, 193, 30, 91, 4, 195, 202, 103, 207, 80, 217, 178]

/-- The value described by the test. -/
def v_expected_fill_order_v0_input : TxInput :=
  TxInput.accountCommand 1 (AccountCommand.fillOrder [49, 150, 254, 178, 75, 93, 83, 251, 1, 235,
  159, 200, 27, 237, 187, 175, 123, 34, 179, 118, 53, 6, 173, 213, 7, 212, 102, 232, 253, 9, 244,
  197] 40000 (Destination.publicKeyHash [91, 58, 110, 176, 100, 207, 6, 194, 41, 193, 30, 91, 4,
  195, 202, 103, 207, 80, 217, 178]))

example : (TxInput.codec k).decodeAll v_expected_fill_order_v0_input_bytes = some v_expected_fill_order_v0_input := by
  decide +kernel
example : (TxInput.codec k).enc v_expected_fill_order_v0_input = v_expected_fill_order_v0_input_bytes := by
  decide +kernel

/-- `expected_fill_order_v1_input` (test_orders.ts 114). -/
def v_expected_fill_order_v1_input_bytes : Bytes :=
  [3, 0, 49, 150, 254, 178, 75, 93, 83, 251, 1, 235, 159, 200, 27, 237, 187, 175, 123, 34, 179, 118,
  53, 6, 173, 213, 7, 212, 102, 232, 253, 9, 244, 197, 2, 113, 2, 0]

/-- The value described by the test. -/
def v_expected_fill_order_v1_input : TxInput :=
  TxInput.orderAccountCommand (OrderAccountCommand.fillOrder [49, 150, 254, 178, 75, 93, 83, 251, 1,
  235, 159, 200, 27, 237, 187, 175, 123, 34, 179, 118, 53, 6, 173, 213, 7, 212, 102, 232, 253, 9,
  244, 197] 40000)

example : (TxInput.codec k).decodeAll v_expected_fill_order_v1_input_bytes = some v_expected_fill_order_v1_input := by
  decide +kernel
example : (TxInput.codec k).enc v_expected_fill_order_v1_input = v_expected_fill_order_v1_input_bytes := by
  decide +kernel

/-- `expected_conclude_order_v0_input` (test_orders.ts 129). -/
def v_expected_conclude_order_v0_input_bytes : Bytes :=
  [2, 4, 6, 49, 150, 254, 178, 75, 93, 83, 251, 1, 235, 159, 200, 27, 237, 187, 175, 123, 34, 179,
  118, 53, 6, 173, 213, 7, 212, 102, 232, 253, 9, 244, 197]

/-- The value described by the test. -/
def v_expected_conclude_order_v0_input : TxInput :=
  TxInput.accountCommand 1 (AccountCommand.concludeOrder [49, 150, 254, 178, 75, 93, 83, 251, 1,
  235, 159, 200, 27, 237, 187, 175, 123, 34, 179, 118, 53, 6, 173, 213, 7, 212, 102, 232, 253, 9,
  244, 197])

example : (TxInput.codec k).decodeAll v_expected_conclude_order_v0_input_bytes = some v_expected_conclude_order_v0_input := by
  decide +kernel
example : (TxInput.codec k).enc v_expected_conclude_order_v0_input = v_expected_conclude_order_v0_input_bytes := by
  decide +kernel

/-- `expected_conclude_order_v1_input` (test_orders.ts 146). -/
def v_expected_conclude_order_v1_input_bytes : Bytes :=
  [3, 2, 49, 150, 254, 178, 75, 93, 83, 251, 1, 235, 159, 200, 27, 237, 187, 175, 123, 34, 179, 118,
  53, 6, 173, 213, 7, 212, 102, 232, 253, 9, 244, 197]

/-- The value described by the test. -/
def v_expected_conclude_order_v1_input : TxInput :=
  TxInput.orderAccountCommand (OrderAccountCommand.concludeOrder [49, 150, 254, 178, 75, 93, 83,
  251, 1, 235, 159, 200, 27, 237, 187, 175, 123, 34, 179, 118, 53, 6, 173, 213, 7, 212, 102, 232,
  253, 9, 244, 197])

example : (TxInput.codec k).decodeAll v_expected_conclude_order_v1_input_bytes = some v_expected_conclude_order_v1_input := by
  decide +kernel
example : (TxInput.codec k).enc v_expected_conclude_order_v1_input = v_expected_conclude_order_v1_input_bytes := by
  decide +kernel

/-- `expected_freeze_order_input` (test_orders.ts 162). -/
def v_expected_freeze_order_input_bytes : Bytes :=
  [3, 1, 49, 150, 254, 178, 75, 93, 83, 251, 1, 235, 159, 200, 27, 237, 187, 175, 123, 34, 179, 118,
  53, 6, 173, 213, 7, 212, 102, 232, 253, 9, 244, 197]

/-- The value described by the test. -/
def v_expected_freeze_order_input : TxInput :=
  TxInput.orderAccountCommand (OrderAccountCommand.freezeOrder [49, 150, 254, 178, 75, 93, 83, 251,
  1, 235, 159, 200, 27, 237, 187, 175, 123, 34, 179, 118, 53, 6, 173, 213, 7, 212, 102, 232, 253, 9,
  244, 197])

example : (TxInput.codec k).decodeAll v_expected_freeze_order_input_bytes = some v_expected_freeze_order_input := by
  decide +kernel
example : (TxInput.codec k).enc v_expected_freeze_order_input = v_expected_freeze_order_input_bytes := by
  decide +kernel

/-- `tx_bin` (test_misc.ts 310). -/
def v_tx_bin_bytes : Bytes :=
  [1, 0, 4, 0, 0, 255, 93, 154, 148, 57, 14, 233, 114, 8, 211, 26, 165, 195, 181, 221, 189, 141,
  249, 211, 8, 6, 157, 242, 235, 245, 40, 63, 124, 227, 228, 38, 20, 1, 0, 0, 0, 8, 3, 64, 249, 146,
  78, 77, 160, 175, 125, 200, 197, 190, 113, 169, 201, 224, 89, 98, 199, 191, 78, 249, 97, 39, 253,
  231, 167, 180, 225, 70, 158, 72, 98, 15, 0, 128, 224, 55, 121, 195, 17, 2, 0, 3, 101, 128, 126,
  59, 65, 71, 203, 151, 139, 120, 113, 94, 96, 96, 96, 146, 248, 157, 199, 105, 88, 110, 152, 69,
  104, 80, 189, 59, 68, 156, 135, 180, 0, 32, 48, 21, 233, 239, 159, 193, 66, 86, 158, 15, 150, 107,
  192, 24, 132, 100, 250, 113, 42, 132, 30, 20, 0, 46, 15, 233, 82, 160, 118, 162, 108, 1, 229, 57,
  197, 240, 206, 186, 146, 122, 184, 248, 245, 95, 39, 74, 247, 57, 206, 78, 239, 55, 0, 0, 11, 0,
  32, 74, 169, 209, 1, 0, 0, 11, 64, 158, 76, 53, 93, 1, 1, 153, 228, 236, 58, 91, 23, 97, 64, 239,
  156, 213, 140, 125, 53, 121, 253, 176, 236, 178, 26]

/-- The value described by the test. -/
def v_tx_bin : TransactionV1 :=
  ⟨0, [TxInput.utxo ⟨OutPointSourceId.transaction [255, 93, 154, 148, 57,
  14, 233, 114, 8, 211, 26, 165, 195, 181, 221, 189, 141, 249, 211, 8, 6, 157, 242, 235, 245, 40,
  63, 124, 227, 228, 38, 20], 1⟩], [TxOutput.createStakePool [64, 249, 146, 78,
  77, 160, 175, 125, 200, 197, 190, 113, 169, 201, 224, 89, 98, 199, 191, 78, 249, 97, 39, 253, 231,
  167, 180, 225, 70, 158, 72, 98] ⟨5000000000000000, Destination.publicKey [3,
  101, 128, 126, 59, 65, 71, 203, 151, 139, 120, 113, 94, 96, 96, 96, 146, 248, 157, 199, 105, 88,
  110, 152, 69, 104, 80, 189, 59, 68, 156, 135, 180], [32, 48, 21, 233, 239, 159,
  193, 66, 86, 158, 15, 150, 107, 192, 24, 132, 100, 250, 113, 42, 132, 30, 20, 0, 46, 15, 233, 82,
  160, 118, 162, 108], Destination.publicKeyHash [229, 57, 197, 240, 206, 186,
  146, 122, 184, 248, 245, 95, 39, 74, 247, 57, 206, 78, 239, 55], 0, 2000000000000⟩, TxOutput.transfer (OutputValue.coin 1499837800000) (Destination.publicKeyHash
  [153, 228, 236, 58, 91, 23, 97, 64, 239, 156, 213, 140, 125, 53, 121, 253, 176, 236, 178, 26])]⟩

example : (Transaction.codec k).decodeAll v_tx_bin_bytes = some v_tx_bin := by decide +kernel
example : (Transaction.codec k).enc v_tx_bin = v_tx_bin_bytes := by decide +kernel

/-- `tx_signed_bin` (test_misc.ts 326). -/
def v_tx_signed_bin_bytes : Bytes :=
  [1, 0, 4, 0, 0, 255, 93, 154, 148, 57, 14, 233, 114, 8, 211, 26, 165, 195, 181, 221, 189, 141,
  249, 211, 8, 6, 157, 242, 235, 245, 40, 63, 124, 227, 228, 38, 20, 1, 0, 0, 0, 8, 3, 64, 249, 146,
  78, 77, 160, 175, 125, 200, 197, 190, 113, 169, 201, 224, 89, 98, 199, 191, 78, 249, 97, 39, 253,
  231, 167, 180, 225, 70, 158, 72, 98, 15, 0, 128, 224, 55, 121, 195, 17, 2, 0, 3, 101, 128, 126,
  59, 65, 71, 203, 151, 139, 120, 113, 94, 96, 96, 96, 146, 248, 157, 199, 105, 88, 110, 152, 69,
  104, 80, 189, 59, 68, 156, 135, 180, 0, 32, 48, 21, 233, 239, 159, 193, 66, 86, 158, 15, 150, 107,
  192, 24, 132, 100, 250, 113, 42, 132, 30, 20, 0, 46, 15, 233, 82, 160, 118, 162, 108, 1, 229, 57,
  197, 240, 206, 186, 146, 122, 184, 248, 245, 95, 39, 74, 247, 57, 206, 78, 239, 55, 0, 0, 11, 0,
  32, 74, 169, 209, 1, 0, 0, 11, 64, 158, 76, 53, 93, 1, 1, 153, 228, 236, 58, 91, 23, 97, 64, 239,
  156, 213, 140, 125, 53, 121, 253, 176, 236, 178, 26, 4, 1, 1, 141, 1, 0, 2, 237, 221, 0, 59, 251,
  99, 51, 18, 62, 104, 42, 190, 105, 35, 218, 29, 56, 250, 164, 240, 224, 217, 226, 238, 66, 213,
  170, 70, 193, 82, 163, 72, 0, 167, 73, 163, 12, 140, 156, 51, 105, 108, 228, 7, 252, 20, 94, 188,
  152, 36, 225, 123, 119, 141, 13, 156, 204, 129, 41, 190, 82, 243, 123, 116, 22, 14, 96, 246, 104,
  154, 194, 244, 129, 7, 30, 26, 99, 217, 207, 15, 110, 171, 132, 194, 112, 59, 94, 159, 34, 156,
  216, 24, 140, 224, 146, 237, 212]

/-- The value described by the test. -/
def v_tx_signed_bin : SignedTransaction :=
  ⟨⟨0, [TxInput.utxo ⟨OutPointSourceId.transaction [255,
  93, 154, 148, 57, 14, 233, 114, 8, 211, 26, 165, 195, 181, 221, 189, 141, 249, 211, 8, 6, 157,
  242, 235, 245, 40, 63, 124, 227, 228, 38, 20], 1⟩], [TxOutput.createStakePool
  [64, 249, 146, 78, 77, 160, 175, 125, 200, 197, 190, 113, 169, 201, 224, 89, 98, 199, 191, 78,
  249, 97, 39, 253, 231, 167, 180, 225, 70, 158, 72, 98] ⟨5000000000000000, Destination.publicKey [3, 101, 128, 126, 59, 65, 71, 203, 151, 139, 120, 113, 94, 96, 96, 96, 146,
  248, 157, 199, 105, 88, 110, 152, 69, 104, 80, 189, 59, 68, 156, 135, 180], [32,
  48, 21, 233, 239, 159, 193, 66, 86, 158, 15, 150, 107, 192, 24, 132, 100, 250, 113, 42, 132, 30,
  20, 0, 46, 15, 233, 82, 160, 118, 162, 108], Destination.publicKeyHash [229,
  57, 197, 240, 206, 186, 146, 122, 184, 248, 245, 95, 39, 74, 247, 57, 206, 78, 239, 55],
  0, 2000000000000⟩, TxOutput.transfer (OutputValue.coin
  1499837800000) (Destination.publicKeyHash [153, 228, 236, 58, 91, 23, 97, 64, 239, 156, 213, 140,
  125, 53, 121, 253, 176, 236, 178, 26])]⟩, [InputWitness.standard ⟨1, [0, 2, 237, 221, 0, 59, 251, 99, 51, 18, 62, 104, 42, 190, 105, 35, 218, 29,
  56, 250, 164, 240, 224, 217, 226, 238, 66, 213, 170, 70, 193, 82, 163, 72, 0, 167, 73, 163, 12,
  140, 156, 51, 105, 108, 228, 7, 252, 20, 94, 188, 152, 36, 225, 123, 119, 141, 13, 156, 204, 129,
  41, 190, 82, 243, 123, 116, 22, 14, 96, 246, 104, 154, 194, 244, 129, 7, 30, 26, 99, 217, 207, 15,
  110, 171, 132, 194, 112, 59, 94, 159, 34, 156, 216, 24, 140, 224, 146, 237, 212]⟩]⟩

example : (SignedTransaction.codec k).decodeAll v_tx_signed_bin_bytes = some v_tx_signed_bin := by
  decide +kernel
example : (SignedTransaction.codec k).enc v_tx_signed_bin = v_tx_signed_bin_bytes := by decide +kernel

/-- `expected_tx` (test_transaction_and_witness_encoding.ts 79). -/
def v_expected_tx_bytes : Bytes :=
  [1, 0, 8, 0, 0, 0, 0, 0, 0, 0, 0, 0, 0, 0, 0, 0, 0, 0, 0, 0, 0, 0, 0, 0, 0, 0, 0, 0, 0, 0, 0, 0,
  0, 0, 0, 0, 0, 1, 0, 0, 0, 1, 4, 0, 0, 0, 0, 0, 0, 0, 0, 0, 0, 0, 0, 0, 0, 0, 0, 0, 0, 0, 0, 0, 0,
  0, 0, 0, 0, 0, 0, 0, 0, 0, 0, 0, 4, 8, 1, 0, 145, 1, 1, 91, 58, 110, 176, 100, 207, 6, 194, 41,
  193, 30, 91, 4, 195, 202, 103, 207, 80, 217, 178, 0, 145, 1, 3, 0, 0, 0, 0, 0, 0, 0, 0, 0, 0, 0,
  0, 0, 0, 0, 0, 0, 0, 0, 0, 0, 0, 0, 0, 0, 0, 0, 0, 0, 0, 0, 0, 2, 113, 2, 0, 1, 91, 58, 110, 176,
  100, 207, 6, 194, 41, 193, 30, 91, 4, 195, 202, 103, 207, 80, 217, 178, 0, 108, 245, 234, 97, 170,
  9, 247, 158, 169, 100, 84, 123, 235, 183, 147, 29, 136, 118, 203, 24, 146, 56, 60, 217, 2, 198,
  32, 133, 255, 240, 84, 123, 1, 91, 58, 110, 176, 100, 207, 6, 194, 41, 193, 30, 91, 4, 195, 202,
  103, 207, 80, 217, 178, 100, 0, 0]

/-- The value described by the test. -/
def v_expected_tx : TransactionV1 :=
  ⟨0, [TxInput.utxo ⟨OutPointSourceId.transaction [0, 0, 0, 0, 0, 0, 0,
  0, 0, 0, 0, 0, 0, 0, 0, 0, 0, 0, 0, 0, 0, 0, 0, 0, 0, 0, 0, 0, 0, 0, 0, 0], 1⟩,
  TxInput.account ⟨1, AccountSpending.delegationBalance [0, 0, 0, 0, 0, 0, 0,
  0, 0, 0, 0, 0, 0, 0, 0, 0, 0, 0, 0, 0, 0, 0, 0, 0, 0, 0, 0, 0, 0, 0, 0, 0] 1⟩], [TxOutput.lockThenTransfer (OutputValue.coin 100) (Destination.publicKeyHash [91, 58, 110, 176,
  100, 207, 6, 194, 41, 193, 30, 91, 4, 195, 202, 103, 207, 80, 217, 178])
  (OutputTimeLock.untilHeight 100), TxOutput.createStakePool [0, 0, 0, 0, 0, 0, 0, 0, 0, 0, 0, 0, 0,
  0, 0, 0, 0, 0, 0, 0, 0, 0, 0, 0, 0, 0, 0, 0, 0, 0, 0, 0] ⟨40000, Destination.publicKeyHash [91, 58, 110, 176, 100, 207, 6, 194, 41, 193, 30, 91, 4, 195, 202, 103,
  207, 80, 217, 178], [108, 245, 234, 97, 170, 9, 247, 158, 169, 100, 84, 123, 235,
  183, 147, 29, 136, 118, 203, 24, 146, 56, 60, 217, 2, 198, 32, 133, 255, 240, 84, 123],
  Destination.publicKeyHash [91, 58, 110, 176, 100, 207, 6, 194, 41, 193, 30, 91,
  4, 195, 202, 103, 207, 80, 217, 178], 100, 0⟩]⟩

example : (Transaction.codec k).decodeAll v_expected_tx_bytes = some v_expected_tx := by decide +kernel
example : (Transaction.codec k).enc v_expected_tx = v_expected_tx_bytes := by decide +kernel

/-- `expected_no_signature_witness` (test_transaction_and_witness_encoding.ts 96). -/
def v_expected_no_signature_witness_bytes : Bytes :=
  [0, 0]

/-- The value described by the test. -/
def v_expected_no_signature_witness : InputWitness :=
  InputWitness.noSignature none

example : (InputWitness.codec k).decodeAll v_expected_no_signature_witness_bytes = some v_expected_no_signature_witness := by
  decide +kernel
example : (InputWitness.codec k).enc v_expected_no_signature_witness = v_expected_no_signature_witness_bytes := by
  decide +kernel

/-- `expected_signed_tx` (test_transaction_and_witness_encoding.ts 293). -/
def v_expected_signed_tx_bytes : Bytes :=
  [1, 0, 8, 0, 0, 0, 0, 0, 0, 0, 0, 0, 0, 0, 0, 0, 0, 0, 0, 0, 0, 0, 0, 0, 0, 0, 0, 0, 0, 0, 0, 0,
  0, 0, 0, 0, 0, 1, 0, 0, 0, 1, 4, 0, 0, 0, 0, 0, 0, 0, 0, 0, 0, 0, 0, 0, 0, 0, 0, 0, 0, 0, 0, 0, 0,
  0, 0, 0, 0, 0, 0, 0, 0, 0, 0, 0, 4, 8, 1, 0, 145, 1, 1, 91, 58, 110, 176, 100, 207, 6, 194, 41,
  193, 30, 91, 4, 195, 202, 103, 207, 80, 217, 178, 0, 145, 1, 3, 0, 0, 0, 0, 0, 0, 0, 0, 0, 0, 0,
  0, 0, 0, 0, 0, 0, 0, 0, 0, 0, 0, 0, 0, 0, 0, 0, 0, 0, 0, 0, 0, 2, 113, 2, 0, 1, 91, 58, 110, 176,
  100, 207, 6, 194, 41, 193, 30, 91, 4, 195, 202, 103, 207, 80, 217, 178, 0, 108, 245, 234, 97, 170,
  9, 247, 158, 169, 100, 84, 123, 235, 183, 147, 29, 136, 118, 203, 24, 146, 56, 60, 217, 2, 198,
  32, 133, 255, 240, 84, 123, 1, 91, 58, 110, 176, 100, 207, 6, 194, 41, 193, 30, 91, 4, 195, 202,
  103, 207, 80, 217, 178, 100, 0, 0, 8, 1, 1, 141, 1, 0, 2, 227, 252, 33, 195, 223, 44, 38, 35, 73,
  145, 212, 180, 49, 115, 4, 150, 204, 250, 205, 123, 131, 201, 114, 130, 186, 209, 98, 181, 118,
  233, 133, 89, 0, 99, 87, 109, 227, 15, 21, 164, 83, 151, 14, 235, 106, 83, 230, 40, 64, 146, 112,
  52, 103, 203, 31, 216, 54, 141, 223, 27, 175, 133, 164, 172, 239, 122, 121, 17, 88, 114, 99, 6,
  19, 220, 156, 167, 40, 17, 211, 196, 45, 209, 111, 170, 161, 2, 254, 122, 169, 127, 235, 158, 62,
  127, 177, 12, 228, 1, 1, 141, 1, 0, 2, 227, 252, 33, 195, 223, 44, 38, 35, 73, 145, 212, 180, 49,
  115, 4, 150, 204, 250, 205, 123, 131, 201, 114, 130, 186, 209, 98, 181, 118, 233, 133, 89, 0, 99,
  87, 109, 227, 15, 21, 164, 83, 151, 14, 235, 106, 83, 230, 40, 64, 146, 112, 52, 103, 203, 31,
  216, 54, 141, 223, 27, 175, 133, 164, 172, 239, 122, 121, 17, 88, 114, 99, 6, 19, 220, 156, 167,
  40, 17, 211, 196, 45, 209, 111, 170, 161, 2, 254, 122, 169, 127, 235, 158, 62, 127, 177, 12, 228]

/-- The value described by the test. -/
def v_expected_signed_tx : SignedTransaction :=
  ⟨⟨0, [TxInput.utxo ⟨OutPointSourceId.transaction [0, 0,
  0, 0, 0, 0, 0, 0, 0, 0, 0, 0, 0, 0, 0, 0, 0, 0, 0, 0, 0, 0, 0, 0, 0, 0, 0, 0, 0, 0, 0, 0], 1⟩, TxInput.account ⟨1, AccountSpending.delegationBalance [0, 0, 0, 0, 0,
  0, 0, 0, 0, 0, 0, 0, 0, 0, 0, 0, 0, 0, 0, 0, 0, 0, 0, 0, 0, 0, 0, 0, 0, 0, 0, 0] 1⟩], [TxOutput.lockThenTransfer (OutputValue.coin 100) (Destination.publicKeyHash [91, 58, 110, 176,
  100, 207, 6, 194, 41, 193, 30, 91, 4, 195, 202, 103, 207, 80, 217, 178])
  (OutputTimeLock.untilHeight 100), TxOutput.createStakePool [0, 0, 0, 0, 0, 0, 0, 0, 0, 0, 0, 0, 0,
  0, 0, 0, 0, 0, 0, 0, 0, 0, 0, 0, 0, 0, 0, 0, 0, 0, 0, 0] ⟨40000, Destination.publicKeyHash [91, 58, 110, 176, 100, 207, 6, 194, 41, 193, 30, 91, 4, 195, 202, 103,
  207, 80, 217, 178], [108, 245, 234, 97, 170, 9, 247, 158, 169, 100, 84, 123, 235,
  183, 147, 29, 136, 118, 203, 24, 146, 56, 60, 217, 2, 198, 32, 133, 255, 240, 84, 123],
  Destination.publicKeyHash [91, 58, 110, 176, 100, 207, 6, 194, 41, 193, 30, 91,
  4, 195, 202, 103, 207, 80, 217, 178], 100, 0⟩]⟩, [InputWitness.standard ⟨1, [0, 2, 227, 252, 33, 195, 223, 44, 38,
  35, 73, 145, 212, 180, 49, 115, 4, 150, 204, 250, 205, 123, 131, 201, 114, 130, 186, 209, 98, 181,
  118, 233, 133, 89, 0, 99, 87, 109, 227, 15, 21, 164, 83, 151, 14, 235, 106, 83, 230, 40, 64, 146,
  112, 52, 103, 203, 31, 216, 54, 141, 223, 27, 175, 133, 164, 172, 239, 122, 121, 17, 88, 114, 99,
  6, 19, 220, 156, 167, 40, 17, 211, 196, 45, 209, 111, 170, 161, 2, 254, 122, 169, 127, 235, 158,
  62, 127, 177, 12, 228]⟩, InputWitness.standard ⟨1, [0, 2, 227,
  252, 33, 195, 223, 44, 38, 35, 73, 145, 212, 180, 49, 115, 4, 150, 204, 250, 205, 123, 131, 201,
  114, 130, 186, 209, 98, 181, 118, 233, 133, 89, 0, 99, 87, 109, 227, 15, 21, 164, 83, 151, 14,
  235, 106, 83, 230, 40, 64, 146, 112, 52, 103, 203, 31, 216, 54, 141, 223, 27, 175, 133, 164, 172,
  239, 122, 121, 17, 88, 114, 99, 6, 19, 220, 156, 167, 40, 17, 211, 196, 45, 209, 111, 170, 161, 2,
  254, 122, 169, 127, 235, 158, 62, 127, 177, 12, 228]⟩]⟩

example : (SignedTransaction.codec k).decodeAll v_expected_signed_tx_bytes = some v_expected_signed_tx := by
  decide +kernel
example : (SignedTransaction.codec k).enc v_expected_signed_tx = v_expected_signed_tx_bytes := by
  decide +kernel

/-! The values above meet the hypotheses of the theorems. -/

example : v_tx_bin.Fits k :=
  ((C46_decode_all (C46_transaction k) v_tx_bin_bytes v_tx_bin).1 (by decide +kernel)).1
example : v_tx_signed_bin.Fits k :=
  ((C46_decode_all (C46_signed_transaction k) v_tx_signed_bin_bytes v_tx_signed_bin).1
    (by decide +kernel)).1

/-- A block with a transaction. -/
def block : BlockV1 :=
  ⟨⟨⟨List.replicate 32 1, List.replicate 32 2, List.replicate 32 3, 1700000000,
      .pos ⟨[.utxo ⟨.blockReward (List.replicate 32 4), 0⟩], [.noSignature none], List.replicate 32 5,
        (List.replicate 32 6, List.replicate 64 7), 0x1d00ffff⟩⟩,
    .headerSignature (List.replicate 64 8)⟩, ⟨⟨[v_expected_output]⟩, [v_tx_signed_bin]⟩⟩

example : block.Fits k := by
  have h : (Block.codec k).decodeAll ((Block.codec k).enc block) = some block := by decide +kernel
  exact ((C46_decode_all (C46_block k) _ _).1 h).1

/-- A signature set of a multisig spend and its rewriting. -/
def challenge : MultisigChallenge := ⟨1, [List.replicate 33 2, List.replicate 33 3]⟩

example : challenge.Fits k := by
  have h : (MultisigChallenge.codec k).decodeAll ((MultisigChallenge.codec k).enc challenge)
      = some challenge := by decide +kernel
  exact ((C46_decode_all (C46_multisig_challenge k) _ _).1 h).1

example :
    (multisigSpend k).decodeAll
      ((vec (pair (uint 1) signatureC)).enc [(1, List.replicate 64 9), (1, List.replicate 64 8)] ++
        (MultisigChallenge.codec k).enc challenge) = some ([(1, List.replicate 64 8)], challenge) := by
  decide +kernel

/-! Longer forms of a number, wrong tags and surplus bytes are refused. -/

example : amountC.decodeAll [0x01, 0x00] = none := by decide +kernel
example : amountC.decodeAll [0x02, 0x00, 0x00, 0x00] = none := by decide +kernel
example : amountC.decodeAll [0x03, 0xff, 0xff, 0xff, 0x3f] = none := by decide +kernel
example : amountC.decodeAll [0x03, 0xff, 0xff, 0xff, 0x40] = some 0x40ffffff := by decide +kernel
example : (compact 8).decodeAll (0x17 :: List.replicate 9 0xff) = none := by decide +kernel
example : (compact 8).decodeAll (0x13 :: List.replicate 8 0xff) = some (2 ^ 64 - 1) := by decide +kernel
example : (Transaction.codec k).decodeAll (2 :: v_tx_bin_bytes.drop 1) = none := by decide +kernel
example : (Transaction.codec k).decodeAll (v_tx_bin_bytes ++ [0]) = none := by decide +kernel

end Verif.Codec.Vectors
