{
 "claims": [
  {
   "property": "C01",
   "status": "proved",
   "theorems": [
    "Verif.Accounting.C01_apply_iff_changes",
    "Verif.Accounting.C01_merge_is_composition",
    "Verif.Accounting.C01_merge_only_composition",
    "Verif.Accounting.C01_merge_assoc"
   ],
   "note": ""
  },
  {
   "property": "C02",
   "status": "proved",
   "theorems": [
    "Verif.Accounting.C02_undo_merge"
   ],
   "note": ""
  },
  {
   "property": "C03",
   "status": "proved",
   "theorems": [
    "Verif.Accounting.C03_merge_adds",
    "Verif.Accounting.C03_merge_succeeds_iff",
    "Verif.Accounting.C03_undo_merge",
    "Verif.Accounting.C03_undo_min_fails",
    "Verif.Accounting.C03_balance_plus_delta",
    "Verif.Accounting.C03_layers_compose"
   ],
   "note": ""
  },
  {
   "property": "C04",
   "status": "proved",
   "theorems": [
    "Verif.Pos.C04_undo_history",
    "Verif.Pos.C04_interleaved",
    "Verif.Pos.C04_invariant_reachable"
   ],
   "note": ""
  },
  {
   "property": "C05",
   "status": "proved",
   "theorems": [
    "Verif.Pos.C05_flush_faithful",
    "Verif.Pos.C05_flush_to_db",
    "Verif.Pos.C05_rollback",
    "Verif.Pos.C05_flush_to_layer",
    "Verif.Pos.C05_layer_undo",
    "Verif.Pos.C05_shares_zero_entry"
   ],
   "note": ""
  },
  {
   "property": "C06",
   "status": "proved",
   "theorems": [
    "Verif.Pos.C06_pool_balance",
    "Verif.Pos.C06_delegation_balance",
    "Verif.Pos.C06_share_queries_agree",
    "Verif.Pos.C06_consistent",
    "Verif.Pos.C06_reused_id_unbalanced",
    "Verif.Pos.C06_delegate_to_dead_pool"
   ],
   "note": ""
  },
  {
   "property": "C07",
   "status": "proved",
   "theorems": [
    "Verif.Pos.C07_no_overspend"
   ],
   "note": ""
  },
  {
   "property": "C08",
   "status": "proved",
   "theorems": [
    "Verif.Tokens.C08_supply_never_exceeds_cap",
    "Verif.Tokens.C08_supply_is_minted_minus_unminted",
    "Verif.Tokens.C08_fixed_supply_readable",
    "Verif.Tokens.C08_unlimited_mint_overflow_detected_late"
   ],
   "note": ""
  },
  {
   "property": "C09",
   "status": "proved",
   "theorems": [
    "Verif.Tokens.C09_locked_supply_is_final",
    "Verif.Tokens.C09_lock_locks"
   ],
   "note": ""
  },
  {
   "property": "C10",
   "status": "proved",
   "theorems": [
    "Verif.Tokens.C10_frozen_token_untouched",
    "Verif.Tokens.C10_frozen_token_rejects",
    "Verif.Tokens.C10_irrevocably_frozen_for_ever",
    "Verif.Tokens.C10_not_freezable_never_frozen",
    "Verif.Tokens.C10_issue_records_terms",
    "Verif.Tokens.C10_issued_not_freezable"
   ],
   "note": ""
  },
  {
   "property": "C11",
   "status": "proved",
   "theorems": [
    "Verif.Tokens.C11_undo_history",
    "Verif.Tokens.C11_interleaved",
    "Verif.Tokens.C11_invariant_reachable"
   ],
   "note": ""
  },
  {
   "property": "C12",
   "status": "proved",
   "theorems": [
    "Verif.Orders.C12_fill_price_v1",
    "Verif.Orders.C12_fill_price_v0",
    "Verif.Orders.C12_fill_v1_accepts"
   ],
   "note": ""
  },
  {
   "property": "C13",
   "status": "proved",
   "theorems": [
    "Verif.Orders.C13_sound_invariant",
    "Verif.Orders.C13_conservation",
    "Verif.Orders.C13_conservation_genesis",
    "Verif.Orders.C13_conclude",
    "Verif.Orders.C13_absent_is_inert"
   ],
   "note": ""
  },
  {
   "property": "C14",
   "status": "proved",
   "theorems": [
    "Verif.Orders.C14_undo_history",
    "Verif.Orders.C14_undo_to_parent",
    "Verif.Orders.C14_interleaved"
   ],
   "note": ""
  },
  {
   "property": "C15",
   "status": "proved",
   "theorems": [
    "Verif.Orders.C15_frozen_is_final",
    "Verif.Orders.C15_freeze_freezes"
   ],
   "note": ""
  },
  {
   "property": "C16",
   "status": "proved",
   "theorems": [
    "Verif.Utxo.C16_refines_plain_map",
    "Verif.Utxo.C16_flush_to_database",
    "Verif.Utxo.C16_uniqueness_needed"
   ],
   "note": ""
  },
  {
   "property": "C17",
   "status": "proved",
   "theorems": [
    "Verif.Utxo.C17_spend_iff_unspent",
    "Verif.Utxo.C17_no_double_spend",
    "Verif.Utxo.C17_block_no_double_spend"
   ],
   "note": ""
  },
  {
   "property": "C18",
   "status": "proved",
   "theorems": [
    "Verif.Utxo.C18_tx_roundtrip",
    "Verif.Utxo.C18_block_roundtrip",
    "Verif.Utxo.C18_chain_roundtrip",
    "Verif.Utxo.C18_reward_without_utxo_inputs",
    "Verif.Utxo.C18_reward_misaligned"
   ],
   "note": ""
  },
  {
   "property": "C19",
   "status": "proved",
   "theorems": [
    "Verif.Utxo.C19_never_panics",
    "Verif.Utxo.C19_invariant",
    "Verif.Utxo.C19_connect_invariant",
    "Verif.Utxo.C19_uniqueness_needed"
   ],
   "note": ""
  },
  {
   "property": "C20",
   "status": "proved",
   "theorems": [
    "Verif.Accumulator.C20_satisfy_conserves",
    "Verif.Accumulator.C20_satisfiable_iff",
    "Verif.Accumulator.C20_transaction_conserves",
    "Verif.Accumulator.C20_plain_transaction",
    "Verif.Accumulator.C20_fees_combine",
    "Verif.Accumulator.C20_block_fees"
   ],
   "note": ""
  },
  {
   "property": "C21",
   "status": "proved",
   "theorems": [
    "Verif.Accumulator.C21_locks_respected",
    "Verif.Accumulator.C21_unstaked_coins_stay_locked"
   ],
   "note": ""
  },
  {
   "property": "C22",
   "status": "proved",
   "theorems": [
    "Verif.Reward.C22_distribution",
    "Verif.Reward.C22_split",
    "Verif.Reward.C22_fair",
    "Verif.Reward.C22_undo",
    "Verif.Reward.C22_no_arithmetic_failure"
   ],
   "note": ""
  },
  {
   "property": "C23",
   "status": "proved",
   "theorems": [
    "Verif.Decimal.C23_parse_exact",
    "Verif.Decimal.C23_parse_accepts",
    "Verif.Decimal.C23_reads_unique",
    "Verif.Decimal.C23_decimal_round_trip",
    "Verif.Decimal.C23_amount_round_trip",
    "Verif.Decimal.C23_zero_many_decimals_refused",
    "Verif.Decimal.C23_amount_exact",
    "Verif.Decimal.C23_amount_accepts",
    "Verif.Decimal.C23_parse_panics_iff",
    "Verif.Decimal.C23_parse_panics",
    "Verif.Decimal.C23_signed_round_trip",
    "Verif.Decimal.C23_subtract_exact",
    "Verif.Decimal.C23_subtract_same_currency",
    "Verif.Decimal.C23_subtract_zero_refused"
   ],
   "note": ""
  },
  {
   "property": "C24",
   "status": "proved",
   "theorems": [
    "Verif.C24_unsigned_exact",
    "Verif.C24_signed_exact",
    "Verif.C24_signed_rem",
    "Verif.C24_conversions",
    "Verif.C24_sum_exact",
    "Verif.C24_abs_diff"
   ],
   "note": ""
  },
  {
   "property": "C25",
   "status": "proved",
   "theorems": [
    "Verif.Compact.C25_round_down",
    "Verif.Compact.C25_decode_exact",
    "Verif.Compact.C25_decode_iff",
    "Verif.Compact.C25_stable",
    "Verif.Compact.C25_monotone"
   ],
   "note": ""
  },
  {
   "property": "C26",
   "status": "proved",
   "theorems": [
    "Verif.Decimal.C26_range",
    "Verif.Decimal.C26_encode_decode",
    "Verif.Decimal.C26_text_round_trip",
    "Verif.Decimal.C26_text_exact"
   ],
   "note": ""
  },
  {
   "property": "C27",
   "status": "proved",
   "theorems": [
    "Verif.Emission.C27_pays_unique",
    "Verif.Emission.C27_supply",
    "Verif.Emission.C27_subsidy",
    "Verif.Emission.C27_final",
    "Verif.Emission.C27_mainnet",
    "Verif.Emission.C27_mainnet_total"
   ],
   "note": ""
  },
  {
   "property": "C28",
   "status": "proved",
   "theorems": [
    "Verif.BlockTree.C28_ancestor",
    "Verif.BlockTree.C28_ancestor_by_id",
    "Verif.BlockTree.C28_too_high",
    "Verif.BlockTree.C28_add_errors",
    "Verif.BlockTree.C28_totals",
    "Verif.BlockTree.C28_last_common_ancestor"
   ],
   "note": ""
  },
  {
   "property": "C29",
   "status": "proved",
   "theorems": [
    "Verif.Target.C29_value",
    "Verif.Target.C29_bounds",
    "Verif.Target.C29_monotone",
    "Verif.Target.C29_direction",
    "Verif.Target.C29_average",
    "Verif.Target.C29_required",
    "Verif.Target.C29_required_all_pos",
    "Verif.Target.C29_step",
    "Verif.Target.C29_panics_without_initial"
   ],
   "note": ""
  },
  {
   "property": "C30",
   "status": "proved",
   "theorems": [
    "Verif.Script.C30_verify_iff",
    "Verif.Script.C30_terminates",
    "Verif.Script.C30_first_failure",
    "Verif.Script.C30_count_mismatch",
    "Verif.Script.C30_conjunction",
    "Verif.Script.C30_disjunction",
    "Verif.Script.C30_weaker_checks"
   ],
   "note": ""
  },
  {
   "property": "C31",
   "status": "proved",
   "theorems": [
    "Verif.Script.C31_exact",
    "Verif.Script.C31_monotone",
    "Verif.Script.C31_for_blocks",
    "Verif.Script.C31_panic_iff",
    "Verif.Script.C31_panic_reachable"
   ],
   "note": ""
  },
  {
   "property": "C32",
   "status": "proved",
   "theorems": [
    "Verif.Verifier.C32_nonces_in_order",
    "Verif.Verifier.C32_nonces_of_chain",
    "Verif.Verifier.C32_nonces_from_zero",
    "Verif.Verifier.C32_no_replay",
    "Verif.Verifier.C32_wrong_nonce_rejected",
    "Verif.Verifier.C32_nonce_accepted_iff",
    "Verif.Verifier.C32_disconnect_transaction",
    "Verif.Verifier.C32_disconnect_block",
    "Verif.Verifier.C32_layers"
   ],
   "note": ""
  },
  {
   "property": "C33",
   "status": "proved",
   "theorems": [
    "Verif.FeeRate.C33_minimum_fee",
    "Verif.FeeRate.C33_minimum_fee_overflow",
    "Verif.FeeRate.C33_monotone",
    "Verif.FeeRate.C33_pays_iff_rate",
    "Verif.FeeRate.C33_round_trip",
    "Verif.FeeRate.C33_accepts_iff",
    "Verif.FeeRate.C33_rolling_minimum",
    "Verif.FeeRate.C33_eviction_raises",
    "Verif.FeeRate.C33_eviction_floor"
   ],
   "note": ""
  },
  {
   "property": "C34",
   "status": "proved",
   "theorems": [
    "Verif.Mempool.C34_bookkeeping",
    "Verif.Mempool.C34_no_conflicts",
    "Verif.Mempool.C34_acyclic",
    "Verif.Mempool.C34_add",
    "Verif.Mempool.C34_cluster_limits",
    "Verif.Mempool.C34_drop",
    "Verif.Mempool.C34_expiry",
    "Verif.Mempool.C34_trim",
    "Verif.Mempool.C34_remove",
    "Verif.Mempool.C34_middle_removal_breaks",
    "Verif.Mempool.C34_deposit_not_tracked"
   ],
   "note": ""
  },
  {
   "property": "C35",
   "status": "proved",
   "theorems": [
    "Verif.BlockStatus.C35_view_bijective",
    "Verif.BlockStatus.C35_queries",
    "Verif.BlockStatus.C35_set_stage",
    "Verif.BlockStatus.C35_set_validation_failed",
    "Verif.BlockStatus.C35_set_has_invalid_parent",
    "Verif.BlockStatus.C35_set_explicitly_invalidated",
    "Verif.BlockStatus.C35_clear",
    "Verif.BlockStatus.C35_refines"
   ],
   "note": ""
  },
  {
   "property": "C36",
   "status": "proved",
   "theorems": [
    "Verif.Chainstate.C36_commit_all_or_nothing",
    "Verif.Chainstate.C36_commit_retry",
    "Verif.Chainstate.C36_commit_finding",
    "Verif.Chainstate.C36_verifier_undoes",
    "Verif.Chainstate.C36_stored_state",
    "Verif.Chainstate.C36_chain_state",
    "Verif.Chainstate.C36_main_chain",
    "Verif.Chainstate.C36_consistent",
    "Verif.Chainstate.C36_refusal",
    "Verif.Chainstate.C36_all_or_nothing",
    "Verif.Chainstate.C36_accepted",
    "Verif.Chainstate.C36_orphans",
    "Verif.Chainstate.C36_max_trust",
    "Verif.Chainstate.C36_finality",
    "Verif.Chainstate.C36_reorg_depth",
    "Verif.Chainstate.C36_invalidate",
    "Verif.Chainstate.C36_reset",
    "Verif.Chainstate.C36_agreement",
    "Verif.Chainstate.C36_reset_finding",
    "Verif.Chainstate.C36_reorg_limit_finding",
    "Verif.Chainstate.C36_min_height"
   ],
   "note": "Resets are assumed to be called on blocks with valid parents (C36_reset_finding shows why). The reorganization limit is exact for block processing only (C36_reorg_limit_finding). After a crash between two transactions the failed block may stay recorded as valid (C36_commit_finding)."
  },
  {
   "property": "C37",
   "status": "proved",
   "theorems": [
    "Verif.Orders.C37_flush_to_db",
    "Verif.Orders.C37_flush_to_layer"
   ],
   "note": ""
  },
  {
   "property": "C38",
   "status": "proved",
   "theorems": [
    "Verif.Tokens.C38_flush_to_db",
    "Verif.Tokens.C38_flush_faithful",
    "Verif.Tokens.C38_flush_to_layer"
   ],
   "note": ""
  },
  {
   "property": "C39",
   "status": "proved",
   "theorems": [
    "Verif.Uint.C39_add",
    "Verif.Uint.C39_sub",
    "Verif.Uint.C39_widening_mul",
    "Verif.Uint.C39_mul",
    "Verif.Uint.C39_mul_u32",
    "Verif.Uint.C39_div",
    "Verif.Uint.C39_order",
    "Verif.Uint.C39_shift",
    "Verif.Uint.C39_bits",
    "Verif.Uint.C39_bytes",
    "Verif.Uint.C39_convert"
   ],
   "note": ""
  },
  {
   "property": "C40",
   "status": "proved",
   "theorems": [
    "Verif.BlockTree.C40_median",
    "Verif.BlockTree.C40_monotone",
    "Verif.BlockTree.C40_no_earlier",
    "Verif.BlockTree.C40_checked_ancestors"
   ],
   "note": ""
  },
  {
   "property": "C41",
   "status": "proved",
   "theorems": [
    "Verif.Target.C41_panic_reachable",
    "Verif.Target.C41_value",
    "Verif.Target.C41_bounds",
    "Verif.Target.C41_networks",
    "Verif.Target.C41_overflow_lowers",
    "Verif.Target.C41_retarget",
    "Verif.Target.C41_between",
    "Verif.Target.C41_accept"
   ],
   "note": ""
  },
  {
   "property": "C42",
   "status": "proved",
   "theorems": [
    "Verif.Target.C42_init_iff",
    "Verif.Target.C42_version_at",
    "Verif.Target.C42_ongoing"
   ],
   "note": ""
  },
  {
   "property": "C43",
   "status": "proved",
   "theorems": [
    "Verif.Script.C43_full",
    "Verif.Script.C43_reward",
    "Verif.Script.C43_full_implies_timelocks",
    "Verif.Script.C43_timelock_recheck",
    "Verif.Script.C43_htlc",
    "Verif.Script.C43_unspendable"
   ],
   "note": ""
  },
  {
   "property": "C44",
   "status": "proved",
   "theorems": [
    "Verif.Sighash.C44_exists",
    "Verif.Sighash.C44_errors",
    "Verif.Sighash.C44_binding",
    "Verif.Sighash.C44_hash",
    "Verif.Sighash.C44_all",
    "Verif.Sighash.C44_position_finding",
    "Verif.Sighash.C44_anyone_none",
    "Verif.Sighash.C44_known",
    "Verif.Sighash.C44_one_each",
    "Verif.Sighash.C44_commitments",
    "Verif.Sighash.C44_commitments_v0",
    "Verif.Sighash.C44_upgrade",
    "Verif.Sighash.C44_offline",
    "Verif.Sighash.C44_kernel",
    "Verif.Sighash.C44_kinds_finding"
   ],
   "note": ""
  },
  {
   "property": "C45",
   "status": "proved",
   "theorems": [
    "Verif.Script.C45_destination",
    "Verif.Script.C45_multisig",
    "Verif.Script.C45_quorum",
    "Verif.Script.C45_quorum_can_spend",
    "Verif.Script.C45_sign_no_panic",
    "Verif.Script.C45_sign_mismatch_panics",
    "Verif.Script.C45_duplicate_keys_count_twice"
   ],
   "note": ""
  },
  {
   "property": "C46",
   "status": "proved",
   "theorems": [
    "Verif.Codec.C46_transaction",
    "Verif.Codec.C46_signed_transaction",
    "Verif.Codec.C46_block",
    "Verif.Codec.C46_block_header",
    "Verif.Codec.C46_signed_block_header",
    "Verif.Codec.C46_input",
    "Verif.Codec.C46_output",
    "Verif.Codec.C46_witness",
    "Verif.Codec.C46_destination",
    "Verif.Codec.C46_genesis",
    "Verif.Codec.C46_htlc_spend",
    "Verif.Codec.C46_multisig_challenge",
    "Verif.Codec.C46_prefix_free",
    "Verif.Codec.C46_decode_all",
    "Verif.Codec.C46_signed_or_bare",
    "Verif.Codec.C46_transaction_id",
    "Verif.Codec.C46_block_id",
    "Verif.Codec.C46_multisig_read_back",
    "Verif.Codec.C46_multisig_finding",
    "Verif.Codec.C46_lookahead",
    "Verif.Codec.C46_lookahead_finding"
   ],
   "note": ""
  },
  {
   "property": "C47",
   "status": "proved",
   "theorems": [
    "Verif.FeeRate.C47_points",
    "Verif.FeeRate.C47_last_point",
    "Verif.FeeRate.C47_no_failure",
    "Verif.FeeRate.C47_rate_at"
   ],
   "note": ""
  },
  {
   "property": "C48",
   "status": "proved",
   "theorems": [
    "Verif.Mempool.C48_assembly_succeeds",
    "Verif.Mempool.C48_errors",
    "Verif.Mempool.C48_block",
    "Verif.Mempool.C48_connects",
    "Verif.Mempool.C48_nothing_left_behind",
    "Verif.Mempool.C48_full",
    "Verif.Mempool.C48_best_first",
    "Verif.Mempool.C48_add_tx_error_not_clean",
    "Verif.Mempool.C48_add_tx",
    "Verif.Mempool.C48_given_not_in_order",
    "Verif.Verifier.C48_assembled_block_invalid",
    "Verif.Verifier.C48_verifier_not_atomic",
    "Verif.Verifier.C48_early_failure_leaves_nothing"
   ],
   "note": ""
  },
  {
   "property": "C49",
   "status": "proved",
   "theorems": [
    "Verif.Verifier.C49_disconnect_undoes_connect",
    "Verif.Verifier.C49_disconnect_undoes_connect_chain",
    "Verif.Verifier.C49_reorganize",
    "Verif.Verifier.C49_state_of_chain",
    "Verif.Verifier.C49_same_chain_same_state",
    "Verif.Verifier.C49_tip_can_be_disconnected",
    "Verif.Verifier.C49_nft_cannot_be_disconnected",
    "Verif.Verifier.C49_reconnect_fails"
   ],
   "note": ""
  },
  {
   "property": "C50",
   "status": "proved",
   "theorems": [
    "Verif.Ids.C50_id_made",
    "Verif.Ids.C50_ids_apart",
    "Verif.Ids.C50_token_v0",
    "Verif.Ids.C50_token_versions_agree",
    "Verif.Ids.C50_transaction_id",
    "Verif.Ids.C50_token_v0_finding",
    "Verif.Ids.C50_token_v0_apart"
   ],
   "note": ""
  },
  {
   "property": "C51",
   "status": "proved",
   "theorems": [
    "Verif.Verifier.C51_no_replay",
    "Verif.Verifier.C51_no_double_spend",
    "Verif.Verifier.C51_outputs_have_an_origin",
    "Verif.Verifier.C51_derived_ids_unique",
    "Verif.Verifier.C51_orders_end",
    "Verif.Verifier.C51_connected_chain_is_new",
    "Verif.Verifier.C51_fill_alone_refused",
    "Verif.Verifier.C51_each_check_needed"
   ],
   "note": ""
  },
  {
   "property": "C52",
   "status": "proved",
   "theorems": [
    "Verif.Verifier.C52_block",
    "Verif.Verifier.C52_no_inflation",
    "Verif.Verifier.C52_token_units",
    "Verif.Verifier.C52_token_caps",
    "Verif.Verifier.C52_after_reorganizations",
    "Verif.Verifier.C52_mainnet",
    "Verif.Verifier.C52_distribution_plan"
   ],
   "note": ""
  },
  {
   "property": "C53",
   "status": "proved",
   "theorems": [
    "Verif.Policy.C53_error_meaning",
    "Verif.Policy.C53_accepted_iff",
    "Verif.Policy.C53_htlc_issuance_finding"
   ],
   "note": ""
  },
  {
   "property": "C54",
   "status": "proved",
   "theorems": [
    "Verif.Policy.C54_transaction_error",
    "Verif.Policy.C54_transaction_fee",
    "Verif.Policy.C54_transaction_accepted",
    "Verif.Policy.C54_reward_error",
    "Verif.Policy.C54_reward_accepted"
   ],
   "note": ""
  },
  {
   "property": "C55",
   "status": "proved",
   "theorems": [
    "Verif.Policy.Node.C55_inputs_kept",
    "Verif.Policy.Node.C55_inputs_distinct",
    "Verif.Policy.Node.C55_guards",
    "Verif.Policy.Node.C55_plan",
    "Verif.Policy.Node.C55_value_guards",
    "Verif.Policy.Node.C55_no_replay",
    "Verif.Policy.Node.C55_no_inflation",
    "Verif.Policy.Node.C55_token_caps",
    "Verif.Policy.Node.C55_mainnet"
   ],
   "note": ""
  },
  {
   "property": "C56",
   "status": "proved",
   "theorems": [
    "Verif.Policy.Node.C56_record",
    "Verif.Policy.Node.C56_outputs",
    "Verif.Policy.Node.C56_orders",
    "Verif.Policy.Node.C56_outputs_v0"
   ],
   "note": ""
  },
  {
   "property": "C57",
   "status": "proved",
   "theorems": [
    "Verif.Policy.Node.C57_node_in_range",
    "Verif.Policy.Node.C57_node_rollback",
    "Verif.Policy.Node.C57_node_history",
    "Verif.Policy.Node.C57_mainnet",
    "Verif.Policy.Node.C57_token_caps",
    "Verif.Verifier.C57_in_range",
    "Verif.Verifier.C57_rollback",
    "Verif.Verifier.C57_reorganize",
    "Verif.Verifier.C57_state_of_chain",
    "Verif.Verifier.C57_no_inflation",
    "Verif.Verifier.C57_pool_balances"
   ],
   "note": ""
  },
  {
   "property": "C58",
   "status": "proved",
   "theorems": [
    "Verif.Stake.C58_formula",
    "Verif.Stake.C58_total",
    "Verif.Stake.C58_cap",
    "Verif.Stake.C58_floor",
    "Verif.Stake.C58_full",
    "Verif.Stake.C58_balance",
    "Verif.Stake.C58_pledge",
    "Verif.Stake.C58_split",
    "Verif.Stake.C58_hash",
    "Verif.Stake.C58_chance"
   ],
   "note": ""
  },
  {
   "property": "C59",
   "status": "proved",
   "theorems": [
    "Verif.Stake.C59_decision",
    "Verif.Stake.C59_accepted",
    "Verif.Stake.C59_earliest",
    "Verif.Stake.C59_none",
    "Verif.Stake.C59_cover",
    "Verif.Stake.C59_once",
    "Verif.Stake.C59_jobs",
    "Verif.Stake.C59_start"
   ],
   "note": ""
  },
  {
   "property": "C60",
   "status": "proved",
   "theorems": [
    "Verif.Epoch.C60_sealed",
    "Verif.Epoch.C60_agree",
    "Verif.Epoch.C60_connect",
    "Verif.Epoch.C60_disconnect",
    "Verif.Epoch.C60_clean"
   ],
   "note": ""
  },
  {
   "property": "C61",
   "status": "proved",
   "theorems": [
    "Verif.Epoch.Rnd.C61_epochs",
    "Verif.Epoch.Rnd.C61_equation",
    "Verif.Epoch.Rnd.C61_given",
    "Verif.Epoch.Rnd.C61_agree",
    "Verif.Epoch.Rnd.C61_connect",
    "Verif.Epoch.Rnd.C61_branch",
    "Verif.Epoch.Rnd.C61_branch_connect",
    "Verif.Epoch.Rnd.C61_distance_finding"
   ],
   "note": ""
  },
  {
   "property": "C62",
   "status": "proved",
   "theorems": [
    "Verif.Sync.C62_locator",
    "Verif.Sync.C62_locator_best",
    "Verif.Sync.C62_locator_agree",
    "Verif.Sync.C62_locator_length",
    "Verif.Sync.C62_headers",
    "Verif.Sync.C62_headers_empty",
    "Verif.Sync.C62_fork",
    "Verif.Sync.C62_fork_exists",
    "Verif.Sync.C62_progress",
    "Verif.Sync.C62_announce"
   ],
   "note": ""
  },
  {
   "property": "C63",
   "status": "proved",
   "theorems": [
    "Verif.Sync.C63_no_error",
    "Verif.Sync.C63_terminates",
    "Verif.Sync.C63_synced",
    "Verif.Sync.C63_best",
    "Verif.Sync.C63_switch",
    "Verif.Sync.C63_endless_finding"
   ],
   "note": ""
  },
  {
   "property": "C64",
   "status": "proved",
   "theorems": [
    "Verif.Sync.C64_bounds",
    "Verif.Sync.C64_no_failure",
    "Verif.Sync.C64_messages",
    "Verif.Sync.C64_solicited",
    "Verif.Sync.C64_chain",
    "Verif.Sync.C64_served"
   ],
   "note": ""
  },
  {
   "property": "C65",
   "status": "proved",
   "theorems": [
    "Verif.Select.C65_selection",
    "Verif.Select.C65_nothing",
    "Verif.Select.C65_not_enough",
    "Verif.Select.C65_found",
    "Verif.Select.C65_no_panic",
    "Verif.Select.C65_least_waste",
    "Verif.Select.C65_changeless_found",
    "Verif.Select.C65_draw_fails"
   ],
   "note": ""
  },
  {
   "property": "C66",
   "status": "proved",
   "theorems": [
    "Verif.Send.C66_request",
    "Verif.Send.C66_tokens",
    "Verif.Send.C66_fee",
    "Verif.Send.C66_fee_bound",
    "Verif.Send.C66_rate",
    "Verif.Send.C66_accepted",
    "Verif.Send.C66_surplus"
   ],
   "note": "Random choices are parameters assumed fair (Ctx.Fair). The fee paid is at least the fee told unless the inputs of the request bring surplus coins (C66_surplus is the witness, C66_fee_bound the bound in all cases). C66_accepted assumes that the chain accepts the inputs one by one, at most one order command, and amounts below 2^128."
  },
  {
   "property": "C67",
   "status": "proved",
   "theorems": [
    "Verif.Cache.C67_confirmed",
    "Verif.Cache.C67_once",
    "Verif.Cache.C67_spendable",
    "Verif.Cache.C67_spendable_on_chain",
    "Verif.Cache.C67_restart",
    "Verif.Cache.C67_restart_spendable",
    "Verif.Cache.C67_history",
    "Verif.Cache.C67_history_disputed",
    "Verif.Cache.C67_witness_restart",
    "Verif.Cache.C67_witness_abandon",
    "Verif.Cache.C67_witness_double_spend",
    "Verif.Cache.C67_witness_order"
   ],
   "note": "Run contains the limits as hypotheses: transactions added unconfirmed, marked dead or reloaded are undisputed by confirmed ones (C67_confirmed), no double spending among known transactions (C67_spendable). Witnesses C67_witness_* show that the claims fail beyond them. C67_history and C67_history_disputed are concrete runs."
  },
  {
   "property": "C68",
   "status": "proved",
   "theorems": [
    "Verif.Cache.C68_no_orphans",
    "Verif.Cache.C68_abandon",
    "Verif.Cache.C68_history",
    "Verif.Cache.C68_witness_unloadable",
    "Verif.Cache.C68_witness_stuck",
    "Verif.Cache.C68_witness_freeze",
    "Verif.Cache.C68_witness_reorg",
    "Verif.Cache.C68_witness_orphan",
    "Verif.Cache.C68_witness_undo_order"
   ],
   "note": "For Calm histories (no reorganisation or restart, parents before children). C68_history is a concrete one; C68_witness_* show failures beyond the limits and faults in the handling of nonces and frozen tokens."
  },
  {
   "property": "C69",
   "status": "proved",
   "theorems": [
    "Verif.Orphans.C69_any_order",
    "Verif.Orphans.C69_same_tip",
    "Verif.Orphans.C69_no_panic",
    "Verif.Orphans.C69_answer",
    "Verif.Orphans.C69_pool",
    "Verif.Orphans.C69_witness_small",
    "Verif.Orphans.C69_witness_again",
    "Verif.Orphans.C69_witness_zero",
    "Verif.Orphans.C69_witness_stale"
   ],
   "note": "Acyclic (parents before children) holds because a block contains the hash of its parent. C69_witness_small shows that the bound on the number of blocks is needed, C69_witness_again / _zero / _stale are findings."
  },
  {
   "property": "C70",
   "status": "proved",
   "theorems": [
    "Verif.KeyChain.C70_restore",
    "Verif.KeyChain.C70_seen",
    "Verif.KeyChain.C70_fresh",
    "Verif.KeyChain.C70_issue_iff",
    "Verif.KeyChain.C70_reload",
    "Verif.KeyChain.C70_total",
    "Verif.KeyChain.C70_gapless",
    "Verif.KeyChain.C70_gap_iff",
    "Verif.KeyChain.C70_witness_unconfirmed",
    "Verif.KeyChain.C70_witness_order",
    "Verif.KeyChain.C70_witness_rescan",
    "Verif.KeyChain.C70_witness_staker",
    "Verif.KeyChain.C70_witness_anyone",
    "Verif.KeyChain.C70_witness_zero"
   ],
   "note": "Hypothesis env.Inj: the keys of the wallet have distinct hashes. The C70_witness_* theorems show why the restriction to blocks, the order and the look-ahead are needed; they are findings."
  },
  {
   "property": "C71",
   "status": "proved",
   "theorems": [
    "Verif.WalletSync.C71_follow",
    "Verif.WalletSync.C71_found",
    "Verif.WalletSync.C71_apart",
    "Verif.WalletSync.C71_branch",
    "Verif.WalletSync.C71_abort",
    "Verif.WalletSync.C71_stuck",
    "Verif.WalletSync.C71_wait",
    "Verif.WalletSync.C71_witness_promoted",
    "Verif.WalletSync.C71_witness_hidden",
    "Verif.WalletSync.C71_witness_mixed"
   ],
   "note": "C71_abort and C71_stuck are findings: exact descriptions of the cases in which the synchronisation fails. The fuel of syncOnce bounds the rounds of its loop; length of the chain + 2 is enough."
  },
  {
   "property": "C72",
   "status": "proved",
   "theorems": [
    "Verif.TxOrphans.C72_lookup",
    "Verif.TxOrphans.C72_bounded",
    "Verif.TxOrphans.C72_admit",
    "Verif.TxOrphans.C72_wake",
    "Verif.TxOrphans.C72_disconnect",
    "Verif.TxOrphans.C72_work",
    "Verif.TxOrphans.C72_no_abort",
    "Verif.TxOrphans.C72_witness_abort",
    "Verif.TxOrphans.C72_awake",
    "Verif.TxOrphans.C72_settled",
    "Verif.TxOrphans.C72_drain",
    "Verif.TxOrphans.C72_witness_forgotten",
    "Verif.TxOrphans.C72_witness_copy",
    "Verif.TxOrphans.C72_witness_mined",
    "Verif.TxOrphans.C72_fair"
   ],
   "note": "C72_awake and C72_settled need four restrictions on the events (definition Legal); the witnesses show what happens without them. C72_witness_abort is a finding. The answers of the transaction pool are arguments; what is assumed of them is the definition Honest."
  },
  {
   "property": "C73",
   "status": "proved",
   "theorems": [
    "Verif.TxPool.C73_connects",
    "Verif.TxPool.C73_closed",
    "Verif.TxPool.C73_submit",
    "Verif.TxPool.C73_reorg",
    "Verif.TxPool.C73_reorg_keeps",
    "Verif.TxPool.C73_block"
   ],
   "note": "For the dependencies the mempool tracks (outputs, nonces of delegations and tokens, existence of pools, delegations, tokens, orders). The other checks of the verifier are one predicate of the transaction and the tip, which does not depend on the other transactions in the pool; see the remark in DESIGN.md. C73_reorg_keeps and C73_block have the hypothesis that no limit binds (Roomy); an example shows that their hypotheses can be met."
  },
  {
   "property": "C74",
   "status": "proved",
   "theorems": [
    "Verif.Scanner.C74_reorg",
    "Verif.Scanner.C74_balances",
    "Verif.Scanner.C74_balance_is_unspent",
    "Verif.Scanner.C74_available_utxos",
    "Verif.Scanner.C74_all_utxos",
    "Verif.Scanner.C74_spent_reward_counted",
    "Verif.Scanner.C74_locked_reward_counted",
    "Verif.Scanner.C74_long_lock_aborts",
    "Verif.Scanner.C74_long_lock_stops"
   ],
   "note": "For the in-memory storage. The statement as users would want it (balance = worth of unspent unlocked outputs) fails for outputs of block rewards; the theorems say exactly what the balance is, and three theorems show the failures on valid chains. The validity of chains is a hypothesis, shown to hold of concrete chains by a checker proved sound."
  },
  {
   "property": "C75",
   "status": "proved",
   "theorems": [
    "Verif.PeerDb.C75_never_panics",
    "Verif.PeerDb.C75_table_bounds",
    "Verif.PeerDb.C75_tried_connected",
    "Verif.PeerDb.C75_not_invented",
    "Verif.PeerDb.C75_gossip",
    "Verif.PeerDb.C75_bans",
    "Verif.PeerDb.C75_ban_holds",
    "Verif.PeerDb.C75_ban_ends",
    "Verif.PeerDb.C75_reserved",
    "Verif.PeerDb.C75_anchors",
    "Verif.PeerDb.C75_select",
    "Verif.PeerDb.C75_purge",
    "Verif.PeerDb.C75_patience",
    "Verif.PeerDb.C75_backoff",
    "Verif.PeerDb.C75_restart",
    "Verif.PeerDb.C75_none_stranded",
    "Verif.PeerDb.C75_stranded",
    "Verif.PeerDb.C75_connected_forgotten",
    "Verif.PeerDb.C75_restart_strands",
    "Verif.PeerDb.C75_unreserved_stranded",
    "Verif.PeerDb.C75_ban_shortened"
   ],
   "note": "C75_restart and C75_none_stranded are for nodes without boot and reserved nodes and, the latter, for events about addresses the book knows; C75_connected_forgotten, C75_restart_strands and C75_unreserved_stranded show what happens otherwise. Bans are replaced, also by shorter ones (C75_ban_shortened), which C75_ban_holds excludes."
  },
  {
   "property": "C76",
   "status": "proved",
   "theorems": [
    "Verif.PeerManager.C76_inbound_evict_iff",
    "Verif.PeerManager.C76_inbound_evicted",
    "Verif.PeerManager.C76_inbound_protects",
    "Verif.PeerManager.C76_outbound_evict_iff",
    "Verif.PeerManager.C76_outbound_evicted",
    "Verif.PeerManager.C76_inbound_iff",
    "Verif.PeerManager.C76_flood",
    "Verif.PeerManager.C76_outbound_kept",
    "Verif.PeerManager.C76_discouraged_accepted",
    "Verif.PeerManager.C76_banned_reserved_refused",
    "Verif.PeerManager.C76_feeler_doubles",
    "Verif.PeerManager.C76_never_panics",
    "Verif.PeerManager.C76_connection_limits",
    "Verif.PeerManager.C76_feelers_leave",
    "Verif.PeerManager.C76_diversity",
    "Verif.PeerManager.C76_no_double",
    "Verif.PeerManager.C76_whitelisted",
    "Verif.PeerManager.C76_no_banned_peer",
    "Verif.PeerManager.C76_scores",
    "Verif.PeerManager.C76_misbehaving",
    "Verif.PeerManager.C76_admission",
    "Verif.PeerManager.C76_dialled",
    "Verif.PeerManager.C76_seeks_full",
    "Verif.PeerManager.C76_seeks_block",
    "Verif.PeerManager.C76_reserved_dialled",
    "Verif.PeerManager.C76_anchors_dialled",
    "Verif.PeerManager.C76_connect_iff",
    "Verif.PeerManager.C76_candidates",
    "Verif.PeerManager.C76_dial_ends",
    "Verif.PeerManager.C76_handshake",
    "Verif.PeerManager.C76_anchors_set",
    "Verif.PeerManager.C76_forgotten"
   ],
   "note": "C76_never_panics assumes that the networking backend reports outbound connections and failures only for addresses being dialled (the code panics otherwise). C76_no_double excludes feelers (C76_feeler_doubles) and C76_dialled is about the moment of dialling (C76_discouraged_accepted). The checks of the peer itself (compatibility, services, version) are a Boolean of the event."
  },
  {
   "property": "C77",
   "status": "proved",
   "theorems": [
    "Verif.Wire.C77_received",
    "Verif.Wire.C77_invalid",
    "Verif.Wire.C77_too_large",
    "Verif.Wire.C77_eof",
    "Verif.Wire.C77_stuck",
    "Verif.Wire.C77_cut",
    "Verif.Wire.C77_cut_many",
    "Verif.Wire.C77_pending",
    "Verif.Wire.C77_prompt",
    "Verif.Wire.C77_sent",
    "Verif.Wire.C77_sent_limited",
    "Verif.Wire.C77_transfer",
    "Verif.Wire.C77_message_exact",
    "Verif.Wire.C77_message_kind",
    "Verif.Wire.C77_peers",
    "Verif.Wire.C77_unlimited_finding"
   ],
   "note": "C77_transfer and C77_peers are for limits below 2^32 (the code cuts longer lengths, C77_unlimited_finding). Validity of keys, signatures and UTF-8 within messages is an arbitrary predicate, as in C46."
  },
  {
   "property": "C78",
   "status": "proved",
   "theorems": [
    "Verif.Conn.C78_life",
    "Verif.Conn.C78_dials",
    "Verif.Conn.C78_limit",
    "Verif.Conn.C78_panic",
    "Verif.Conn.C78_stop",
    "Verif.Conn.C78_self",
    "Verif.Conn.C78_disabled",
    "Verif.Conn.C78_disabling",
    "Verif.Conn.C78_ends",
    "Verif.Conn.C78_disconnect",
    "Verif.Conn.C78_lost"
   ],
   "note": "C78_ends is for histories in which no dial succeeds while networking is disabled; C78_lost shows that the code loses a dial otherwise. C78_stop includes a way for remote nodes to stop the backend (see Findings)."
  },
  {
   "property": "C79",
   "status": "proved",
   "theorems": [
    "Verif.Handshake.C79_version",
    "Verif.Handshake.C79_inbound",
    "Verif.Handshake.C79_outbound",
    "Verif.Handshake.C79_agree",
    "Verif.Handshake.C79_blame",
    "Verif.Handshake.C79_no_blame",
    "Verif.Handshake.C79_clocks",
    "Verif.Handshake.C79_sync",
    "Verif.Handshake.C79_notes",
    "Verif.Handshake.C79_categories"
   ],
   "note": "The messages are those of C77; that they arrive unchanged is C77_peers. Times are nanoseconds; the time sent is cut to seconds as in the code."
  },
  {
   "property": "C80",
   "status": "proved",
   "theorems": [
    "Verif.Rolling.C80_remembers",
    "Verif.Rolling.C80_holds",
    "Verif.Rolling.C80_forgets",
    "Verif.Rolling.C80_capacity",
    "Verif.Rolling.C80_fresh",
    "Verif.Rolling.C80_example"
   ],
   "note": "That a single bloom filter reports every item inserted is assumed of the external crate; its other answers are arbitrary."
  },
  {
   "property": "C81",
   "status": "proved",
   "theorems": [
    "Verif.Relay.C81_request",
    "Verif.Relay.C81_accept",
    "Verif.Relay.C81_once",
    "Verif.Relay.C81_limit",
    "Verif.Relay.C81_kept",
    "Verif.Relay.C81_cleared",
    "Verif.Relay.C81_fetch",
    "Verif.Relay.C81_answer",
    "Verif.Relay.C81_asked",
    "Verif.Relay.C81_score",
    "Verif.Relay.C81_credit",
    "Verif.Relay.C81_no_service",
    "Verif.Relay.C81_announce",
    "Verif.Relay.C81_order",
    "Verif.Relay.C81_spaced",
    "Verif.Relay.C81_not_back",
    "Verif.Relay.C81_accepted",
    "Verif.Relay.C81_sessions",
    "Verif.Relay.C81_relay",
    "Verif.Relay.C81_blame",
    "Verif.Relay.C81_event",
    "Verif.Relay.C81_connect",
    "Verif.Relay.C81_remembered",
    "Verif.Relay.C81_forgotten",
    "Verif.Relay.C81_confirmed",
    "Verif.Relay.C81_notified",
    "Verif.Relay.C81_again",
    "Verif.Relay.C81_example_fetch",
    "Verif.Relay.C81_example_announce",
    "Verif.Relay.C81_announced_back",
    "Verif.Relay.C81_example_node",
    "Verif.Relay.C81_punished_twice"
   ],
   "note": "The mempool is the surroundings: every answer is allowed, except that transactions are found under their own ids and the order of announcing is a permutation. The filter is that of C80. C81_announced_back and C81_punished_twice are findings."
  },
  {
   "property": "C82",
   "status": "proved",
   "theorems": [
    "Verif.Bootstrap.C82_roundtrip",
    "Verif.Bootstrap.C82_sound",
    "Verif.Bootstrap.C82_truncated",
    "Verif.Bootstrap.C82_other_chain",
    "Verif.Bootstrap.C82_refused",
    "Verif.Bootstrap.C82_start_unique",
    "Verif.Bootstrap.C82_written",
    "Verif.Bootstrap.C82_disk_full",
    "Verif.Bootstrap.C82_disk_full_finding",
    "Verif.Bootstrap.C82_main_list",
    "Verif.Bootstrap.C82_tree_list",
    "Verif.Bootstrap.C82_export",
    "Verif.Bootstrap.C82_reproduce",
    "Verif.Bootstrap.C82_resume",
    "Verif.Bootstrap.C82_again",
    "Verif.Bootstrap.C82_interrupted",
    "Verif.Bootstrap.C82_stale",
    "Verif.Bootstrap.C82_stale_fails",
    "Verif.Bootstrap.C82_stale_finding",
    "Verif.Bootstrap.C82_reckless"
   ],
   "note": "Blocks are values with an exact codec (C46_block gives one) and the ids they are stored under. C82_disk_full_finding and C82_stale_finding are findings."
  },
  {
   "property": "C83",
   "status": "proved",
   "theorems": [
    "Verif.Address.C83_kinds",
    "Verif.Address.C83_roundtrip",
    "Verif.Address.C83_injective",
    "Verif.Address.C83_strings",
    "Verif.Address.C83_canonical",
    "Verif.Address.C83_malleable",
    "Verif.Address.C83_typo",
    "Verif.Address.C83_capitals",
    "Verif.Address.C83_short",
    "Verif.Address.C83_chains",
    "Verif.Address.C83_form",
    "Verif.Address.C83_json",
    "Verif.Address.C83_typo_destination",
    "Verif.Address.C83_typo_ids"
   ],
   "note": "The external crate bech32 is modelled after BIP 173 and BIP 350. C83_malleable and C83_json are findings."
  },
  {
   "property": "C84",
   "status": "proved",
   "theorems": [
    "Verif.TokenInfo.C84_sound_start",
    "Verif.TokenInfo.C84_sound_issue",
    "Verif.TokenInfo.C84_sound_run",
    "Verif.TokenInfo.C84_prediction",
    "Verif.TokenInfo.C84_offers",
    "Verif.TokenInfo.C84_again",
    "Verif.TokenInfo.C84_not_mine",
    "Verif.TokenInfo.C84_mint_beyond",
    "Verif.TokenInfo.C84_needs_single_commands",
    "Verif.TokenInfo.C84_needs_burning"
   ],
   "note": "The ledger side is the token model of C08-C11 with the one-command rule. C84_needs_single_commands, C84_needs_burning and C84_mint_beyond show that the conditions are needed."
  },
  {
   "property": "C85",
   "status": "proved",
   "theorems": [
    "Verif.Store.C85_transactions",
    "Verif.Store.C85_snapshot",
    "Verif.Store.C85_end_is_final",
    "Verif.Store.C85_typed",
    "Verif.Store.C85_typed_prefix",
    "Verif.Store.C85_typed_order",
    "Verif.Store.C85_dump"
   ],
   "note": "In-memory backend behind the locking adaptor. A call that would wait for the lock is refused in the model. LMDB and SQLite are not modelled."
  },
  {
   "property": "C86",
   "status": "proved",
   "theorems": [
    "Verif.Vault.C86_safe",
    "Verif.Vault.C86_no_panic",
    "Verif.Vault.C86_flags",
    "Verif.Vault.C86_sealed",
    "Verif.Vault.C86_locked",
    "Verif.Vault.C86_needs_root"
   ],
   "note": "The cipher and key derivation are abstract; the laws assumed of them are the structure Sound, met by toy_sound. C86_needs_root shows that the condition about root keys is needed."
  },
  {
   "property": "C87",
   "status": "proved",
   "theorems": [
    "Verif.Intent.C87_message",
    "Verif.Intent.C87_verify",
    "Verif.Intent.C87_one_intent",
    "Verif.Intent.C87_challenge",
    "Verif.Intent.C87_unsigned_inputs",
    "Verif.Intent.C87_components",
    "Verif.Intent.C87_roundtrip",
    "Verif.Intent.C87_can_sign",
    "Verif.Intent.C87_not_a_spend",
    "Verif.Intent.C87_message_is_intent"
   ],
   "note": "C87_roundtrip assumes that encoded signatures decode and that signatures made with a key verify under its public key."
  },
  {
   "property": "C88",
   "status": "proved",
   "theorems": [
    "Verif.Hd.C88_text",
    "Verif.Hd.C88_print",
    "Verif.Hd.C88_valid",
    "Verif.Hd.C88_bytes",
    "Verif.Hd.C88_increment",
    "Verif.Hd.C88_path",
    "Verif.Hd.C88_stepwise",
    "Verif.Hd.C88_public",
    "Verif.Hd.C88_public_only_normal",
    "Verif.Hd.C88_inputs",
    "Verif.Hd.C88_kinds",
    "Verif.Hd.C88_address_key",
    "Verif.Hd.C88_found_key",
    "Verif.Hd.C88_wallet_paths"
   ],
   "note": "Laws assumed of the curve and the serialization of points are the structure Sound, met by toy_sound."
  },
  {
   "property": "C89",
   "status": "proved",
   "theorems": [
    "Verif.Verifier.C89_pools_end",
    "Verif.Verifier.C89_obtain",
    "Verif.Verifier.C89_lifetimes",
    "Verif.Verifier.C89_dead_pool_error",
    "Verif.Slots.C89_balances",
    "Verif.Slots.C89_search",
    "Verif.Slots.C89_cache",
    "Verif.Slots.C89_distinct",
    "Verif.Slots.C89_panics"
   ],
   "note": "Under Lifetimes (each pool exists on an interval of heights), which C89_lifetimes derives for the chains of the ledger model. Hash and target decoding are parameters; C89_panics is a finding: the data collection panics for a pool decommissioned within the range."
  },
  {
   "property": "C90",
   "status": "proved",
   "theorems": [
    "Verif.Size.C90_pay_all",
    "Verif.Size.C90_signature",
    "Verif.Size.C90_raw",
    "Verif.Size.C90_unsupported",
    "Verif.Size.C90_transaction",
    "Verif.Size.C90_estimate",
    "Verif.Size.C90_sweep"
   ],
   "note": "Witnesses with exactly the required number of signatures; multisignatures of at most 32 keys (the limit of the chain configuration). input_signature_size, which picks the destination of an output, is not modelled."
  }
 ]
}