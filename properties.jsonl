{"id": "C01", "title": "Merging accounting data deltas equals applying them one after another", "statement": "Let two layers of pending create/modify/delete changes be recorded on top of a store. If applying the lower layer to a stored value and then the upper layer succeeds, then merging the layers first and applying the merged layer succeeds and gives the same stored value for every key; keys not mentioned in either layer are untouched.", "quantifier": "all key/value stores, all pairs of recorded change sets, all keys", "why_tests_cant": "Layers are built from arbitrary interleavings of create/modify/delete on arbitrary keys; tests only exercise a few hand-picked pairs.", "anchors": ["accounting/src/delta/combine.rs: combine_data_with_delta", "accounting/src/delta/delta_data_collection/mod.rs: DeltaDataCollection::merge_delta_data, combine_delta_data"]}
{"id": "C02", "title": "Undoing a merge of accounting data deltas restores the original contents", "statement": "After a change set is merged into another one, applying the undo object returned by the merge brings back, for every key and every underlying stored value on which the merged set was applicable, the same resulting value as the original set gave before the merge.", "quantifier": "all pairs of recorded change sets whose merge succeeds, all base stores", "why_tests_cant": "The undo must work for every combination of present/absent entries and every value; the space is infinite.", "anchors": ["accounting/src/delta/delta_data_collection/mod.rs: merge_delta_data, undo_merge_delta_data", "accounting/src/delta/delta_data_collection/undo.rs"]}
{"id": "C03", "title": "Signed balance deltas add up exactly and never store a zero", "statement": "Merging a set of signed balance changes into another one yields, for every key, the exact integer sum, or an error when a sum leaves the signed 128-bit range; a key whose sum is zero is not kept; undoing the merge gives back the original set unless a merged-in change is the minimum 128-bit value, which cannot be negated and makes the undo fail; adding a balance delta to an unsigned balance gives the exact integer sum and succeeds exactly when the balance and the sum fit the signed 128-bit range and the sum is not negative.", "quantifier": "all pairs of balance change sets, all balances, all keys", "why_tests_cant": "Overflow and cancellation corner cases occur only for particular values of 128-bit numbers.", "anchors": ["accounting/src/delta/delta_amount_collection.rs: DeltaAmountCollection", "accounting/src/delta/combine.rs: combine_amount_delta", "common/src/primitives/amount/signed.rs"]}
{"id": "C04", "title": "Every staking-accounting operation is exactly reversed by its undo, for any history", "statement": "For every sequence of staking operations (create/decommission pool, increase staker reward, create/delete delegation, delegate, spend from delegation) that succeeds on some state, applying the returned undo records in reverse order succeeds and restores every observable: pool data and balance, delegation data and balance, and every pool share.", "quantifier": "all starting states, all finite operation sequences, all ids and amounts", "why_tests_cant": "Depends on arbitrary interleavings of seven operations on arbitrary ids over arbitrary underlying stores.", "anchors": ["pos-accounting/src/pool/delta/operator_impls.rs", "pos-accounting/src/pool/operations.rs"]}
{"id": "C05", "title": "Reading through pending staking changes equals reading after they are flushed", "statement": "For every store and every pending change set that can be flushed into it, each query (pool balance, pool data, delegation balance, delegation data, a pool share, all shares of a pool with an absent share and a share 0 counted as equal) answered through the pending layer gives the same answer as the same query on the store after the flush; the rollback data returned by the flush restores all queries. Merging a layer into the layer below it preserves all answers too.", "quantifier": "all stores, all pending change sets, all queries", "why_tests_cant": "Must hold for all contents of both layers including keys deleted, re-created or zeroed.", "anchors": ["pos-accounting/src/pool/delta/view_impl.rs", "pos-accounting/src/pool/storage/mod.rs: merge_with_delta, undo_merge_with_delta", "pos-accounting/src/pool/view.rs"]}
{"id": "C06", "title": "Stake bookkeeping stays consistent: a live pool's balance is the owner's stake plus all its delegations", "statement": "Starting from empty accounting, after any sequence of successful staking operations with undos at any point, in which the pool creations that were not undone use distinct ids, each existing pool's balance equals the pool owner's stake (pledge plus rewards) plus the sum of its delegation shares; every share is the balance of an existing delegation of that pool, and every delegation's balance equals its share in its pool, also after the pool was decommissioned.", "quantifier": "all histories of staking operations (with undo interleaved)", "why_tests_cant": "It is an invariant over unbounded histories; a test can only sample some.", "anchors": ["pos-accounting/src/storage/in_memory.rs: check_consistency", "pos-accounting/src/pool/delta/operator_impls.rs"]}
{"id": "C07", "title": "A delegation can never be overspent through a transaction", "statement": "In a transaction the inputs spending from delegations are accepted only if, for each delegation, the sum withdrawn does not exceed the balance visible before the transaction, however the withdrawals are split across inputs.", "quantifier": "all accounting states, all input lists", "why_tests_cant": "Splitting of a withdrawal over any number of inputs and any balances.", "anchors": ["chainstate/constraints-value-accumulator/src/constraints_accumulator.rs: process_input_account", "pos-accounting/src/pool/delta/operator_impls.rs: spend_share_from_delegation_id"]}
{"id": "C08", "title": "Token supply never exceeds its declared cap", "statement": "For a token issued with a fixed total supply, after any history of issue, mint, unmint, lock, freeze, unfreeze, authority and metadata changes (and undo of them), its circulating supply, whenever it can be read, is at most the cap; it can always be read when the cap is below 2^127; the circulating supply always equals total minted minus total unminted.", "quantifier": "all histories of token operations, all tokens and amounts", "why_tests_cant": "Unbounded histories over unbounded amounts.", "anchors": ["tokens-accounting/src/cache.rs: mint_tokens, unmint_tokens", "tokens-accounting/src/data.rs"]}
{"id": "C09", "title": "A locked supply never changes again", "statement": "After a lockable token's supply has been locked, no later sequence of successful token operations changes its circulating supply, and the token stays locked.", "quantifier": "all histories continuing after a successful lock", "why_tests_cant": "Universally quantified over all continuations.", "anchors": ["tokens-accounting/src/cache.rs: lock_circulating_supply, mint_tokens, unmint_tokens", "tokens-accounting/src/data.rs: try_lock"]}
{"id": "C10", "title": "A frozen token can only be unfrozen; an irrevocably frozen token is frozen for ever", "statement": "While a token is frozen, every operation on it other than unfreeze is rejected and its data and supply stay unchanged; if it was frozen as not-unfreezable, unfreeze is rejected too, so no continuation ever changes the token; a token issued as not freezable can never become frozen.", "quantifier": "all histories of token operations", "why_tests_cant": "All continuations and all operations; tests cover single steps.", "anchors": ["tokens-accounting/src/cache.rs: freeze_token, unfreeze_token", "tokens-accounting/src/data.rs: try_freeze, try_unfreeze"]}
{"id": "C11", "title": "Every token operation is exactly reversed by its undo, for any history", "statement": "For every sequence of token operations that succeeds on some state, applying the returned undo records in reverse order succeeds and restores every token's data and circulating supply.", "quantifier": "all starting states and operation sequences", "why_tests_cant": "Arbitrary interleavings over arbitrary underlying stores.", "anchors": ["tokens-accounting/src/cache.rs: undo and all operations", "tokens-accounting/src/operations.rs"]}
{"id": "C12", "title": "Filling an order never pays out more than the agreed price", "statement": "Whenever a fill succeeds, payout * asked <= fill * offered and fill * offered < (payout + 1) * asked, where asked/offered are the order's original amounts (current version) or its remaining amounts (old version); payout and fill never exceed the remaining balances.", "quantifier": "all orders, balances, fill amounts", "why_tests_cant": "Integer division corner cases over 128-bit numbers.", "anchors": ["orders-accounting/src/price_calculation.rs", "orders-accounting/src/cache.rs: fill_order"]}
{"id": "C13", "title": "Order funds are conserved over the whole life of an order", "statement": "Along any history, for each live order, remaining offered balance + total paid out = originally offered, and remaining asked balance + total filled = originally asked; nothing goes negative; conclude removes the order with exactly those remainders, after which the order cannot be filled, frozen or concluded.", "quantifier": "all histories of order operations", "why_tests_cant": "Unbounded number of fills with rounding at each one.", "anchors": ["orders-accounting/src/cache.rs", "orders-accounting/src/data.rs"]}
{"id": "C14", "title": "Every order operation is exactly reversed by its undo, for any history", "statement": "For every sequence of order operations that succeeds on some state, applying the returned undo records in reverse order succeeds and restores every order's data and both balances.", "quantifier": "all starting states and operation sequences", "why_tests_cant": "Arbitrary interleavings over arbitrary stores.", "anchors": ["orders-accounting/src/cache.rs: undo", "orders-accounting/src/operations.rs"]}
{"id": "C15", "title": "A frozen order can never be filled again", "statement": "After an order is frozen every fill is rejected, and freezing cannot be reverted by any operation other than undoing the freeze itself.", "quantifier": "all histories after a successful freeze", "why_tests_cant": "Quantifies over all continuations.", "anchors": ["orders-accounting/src/cache.rs: freeze_order, fill_order", "orders-accounting/src/data.rs: try_freeze"]}
{"id": "C16", "title": "Layered UTXO caches behave like one plain UTXO map", "statement": "For any stack of caches over a database and any sequence of add/spend operations that respects uniqueness of created outpoints, every lookup through the top layer, and every lookup after flushing the layers one by one down to the database, equals the lookup in a plain map on which the same additions and spends were performed.", "quantifier": "all operation sequences, all numbers of layers, all flush points", "why_tests_cant": "The FRESH/DIRTY flag logic has many combinations that only appear in particular interleavings over several layers.", "anchors": ["utxo/src/cache.rs: add_utxo, spend_utxo, batch_write, utxo", "utxo/src/storage/view_impls.rs: batch_write", "utxo/src/utxo_entry.rs"]}
{"id": "C17", "title": "An output can be spent at most once", "statement": "In any sequence of operations on a UTXO cache, a spend of an outpoint succeeds only if the outpoint is currently unspent, and after it the outpoint is reported absent and any further spend fails, in the same layer or after any flush, until it is explicitly restored.", "quantifier": "all operation sequences and flush points", "why_tests_cant": "Unbounded interleavings across layers.", "anchors": ["utxo/src/cache.rs: spend_utxo, batch_write"]}
{"id": "C18", "title": "Disconnecting a transaction from the UTXO set exactly reverses connecting it", "statement": "If a transaction connects to a UTXO view giving an undo object, then disconnecting it with that undo object succeeds and every outpoint lookup is as before; this extends to any block (list of transactions) disconnected in reverse order.", "quantifier": "all UTXO views, all transactions and blocks with fresh transaction ids", "why_tests_cant": "All shapes of transactions, including spending outputs created earlier in the same block.", "anchors": ["utxo/src/cache.rs: connect_transaction, disconnect_transaction, connect_block_transactable, disconnect_block_transactable", "utxo/src/undo.rs"]}
{"id": "C19", "title": "UTXO cache entries never reach a state the implementation forbids", "statement": "No sequence of cache operations and flushes respecting outpoint uniqueness triggers the internal assertions on entry states (a panic would take the node down).", "quantifier": "all operation sequences and layer configurations", "why_tests_cant": "Unbounded interleavings.", "anchors": ["utxo/src/utxo_entry.rs: UtxoEntry::new", "utxo/src/cache.rs: batch_write"]}
{"id": "C20", "title": "A transaction cannot create value", "statement": "If the input accumulator satisfies the output accumulator, then for every currency total output value + left-over fee = total input value; in particular outputs never exceed inputs.", "quantifier": "all accumulators, all currencies, all timelock distributions", "why_tests_cant": "The greedy matching of timelocked outputs ranges over arbitrary multisets.", "anchors": ["chainstate/constraints-value-accumulator/src/constraints_accumulator.rs: satisfy_with", "chainstate/constraints-value-accumulator/src/accumulated_fee.rs"]}
{"id": "C21", "title": "Coins that must stay locked cannot escape their lock", "statement": "If the input accumulator satisfies the output accumulator, then for every lock distance d, the coins from inputs constrained to at least d that are neither left over as constrained change nor sent to outputs locked for at least d are zero: constrained inputs of at least d are at most outputs locked at least d plus constrained left-overs of at least d.", "quantifier": "all accumulators, all lock distances", "why_tests_cant": "Greedy matching over arbitrary multisets of locks.", "anchors": ["chainstate/constraints-value-accumulator/src/constraints_accumulator.rs: satisfy_with"]}
{"id": "C22", "title": "Block reward distribution allocates exactly the reward", "statement": "For both versions of the rule, whenever distribution succeeds the amounts credited to the pool owner and to the delegators sum to exactly the total reward; each delegator receives the floor of the proportional part; the owner receives at least min(cost per block, reward).", "quantifier": "all rewards, pool settings and delegation sets", "why_tests_cant": "Integer rounding over arbitrary numbers of delegators.", "anchors": ["chainstate/tx-verifier/src/transaction_verifier/reward_distribution.rs"]}
{"id": "C23", "title": "Printing an amount and reading it back gives the same amount", "statement": "For every amount and every number of decimals (at most 38 when the amount is zero) the decimal string printed for it parses back to the same amount; every decimal amount prints to a string that parses to the same mantissa and decimals; an accepted string always denotes exactly the resulting amount, digits are never dropped; the signed variants round-trip over their whole range; subtraction of decimal amounts is exact and, within a currency, succeeds exactly when the result is not negative; the strings on which parsing panics are exactly those with a dot followed by 256 digits.", "quantifier": "all 128-bit amounts, all decimal counts, all strings", "why_tests_cant": "2^128 amounts times 256 decimal counts.", "anchors": ["common/src/primitives/amount/mod.rs: into_fixedpoint_str, from_fixedpoint_str", "common/src/primitives/amount/decimal.rs", "common/src/primitives/amount/signed.rs: into_fixedpoint_str, from_fixedpoint_str"]}
{"id": "C24", "title": "Amount arithmetic is exact or refused", "statement": "Every checked operation on unsigned and signed amounts returns the mathematically exact result or reports failure, and fails only when the exact result is not representable (division and remainder also fail for a zero divisor; the signed remainder additionally refuses the pair minimum value and -1); conversion between signed and unsigned succeeds exactly when the value is representable.", "quantifier": "all pairs of 128-bit values", "why_tests_cant": "2^256 pairs.", "anchors": ["common/src/primitives/amount/mod.rs", "common/src/primitives/amount/signed.rs"]}
{"id": "C25", "title": "Compact difficulty encoding is stable", "statement": "Decoding a compact target that was produced by encoding succeeds; encoding a decoded target reproduces the same target value; the encoded value never exceeds the original target and loses less than one part in 2^15.", "quantifier": "all 256-bit targets", "why_tests_cant": "2^256 targets.", "anchors": ["common/src/primitives/compact.rs"]}
{"id": "C26", "title": "Per-thousand ratios are always within range and print/parse faithfully", "statement": "Every constructible per-thousand value (constructor, text, bytes) is at most 1000, decoding rejects out-of-range values, printing as a percentage or decimal and parsing it back returns the same value, and an accepted text denotes exactly the resulting ratio.", "quantifier": "all values and strings", "why_tests_cant": "Any byte input / string can be supplied.", "anchors": ["common/src/primitives/per_thousand.rs"]}
{"id": "C27", "title": "Total coin emission is bounded by the published supply", "statement": "On mainnet the sum of the initial supply and all block subsidies up to any height never exceeds the final supply, reaches it exactly once emission stops, and the block subsidy never increases with height.", "quantifier": "all block heights", "why_tests_cant": "Sum over unbounded heights.", "anchors": ["common/src/chain/config/emission_schedule.rs"]}
{"id": "C28", "title": "Finding an ancestor by skipping returns the right block", "statement": "For every chain of blocks built by the node and every height not above a block, following skip links returns that block's unique ancestor at that height, without panic.", "quantifier": "all block trees, all pairs (block, target height)", "why_tests_cant": "Skip structure depends on binary representation of unbounded heights.", "anchors": ["chainstate/types/src/height_skip.rs: get_skip_height", "chainstate/types/src/ancestor.rs: block_index_ancestor_getter"]}
{"id": "C29", "title": "PoS difficulty adjustment stays in its limits", "statement": "The newly computed target never exceeds the configured limit, differs from the previous target by at most the configured fraction (up to compact rounding and the limit), and the computation never panics.", "quantifier": "all previous targets, block times and configurations", "why_tests_cant": "256-bit targets and arbitrary times.", "anchors": ["consensus/src/pos/target.rs: calculate_new_target"]}
{"id": "C30", "title": "Script evaluation accepts exactly the satisfied conditions", "statement": "Verification of a witness script succeeds iff the script is satisfied in the declarative sense: a leaf holds iff its check passes, and an n-of-k threshold holds iff exactly n of its conditions are declared satisfied and all of those hold; it terminates and never panics for scripts built by the constructors.", "quantifier": "all scripts of any depth and width, all leaf check outcomes", "why_tests_cant": "Unbounded nesting.", "anchors": ["mintscript/src/script/verify.rs: WitnessScript::verify", "mintscript/src/script/mod.rs: Threshold::collect_satisfied"]}
{"id": "C31", "title": "A satisfied time lock stays satisfied", "statement": "If an output's lock permits spending at some height and time, it permits spending at any later height and time; and the lock permits spending exactly when the stated height/time/distance has been reached.", "quantifier": "all locks, heights, times", "why_tests_cant": "Infinite domain with overflow corner cases.", "anchors": ["mintscript/src/checker/timelock.rs: check_timelock"]}
{"id": "C32", "title": "Account nonces are consumed strictly in order and cannot be replayed", "statement": "For any history of connected and disconnected (last-first) transactions, spends from an account carry nonces 0,1,2,... in order, a repeated or skipped nonce is rejected, and disconnecting restores the expected nonce.", "quantifier": "all histories of spends/unspends over any number of accounts and verifier layers", "why_tests_cant": "Unbounded histories.", "anchors": ["chainstate/tx-verifier/src/transaction_verifier/mod.rs: spend_input_from_account, unspend_input_from_account", "chainstate/tx-verifier/src/transaction_verifier/hierarchy.rs: get_account_nonce_count"]}
{"id": "C33", "title": "Fee computations round in the node's favour and never under-charge", "statement": "The minimum fee computed from a fee rate and size is the ceiling of rate*size/1000, is monotone in both, and a transaction paying it has a computed fee rate of at least the requested rate minus rounding.", "quantifier": "all fee rates and sizes", "why_tests_cant": "Large numeric domain with overflow.", "anchors": ["mempool/src/pool/feerate.rs: from_total_tx_fee, compute_fee"]}
{"id": "C34", "title": "Mempool bookkeeping of relatives is exact", "statement": "After any sequence of additions of admissible transactions and of evictions (dropping with descendants, expiry, trimming): no two transactions in the pool consume the same output or nonce; parent and child links are exactly the direct dependencies; each entry's counters (count, fees, size) with descendants and with ancestors equal the totals over its actual descendants and ancestors; every group of related transactions respects the cluster limits. Dropping removes exactly the descendants, children first; expiry leaves exactly the transactions without an expired ancestor; trimming ends within the limit; none of it panics.", "quantifier": "all histories of additions and removals", "why_tests_cant": "Unbounded histories over arbitrary dependency graphs.", "anchors": ["mempool/src/pool/tx_pool/store/mod.rs: add_tx_entry, remove_tx, drop_tx_and_descendants", "mempool/src/pool/dependency.rs", "mempool/src/pool/tx_pool/mod.rs: remove_expired_transactions, trim"]}
{"id": "C35", "title": "Block status flags are independent", "statement": "Setting the validation stage or any failure flag of a block changes only that field as seen by all queries; clearing failure flags keeps the stage; a block is OK iff no failure flag is set.", "quantifier": "all 64-bit status words", "why_tests_cant": "2^64 states.", "anchors": ["chainstate/types/src/block_status.rs"]}
{"id": "C36", "title": "The node follows the chain with the most trust and block processing is all-or-nothing", "statement": "After any sequence of submitted, invalidated and reset blocks the tip has maximal chain trust among the known chains that are not marked invalid and fork off above the reorganization limit; the stored chain state is the one obtained by connecting the main chain from genesis; the height index lists exactly the main chain; the main chain up to the limit never changes. A block that fails leaves the active chain, heights index, stored blocks and chain state exactly as before, even when the failure happens in the middle of a reorganisation or database transactions fail, and only blocks that cannot be connected lose their validity. Nodes that know the same blocks agree.", "quantifier": "all block trees, all sequences of calls, all failing blocks, all failures of database transactions", "why_tests_cant": "Arrival orders and crash points are unbounded.", "anchors": ["chainstate/src/detail/mod.rs: attempt_to_process_block, integrate_block, with_rw_tx", "chainstate/src/detail/chainstateref/mod.rs: reorganize, activate_best_chain, connect_tip, disconnect_tip"]}
{"id": "C37", "title": "Reading through pending order changes equals reading after they are flushed", "statement": "For every order database and every history of order operations performed on a cache over it, flushing the cache into the database succeeds without panic, and afterwards the database answers every query (order data, remaining ask, remaining give) exactly as the cache did; merging one pending layer into the layer below never changes any answer.", "quantifier": "all databases in a consistent state, all operation histories, all queries, all stacks of layers", "why_tests_cant": "The property ranges over all histories and all intermediate states of signed deltas; a test fixes one history.", "anchors": ["orders-accounting/src/storage/db.rs merge_with_delta", "orders-accounting/src/cache.rs OrdersAccountingCache", "orders-accounting/src/data.rs OrdersAccountingDeltaData::merge_with_delta"]}
{"id": "C38", "title": "Reading through pending token changes equals reading after they are flushed", "statement": "For every token database and every history of token operations (with undo) on a cache over it after which all supplies can still be read, the flush into the database succeeds and the database then answers every query (token data, circulating supply) exactly as the cache did; whenever any flush succeeds the answers are unchanged; merging one pending layer into the layer below changes no answer.", "quantifier": "all databases, all operation histories with undo, all queries, all layers", "why_tests_cant": "Ranges over all histories and all 128-bit supplies; a test fixes one history.", "anchors": ["tokens-accounting/src/storage/db.rs: TokensAccountingDB::merge_with_delta", "tokens-accounting/src/cache.rs: TokensAccountingCache", "tokens-accounting/src/data.rs: TokensAccountingDeltaData::merge_with_delta"]}
{"id": "C39", "title": "Fixed-width big integers compute exactly", "statement": "For the 128-, 256- and 512-bit unsigned integers (any number of words), checked addition, subtraction, multiplication, division and remainder return the mathematical result exactly when it fits (and exists) and nothing otherwise; comparison is the order of numbers; shifts by any distance multiply/divide by powers of two within the width; the bit length is the least sufficient one; byte strings in both orders are the base-256 digits and round trip; conversions keep the number and fail exactly when it does not fit; none of the internal assertions or additions can panic.", "quantifier": "all values of the types, all shift distances, all byte strings", "why_tests_cant": "2^512 operand pairs; carry chains and word-boundary cases are rare", "anchors": ["common/src/uint/impls.rs: construct_uint!, div_rem, widening_mul, widening_mul_u64, unchecked_sub, Shl, Shr, Ord", "common/src/uint/endian.rs"]}
{"id": "C40", "title": "The median time of the past never goes back along a chain", "statement": "For every tree of blocks built by the node, the median time of every known block's past can be computed without panic, is one of the last at most eleven timestamps with at least half of them on either side, and never decreases from a block to its descendants among the blocks that passed their checks; hence no such block is dated before the median time of any of its ancestors.", "quantifier": "all block trees reachable by adding checked blocks, storing indices of failed ones and deleting blocks; all pairs of a checked block and an ancestor", "why_tests_cant": "All block trees with arbitrary non-monotone timestamps; monotonicity is an inductive fact over chain length", "anchors": ["chainstate/src/detail/median_time.rs: calculate_median_time_past", "chainstate/src/detail/chainstateref/mod.rs: check_block_index_header, create_block_index_for_new_block"]}
{"id": "C41", "title": "Proof of work targets change at most by the factor four", "statement": "At a retarget the new proof of work target is the old one scaled by the time of the last 2016 blocks (kept within a quarter and four times the wanted time), never above the limit; between retargets it is unchanged (or minimal difficulty after a stall where allowed); a block is accepted only with exactly the required target and a hash not above it; the computation does not panic unless the last block is dated before the first of the period, which acceptable chains can bring about.", "quantifier": "all block trees, timestamps, targets and limits", "why_tests_cant": "256-bit targets, arbitrary timestamps over thousands of blocks; the panicking chain has more than 4000 blocks", "anchors": ["consensus/src/pow/work.rs: check_pow_consensus, get_work_required, actual_timespan", "consensus/src/pow/helpers.rs: calculate_new_target, get_starting_block_time"]}
{"id": "C42", "title": "The upgrade in force at a height is the latest one at or below it", "statement": "For every list of upgrades in any order, initialisation succeeds iff there is one at height zero; then at every height the upgrade in force exists and is the one with the greatest height not above it; between upgrades it does not change.", "quantifier": "all lists of upgrades, all heights", "why_tests_cant": "unbounded lists and heights", "anchors": ["common/src/chain/upgrades/netupgrade.rs: NetUpgrades::initialize, version_at_height", "common/src/chain/upgrades/consensus_upgrade.rs: consensus_status"]}
{"id": "C43", "title": "An input can be spent only by whoever the output, account or order names, under its locks", "statement": "The input check of a transaction succeeds iff every input satisfies the condition attached to what it spends: the recipient's authorisation for transfers and NFTs, additionally an expired lock for locked transfers, the secret and the spend key or the expired refund lock and the refund key for HTLCs, the decommission key for pool outputs, the spend key of a delegation, the authority of a token, the conclude key of an order; burns, deposits, delegations and issuances can never be spent. A block reward input must be a stake output authorised by its staker. The mempool's cheaper re-check of locks is implied by the full check, and a transaction that passed the full check at one tip and the lock re-check at another passes the full check at the other.", "quantifier": "all transactions, outputs, witnesses, accounting states, heights and times, for any signature and hash functions", "why_tests_cant": "Universally quantified over all combinations of output kinds, witnesses and chain states.", "anchors": ["mintscript/src/translate.rs: TranslateInput", "chainstate/tx-verifier/src/transaction_verifier/input_check/mod.rs: verify_full, verify_timelocks"]}
{"id": "C45", "title": "A witness authorises a destination exactly as specified, and any quorum of a multisignature can spend", "statement": "A witness is accepted for a destination iff it carries a valid signature under the key (or a key with the given hash), or is a multisignature whose challenge has the committed hash and which carries exactly the required number of signatures, each valid under the key at its index; 'anyone can spend' requires that there is no signature and script hashes are never spendable. An accepted m-of-n spend shows m different key positions; conversely the owners of any m positions, signing one after another in any order, always end with an accepted spend and signing never aborts.", "quantifier": "all destinations, witnesses, challenges, quorums and signing orders, for any signature scheme whose signatures verify", "why_tests_cant": "All subsets and orders of signers, all malformed partial spends.", "anchors": ["common/src/chain/transaction/signature/mod.rs: verify_signature", "common/src/chain/transaction/signature/inputsig/standard_signature.rs: verify_signature", "common/src/chain/transaction/signature/inputsig/classical_multisig/authorize_classical_multisig.rs: verify_classical_multisig_spending, sign_classical_multisig_spending", "common/src/chain/transaction/signature/inputsig/classical_multisig/multisig_partial_signature.rs", "common/src/chain/transaction/output/classic_multisig.rs: is_valid"]}
{"id": "C47", "title": "Fee estimates are monotone and never below the acceptance minimum", "statement": "The fee rate points reported to wallets have non-decreasing positions and non-increasing rates, every rate lies between the current acceptance minimum and the best score in the pool, the last point shows the minimum itself, and the computation cannot fail when best score times pool size fits 128 bits. The single estimate for a depth in megabytes is never below the minimum and never rises with depth.", "quantifier": "all pools (any number of transactions, sizes and scores), all numbers of points, all minimum rates", "why_tests_cant": "Piecewise interpolation with floor division over arbitrary pools; tests check a few curves.", "anchors": ["mempool/src/pool/tx_pool/feerate_points.rs: linear_interpolation, find_interpolated_value, generate_equidistant_span", "mempool/src/pool/tx_pool/mod.rs: get_fee_rate_impl, get_fee_rate_points_impl"]}
{"id": "C48", "title": "Block assembly selects a connectable, parents-first, best-paying set of mempool transactions", "statement": "Collecting transactions for a block never panics or loops and fails only if the transactions already chosen do not connect or a given id is not in the pool. What it appends are pool transactions that were asked for and are past their time lock, none twice, each after all its parents; fees and sizes are exact sums and the size does not exceed the target. If a refused transaction leaves the verifier unchanged the result connects in that order, nothing is left behind except locked or refused transactions and their descendants (or because the block is full), and no available transaction pays a higher ancestor rate than the one chosen.", "quantifier": "all pools reachable by any history, all verifiers, all time lock outcomes, all accumulators, all lists of given ids, both fill policies", "why_tests_cant": "The queue, counters and heap interact over arbitrary dependency graphs and arbitrary verifier refusals; tests run a few graphs.", "anchors": ["mempool/src/pool/tx_pool/collect_txs.rs: collect_txs", "mempool/src/tx_accumulator/mod.rs: DefaultTxAccumulator", "utils/src/graph_traversals.rs: dag_depth_postorder_multiroot"]}
{"id": "C49", "title": "Disconnecting blocks restores the whole ledger; the ledger is a function of the chain", "statement": "Connecting a new block to a sane stored state and disconnecting it again succeeds and gives back exactly the stored state from before: UTXO set, pools, delegations, tokens, orders, account nonces, NFT registry and all undo data. The same holds for any number of blocks, so a reorganisation ends exactly as if the new branch had been followed from the fork directly, the tip of a connected chain can always be disconnected, and after any history of connecting and disconnecting the stored state depends only on the final chain.", "quantifier": "all sane stored states, all blocks (any transactions with any mix of inputs and outputs, any reward), all chains and all histories of connects and tip disconnects, all outcomes of the read-only checks; ids are assumed distinct and balances in range", "why_tests_cant": "Quantifies over all combinations of operations inside and across transactions and blocks and over unbounded histories of reorganisations; tests exercise single operations and a few random chains.", "anchors": ["chainstate/tx-verifier/src/transaction_verifier/mod.rs: connect_transaction, disconnect_transaction, connect_block_reward, disconnect_block_reward", "chainstate/tx-verifier/src/transaction_verifier/flush.rs: flush_to_storage", "chainstate/tx-verifier/src/transaction_verifier/utxos_undo_cache", "chainstate/tx-verifier/src/transaction_verifier/accounting_undo_cache", "chainstate/tx-verifier/src/transaction_verifier/token_issuance_cache.rs", "chainstate/src/detail/tx_verification_strategy/default_strategy.rs: connect_block, disconnect_block", "chainstate/src/detail/chainstateref/mod.rs: connect_transactions, disconnect_transactions, reorganize"]}
{"id": "C46", "title": "The binary form of transactions and blocks is exact", "statement": "Every transaction, signed transaction, block header, block, input, output, witness, destination and genesis block is read back unchanged from its binary form whatever bytes follow it, and any byte string that is accepted as such an object is the one binary form of the object read: longer forms of integers, unknown variants, surplus bytes and a wrong number of witnesses are refused. So no form is a prefix of another, a signed transaction is never taken for a bare one, and two transactions with one identifier (or two blocks with one identifier and different headers) give a collision of the hash function. Signature sets of multisig spends are read back but are not unique: anybody can rewrite them into other bytes with the same meaning. Looking ahead at the version byte does not change what is delivered.", "quantifier": "all values of the types (all integers of the given widths, vectors of up to 2^32-1 elements, arbitrary nesting), all byte strings given to the decoder, all sequences of read requests", "why_tests_cant": "Random round trip tests sample values of the encoder's image; that no other byte string is accepted is a statement about all byte strings, and is what makes identifiers, merkle roots and stored keys non-malleable.", "anchors": ["common/src/chain/transaction/mod.rs: Transaction", "common/src/chain/transaction/transaction_v1.rs: TransactionV1", "common/src/chain/transaction/signed_transaction.rs: SignedTransaction::decode", "common/src/chain/transaction/output/mod.rs: TxOutput, Destination", "common/src/chain/transaction/input.rs: TxInput", "common/src/chain/block/block_v1.rs: BlockV1", "common/src/chain/block/block_header.rs: BlockHeader", "common/src/chain/block/consensus_data.rs: ConsensusData", "common/src/chain/transaction/signature/inputsig/standard_signature.rs: StandardInputSignature::decode", "serialization/tagged/src/derive_support.rs: Peekable", "serialization/src/extras/non_empty_vec.rs: DataOrNoVec", "common/src/chain/transaction/signature/inputsig/classical_multisig/authorize_classical_multisig.rs: AuthorizedClassicalMultisigSpend"]}
{"id": "C44", "title": "A signature binds exactly what its mode says", "statement": "The message signed for an input exists exactly when the input exists, there is one commitment per input and, in the mode signing the output beside the input, that output exists. Two transactions (or two block rewards) have the same message exactly when mode, version, flags, the covered inputs with their commitments and the covered outputs are the same; in the usual mode that means the same transaction and the same worth of all inputs. Commitments can be made exactly when everything about the inputs is known, in both versions; two states of the chain give the same commitments exactly when they agree on the spent outputs, the balance of a pool whose reward position is spent, the initial amounts of filled orders and all amounts of concluded ones; the first version only covers the spent outputs. So whoever signs offline with a wrong idea of an amount makes no valid signature.", "quantifier": "all transactions and block rewards, all commitments, modes, positions, chain states and both commitment versions, any hash function", "why_tests_cant": "Binding is injectivity of a byte string built from variable length parts, and independence of the rest ranges over all pairs of transactions; tests only compare a few changed fields of sample transactions.", "anchors": ["common/src/chain/transaction/signature/sighash/mod.rs: stream_signature_hash, signature_hash", "common/src/chain/transaction/signature/sighash/hashable.rs: SignatureHashableElement, SignatureHashableInputs", "common/src/chain/transaction/signature/sighash/sighashtype.rs: SigHashType", "common/src/chain/transaction/signature/sighash/input_commitments/mod.rs: make_sighash_input_commitments_for_transaction_inputs, make_sighash_input_commitments_for_kernel_inputs"]}
{"id": "C51", "title": "Nothing happens twice on a chain", "statement": "On every chain that can be connected, no transaction appears twice, no output is spent twice (by transactions or block rewards), everything spent or unspent was there at the start or was created by a transaction or reward of the chain, ids derived from the first spent output of a transaction never repeat, a concluded order never returns and a frozen one never thaws. This rests on transactions with nothing but order fills being refused, which in turn needs the rule of at most one command per transaction and the rule that an order exchanges different currencies.", "quantifier": "all stored states without orders, all lists of blocks with all their transactions and rewards, all choices of the read-only checks that have at least these guarantees: inputs not empty, at most one command, inputs that add up, orders between different currencies", "why_tests_cant": "A repetition can be separated from the original by arbitrarily many blocks that freeze, fill, conclude and create orders and use nonces; that every transaction consumes something that never comes back is an invariant over unboundedly long histories.", "anchors": ["chainstate/tx-verifier/src/transaction_verifier/mod.rs: connect_transaction, connect_block, check_and_update_nonce", "chainstate/tx-verifier/src/transaction_verifier/check_transaction.rs: check_order_inputs_outputs (uniqueness remark)", "chainstate/tx-verifier/src/transaction_verifier/input_output_policy/purposes_check.rs: check_tx_inputs_outputs_purposes", "chainstate/constraints-value-accumulator/src/constraints_accumulator.rs: from_inputs", "utxo/src/cache.rs: connect_transaction, connect_block_transactable", "orders-accounting/src/cache.rs"]}
{"id": "C50", "title": "Ids of pools, delegations, orders, tokens and transactions identify them", "statement": "The id of a new pool, delegation, order or token can be made exactly if the transaction spends an output, and depends on nothing but the first one spent. Two such ids are equal only if they are of the same kind and come from the same first spent output, unless the two different byte strings hashed for them have the same hash; likewise two transactions with the same id are the same up to signatures. Under the first rules for token ids they are made from the first input of whatever kind: equal ids mean equal first inputs, and they are apart from ids of other kinds unless the first input takes from a delegation, in which case the very same bytes can be hashed for a token and an order.", "quantifier": "all hash functions, all lists of well-formed inputs, all pairs of kinds, all pairs of transactions", "why_tests_cant": "The bytes of every pair of inputs and kinds would have to be compared; the tests compare ids made from the same input only.", "anchors": ["common/src/chain/make_id.rs: make_pool_id, make_delegation_id, make_order_id, make_token_id_with_version, from_utxo, from_tx_input", "common/src/chain/transaction/input.rs: utxo_outpoint", "common/src/chain/transaction/transaction_v1.rs: get_id"]}
{"id": "C52", "title": "Coins and tokens do not come from nowhere", "statement": "For every block that is connected, and every currency: what the ledger holds afterwards (unspent outputs, pledges and rewards of pools, balances of delegations, funds of orders), what the transactions of the block destroyed (burned, or charged for issuing and changing tokens) and what they left as fees add up to what the ledger held before, what was minted or issued as an NFT, and the reward of the block. The reward is in coins only and never exceeds the fees that can be paid out and the subsidy of the height; when staking it is exactly that. So after any chain of blocks, and any history of reorganizations, the coins in existence are at most those at the start plus the subsidies of the blocks, less everything destroyed; on mainnet never more than 599,990,800. The units of a token in existence never exceed its recorded supply, hence never its fixed cap, and an NFT exists at most once.", "quantifier": "all well-formed stored states, all blocks and chains of blocks that connect, all reorganization histories, all currencies, all configurations and read-only checks that keep the stated guarantees", "why_tests_cant": "The total over a whole ledger is not computed anywhere in the code, and the claim is about every sequence of transactions of all kinds; tests look at balances in chosen short scenarios.", "anchors": ["chainstate/tx-verifier/src/transaction_verifier/mod.rs: connect_transaction, connect_block_reward, distribute_pos_reward", "chainstate/tx-verifier/src/transaction_verifier/input_output_policy/mod.rs: check_tx_inputs_outputs_policy, check_reward_inputs_outputs_policy", "chainstate/src/detail/tx_verification_strategy/default_strategy.rs: connect_block", "chainstate/constraints-value-accumulator/src/constraints_accumulator.rs: ConstrainedValueAccumulator", "common/src/chain/config/emission_schedule.rs"]}
{"id": "C53", "title": "The stateless transaction check refuses exactly the malformed transactions, for the reason it names", "statement": "The check of a transaction that needs no state accepts a transaction exactly if none of its named faults is present: the encoding is not too large; there are inputs, all different, as many as witnesses; no deprecated token data once tokens of version 1 are in force; at most one output issues a token; commands and outputs of features (changing the metadata URI, HTLC, orders of either version) occur only while the feature is in force; tickers, names, descriptions, URIs, decimals and media hashes of issued tokens are within their limits and alphabets; data deposits and unsigned data are within their size; no order is filled with nothing; no order is between equal currencies. And whenever it refuses, the fault it names is present. The limit of one issuance does not see deprecated token issuance inside HTLC outputs, which is possible only under rules where HTLCs are in force before tokens of version 1.", "quantifier": "all signed transactions, all limits and all combinations of the rules in force, all ways of telling letters and digits from other characters", "why_tests_cant": "The check is a composition of some twenty conditions with lengths and alphabets as parameters; tests try single faults with chosen values and do not show that nothing else is refused or accepted.", "anchors": ["chainstate/tx-verifier/src/transaction_verifier/check_transaction.rs: check_transaction", "chainstate/tx-verifier/src/transaction_verifier/tokens_check/mod.rs: check_tokens_issuance, check_nft_issuance_data", "common/src/chain/transaction/output/output_value.rs: OutputValue", "common/src/chain/tokens/tokens_utils.rs: get_tokens_issuance_count"]}
{"id": "C54", "title": "The input/output policy accepts exactly the allowed combinations of inputs and outputs", "statement": "A transaction passes the policy exactly if: every output it spends is unspent and of a kind that can be spent (transfer, locked transfer, pool creation, staking output, NFT, HTLC); at most one input is a command to a token or an order; no output is a staking output; at most one pool, one delegation and one order is created; under the first token rules, if a token is issued, at least the issuance fee is burned; inputs are worth the outputs in every currency, with time locks respected; and, once the rule is in force, no output moves zero units of a token. The fee is what the inputs are worth beyond the outputs. A block reward passes exactly if, with inputs, it spends one output with the stake of a pool and creates one staking output of the same pool (and, once the rule is in force, the same staker), and without inputs, all outputs are time-locked transfers worth no more than the fees and the subsidy. Whenever the policy refuses, the fault it names is present.", "quantifier": "all transactions and block rewards, all states of outputs, pools, tokens and orders, all fees of the configuration, all combinations of the rules in force", "why_tests_cant": "The rules are about lists of any length with twelve kinds of outputs and nine kinds of commands; the tests of the policy enumerate small combinations of kinds.", "anchors": ["chainstate/tx-verifier/src/transaction_verifier/input_output_policy/mod.rs: check_tx_inputs_outputs_policy, check_reward_inputs_outputs_policy, check_issuance_fee_burn_v0, check_zero_token_transfers", "chainstate/tx-verifier/src/transaction_verifier/input_output_policy/purposes_check.rs: check_tx_inputs_outputs_purposes, check_reward_inputs_outputs_purposes"]}
{"id": "C55", "title": "A chain accepted by the node's own checks has no replays, no double spends and no inflation", "statement": "Take any node whose read-only checks refuse whatever check_transaction, the input/output policy, the frozen-token check, the pool checks and the block reward checks refuse (it may refuse more). On every chain of blocks of encodable transactions that it connects from a genesis state, no transaction occurs twice, no output is spent twice, no id of a pool, delegation, order or token is made twice (unless two of the byte strings hashed for exactly these transactions collide), the coins at the end plus those destroyed are at most the coins at the start plus the subsidies of the blocks, a token with a fixed supply never has more units than that, and with the mainnet subsidies the coins never exceed 599,990,800. The distribution of a staking reward is the plan that is accounted for.", "quantifier": "all nodes with checks at least as strict as the code's, all hash functions, all chains of any number of blocks with any encodable transactions and rewards, all configurations of fees, heights and rules", "why_tests_cant": "The guarantee spans the stateless checks, the policy, the accounting of four kinds of accounts and the UTXO set over whole chains; tests connect a few blocks with chosen transactions and never all of the checks against all histories.", "anchors": ["chainstate/tx-verifier/src/transaction_verifier/mod.rs: connect_transaction, connect_block_reward, check_operations_with_frozen_tokens", "chainstate/tx-verifier/src/transaction_verifier/check_transaction.rs: check_transaction", "chainstate/tx-verifier/src/transaction_verifier/input_output_policy/mod.rs: check_tx_inputs_outputs_policy, check_reward_inputs_outputs_policy", "chainstate/tx-verifier/src/transaction_verifier/tx_verifier_strategy/default_strategy.rs: connect_block", "chainstate/tx-verifier/src/transaction_verifier/reward_distribution.rs: distribute_pos_reward"]}
{"id": "C57", "title": "No balance can overflow or go below zero while a chain is connected", "statement": "Take a node that refuses whatever its own checks (transaction check, input/output policy, frozen tokens, pools, rewards) refuse, and a genesis state without delegations whose staking tables agree. If the coins at the start and the subsidies of the blocks are together below 2^126 atoms, then while any chain is connected no balance of a pool, delegation, share, order or token supply ever leaves its range, not even between two operations inside one transaction; every connected chain can be disconnected again and gives back exactly the state before; the stored state is a function of the chain after any history of connects and disconnects; and each pool always holds exactly its owner's pledge and rewards plus the balances of the delegations to it. With the mainnet subsidies and at most the initial supply at the start the bound is always met, so there all of this holds unconditionally, together with the limit of 599,990,800 coins.", "quantifier": "all nodes with checks at least as strict as the code's, all chains of any number of blocks with any encodable transactions and rewards, all histories of connecting and disconnecting; hash collisions among the ids made by these transactions excluded", "why_tests_cant": "Whether some sequence of deposits, rewards, withdrawals, decommissions and mints can push an intermediate sum out of the signed 128-bit deltas depends on whole histories, including pools that were closed but can still be delegated to; tests see only small amounts and short histories.", "anchors": ["chainstate/tx-verifier/src/transaction_verifier/mod.rs: connect_transaction, connect_pos_accounting_outputs, connect_block_reward", "chainstate/tx-verifier/src/transaction_verifier/pos_accounting_delta_adapter.rs", "pos-accounting/src/pool/operations.rs", "accounting/src/delta/delta_amount_collection.rs: merge_delta_amounts", "chainstate/constraints-value-accumulator/src/constraints_accumulator.rs: from_inputs", "common/src/chain/config/emission_schedule.rs: block_subsidy"]}
{"id": "C56", "title": "Nothing of a frozen token moves", "statement": "Take a node that refuses whatever its own checks refuse, and a chain after whose first part a token is frozen. As long as no later block unfreezes it (or for ever, if it was frozen without the possibility to unfreeze it): everything recorded about the token stays as it is, its supply included; exactly the same unspent outputs hold units of it, none is spent and none is made; no new order trades it; and the orders that do keep their balances, nobody can fill or conclude them (they can themselves be frozen). Block rewards can not be used to get around this. With the first version of the check, in force on mainnet below height 254740, everything holds except that outputs holding units of the token can be spent and their units lost; they can not get anywhere else.", "quantifier": "all nodes with checks at least as strict as the code's, all chains of any number of blocks with any encodable transactions and rewards, all tokens and all points of time at which they are frozen; hash collisions among the ids made by these transactions excluded", "why_tests_cant": "A single way around the freeze, by any combination of input kinds, output kinds, orders, commands and rewards over any number of blocks, defeats it; tests only try the known ones one at a time.", "anchors": ["/repo/chainstate/tx-verifier/src/transaction_verifier/mod.rs: check_operations_with_frozen_tokens", "/repo/chainstate/tx-verifier/src/transaction_verifier/mod.rs: connect_tokens_outputs", "/repo/tokens-accounting/src/operations.rs", "/repo/orders-accounting/src/cache.rs", "/repo/chainstate/tx-verifier/src/transaction_verifier/input_output_policy/mod.rs: check_reward_inputs_outputs_policy"]}
{"id": "C58", "title": "The weight of a staking pool follows the published formula, is capped at a thousandth of the supply, and splitting a pool does not pay", "statement": "The effective balance with which a pool enters the proof-of-stake lottery is the published formula (sigma + s*a*((sigma - s*(z-sigma)/z)/z))/(a+1) rounded up, with balance and pledge capped at z = supply/1000; the computation succeeds for every pool with pledge <= balance < supply and never overflows on any supply up to 1000*2^75 atoms. It never exceeds the balance nor a thousandth of the supply, is at least balance/1.075375728 below the cap, equals the cap for a pool pledging the cap, grows with the balance, grows with the pledge up to the documented peak z*sigma/(2(z-sigma)) and falls after it. Splitting a pool not above the cap into any number of pools gains less than one atom per additional pool. A block hash wins exactly if it is at most target times this weight; the check never panics, and more balance or an easier target never turns a win into a loss.", "quantifier": "all pledges, balances, supplies, hashes and 256-bit targets, all partitions of a pool", "why_tests_cant": "The formula is non-linear in three 128-bit amounts, evaluated with truncated 256-bit arithmetic; overflow, monotonicity and super-additivity range over all amounts and all ways to split a pool, and tests compare a few random points with floating point.", "anchors": ["consensus/src/pos/effective_pool_balance.rs: effective_pool_balance, effective_pool_balance_impl", "consensus/src/pos/hash_check.rs: check_pos_hash, check_pos_hash_v0, check_pos_hash_v1"]}
{"id": "C59", "title": "A staked block is accepted exactly when it wins its slot for its pool, and the producer finds the earliest winning slot without skipping or repeating one", "statement": "The proof-of-stake check of a header passes exactly if: the header is later than its parent, spends exactly one kernel output, that output exists and creates or continues the pool named in the header, the output's VRF key and the slot, seal randomness and target of its height make the kernel hash win for the pool's current weight, and the header is signed by the staker of that output. A block returned by the producer is accepted by this check, extends the tip it was given, carries the requested body and pool and lies no further in the future than allowed. It uses the earliest winning slot after the last one used: every earlier slot loses. If the producer reports that staking failed, every slot up to the reported one loses; consecutive failing calls on the same tip cover every slot without a gap; a slot is used at most once. The start of a search is the timestamp used last with the same key since the last change of the tip.", "quantifier": "all chains, pools, headers, keys, clocks, sequences of production calls and of job events", "why_tests_cant": "The producer and the checker are different code in different crates that must agree on the kernel, epoch randomness, target and weight for every chain; that no winning slot is skipped or reused ranges over all sequences of calls and interleavings with tip changes.", "anchors": ["consensus/src/pos/mod.rs: check_proof_of_stake, stake, find_timestamp_for_staking", "consensus/src/pos/kernel.rs: get_kernel_output", "consensus/src/pos/block_sig.rs: check_block_signature", "consensus/src/lib.rs: finalize_consensus_data", "consensus/src/validator.rs: validate_consensus", "blockprod/src/detail/mod.rs: produce_block_with_custom_id", "blockprod/src/detail/job_manager/jobs_container.rs: JobsContainer"]}
{"id": "C60", "title": "The sealed staking state is the state at the end of a past epoch of the current chain, whatever the node has been through", "statement": "A node keeps, beside the staking state of the tip, a sealed one. After any sequence of blocks connected and disconnected, the sealed staking state is exactly the staking state the current chain had after the last block of the newest epoch that lies at least the configured number of epochs behind the newest finished epoch, or the genesis state while there is none. Two nodes on the same chain hold the same sealed state, however they got there. Keeping it never prevents a node from connecting a block whose changes apply to the tip, nor from disconnecting one.", "quantifier": "all epoch lengths and seal distances, all genesis staking states, all histories of connected and disconnected blocks with any staking operations, reorganisations of any depth", "why_tests_cant": "The sealed state is kept by merging per-epoch deltas and per-epoch undos that themselves are changed by every block disconnected; whether they add up to the state of the chain depends on the whole history, including reorganisations across several epochs and changes that cancel each other, which tests can only sample.", "anchors": ["chainstate/src/detail/chainstateref/epoch_seal.rs: update_epoch_seal, advance_epoch_seal, rollback_epoch_seal", "chainstate/src/detail/chainstateref/mod.rs: post_connect_tip, post_disconnect_tip", "chainstate/src/detail/chainstateref/tx_verifier_storage.rs: apply_accounting_delta, batch_write of accounting deltas", "chainstate/tx-verifier/src/transaction_verifier/flush.rs: flush_to_storage", "pos-accounting/src/pool/storage/mod.rs: batch_write_delta, undo_merge_with_delta", "common/src/chain/config/mod.rs: is_due_for_epoch_seal, epoch_index_from_height, is_last_block_in_epoch"]}
{"id": "C61", "title": "The randomness staked blocks are checked against is a function of their chain", "statement": "With a seal distance of at least one epoch, after any history of connected and disconnected blocks the randomness a node holds for a finished epoch is the one determined by the blocks of its current chain alone (that of the epoch's last block if it has proof of stake, computed from the randomness of the epoch a seal distance before, none otherwise), and nothing is held for epochs not begun. The randomness against which the next block is checked, and the one the block producer uses, are therefore equal on all nodes of the chain; a header on a branch is checked against the randomness of that branch, and the check of a branch gets as far as connecting it would. With a seal distance of zero this fails: disconnecting and connecting the last block of an epoch changes the epoch's randomness.", "quantifier": "all epoch lengths, all seal distances of one or more, all chains with any heights of proof of stake, all histories of connecting and disconnecting, all branch points and branches", "why_tests_cant": "Data of partly disconnected epochs is left in the database on purpose; that it is never read before it is overwritten is an argument about every history and every branch, while tests run a few.", "anchors": ["chainstate/src/detail/chainstateref/epoch_seal.rs: update_epoch_data, create_randomness_from_block", "chainstate/types/src/epoch_data_cache.rs: EpochDataCache, ConsumedEpochDataCache::flush", "chainstate/src/detail/chainstateref/in_memory_reorg.rs: reorganize_in_memory, disconnect_tip_in_memory_until", "chainstate/src/detail/chainstateref/mod.rs: check_block_header_impl, post_connect_tip, post_disconnect_tip", "consensus/src/pos/mod.rs: randomness_of_sealed_epoch", "common/src/chain/config/mod.rs: sealed_epoch_index, is_last_block_in_epoch"]}
{"id": "C62", "title": "Locators find the fork and header lists continue the chain from it", "statement": "A node can make a locator from any block it knows; it lists the ancestors of the block at the distances 0, 1, 2, 4, ..., is the same on every node that knows the block, and has no more than n + 1 entries below the height 2^n. The answer to any locator, honest or not, is the run of main-chain headers after the first listed block on the answering node's main chain (genesis if none), each the child of the previous one, as many as exist up to the limit; it is empty only if that block is the tip. If the locator comes from an honest node, fewer blocks lie between that block and the latest common block than the asking node has above the latest common block, so the next block it lacks is among the headers whenever the limit is at least that number. Headers announced to a peer follow the latest block shared with any of the peer's known blocks.", "quantifier": "all block trees, all histories of processed, invalidated and reset blocks on both nodes, all locators, all limits", "why_tests_cant": "Tests run a few chain lengths and forks; the distances, the shortcut over the main chain and the bound on the gap must hold for every height and every pair of trees.", "anchors": ["chainstate/src/detail/query.rs: get_locator_from_best_block, get_locator_from_height, get_locator_from_block_id, get_mainchain_headers_higher_than, get_mainchain_headers_by_locator, get_mainchain_headers_since_latest_fork_point", "chainstate/types/src/locator.rs: Locator"]}
{"id": "C63", "title": "A node that connects to another one downloads its chain", "statement": "Two nodes run the block exchange of the p2p layer over ordered message queues: one asks for headers with a locator, the other answers with headers, blocks are requested in portions and sent one by one, and the server announces new tips. In every interleaving of their steps no message of either node is taken for a protocol error by the other, and the exchange ends. When nothing is under way, the client has stored every block of the server's main chain, none of them is invalid for it, and its tip has at least the trust of the server's tip; on a new connection to a server whose chain has more trust, client and server end with the same tip, main chain and chain state. This stays so when both nodes get blocks from elsewhere while nothing is under way. Assumed: the client has not rejected blocks of the server's chain and the fork is within reach of its reorganization limit; locators fit into a message; after a reorganization of the server the two branches are not too long for the headers in one message.", "quantifier": "all block trees, all histories of both nodes, all limits on messages, all interleavings of message handling and sending of blocks, any number of changes of both chains", "why_tests_cant": "Tests drive two nodes through a few schedules with short chains; that no schedule fails, loops or stops early for any tree, fork and limit needs an invariant over the states of both nodes and the messages under way, and a measure that decreases.", "anchors": ["p2p/src/sync/peer/block_manager.rs: PeerBlockSyncManager::handle_message, handle_header_request, handle_header_list, handle_block_request, handle_block_response, send_block, request_headers, request_blocks, handle_new_tip", "p2p/src/sync/peer_common/mod.rs: choose_peers_best_block", "chainstate/src/interface/chainstate_interface_impl.rs: split_off_leading_known_headers, preliminary_headers_check"]}
{"id": "C64", "title": "Whatever a peer sends, the block exchange keeps its limits and never fails", "statement": "Let a node exchange blocks with a peer that may send any messages in any order, while the chain of the node changes in any way. The node never keeps more announced headers, requested blocks and queued blocks for the peer than the limits allow. The actions whose failure would abort the node (asking for headers on connection, sending a queued block, announcing a tip) never fail. Every action leads to at most one message; it is the locator of a known block, a run of headers of the main chain within the limit, a non-empty request within the limit for blocks the peer has announced, or a stored block the peer asked for. A message changes the chain only if it is the block requested next, it had been announced by this peer, was not stored and passed the preliminary check. The blocks sent are those of the accepted requests, in their order, each as often as asked for.", "quantifier": "all block trees, all histories of the node, all sequences of messages of the peer, all limits, all changes of the chain in between", "why_tests_cant": "Tests send a handful of wrong messages in chosen situations; that no sequence of messages brings the node into a state where it fails or keeps too much needs an invariant over all message sequences.", "anchors": ["p2p/src/sync/peer/block_manager.rs: PeerBlockSyncManager::run, main_loop, handle_message, handle_header_request, handle_header_list, handle_block_request, handle_block_response, send_block, request_headers, request_blocks, handle_new_tip", "p2p/src/sync/peer_common/mod.rs: handle_message_processing_result, choose_peers_best_block"]}
{"id": "C65", "title": "The outputs a wallet selects pay for the target, without waste that can be avoided", "statement": "Whatever the random choices are, a result of the selection of outputs consists of groups of the given pool, each at most once, whose worth (their value, less the fees for spending them if fees are paid in this currency) covers the target; the weight, fees, change and waste reported are those of these groups: a change is what exceeds the target less its cost and is worth that cost, and without a change the excess is below the cost of making one. A random selection is not heavier than allowed. If all groups together do not pay for the target, exactly this is reported; if they do and are not too heavy together, a selection is found. With at most 15 groups that are not cheaper to spend now than later, what is selected wastes at most as much as any selection that needs no change. The program does not fail if the groups together are not too heavy or all have the same weight; otherwise it can fail (see Findings).", "quantifier": "all pools of groups with any values, fees and weights, all targets, costs of change and weight limits, all outcomes of shuffles, random bits and heap layouts", "why_tests_cant": "The result depends on random shuffles and bits and on subset sums of arbitrary pools; tests sample a few pools, and the failing case needs particular weights in a particular order.", "anchors": ["wallet/src/account/utxo_selector/mod.rs: select_coins, select_random_coins, select_all_coins, select_coins_srd, knapsack_solver, knapsack_solver_impl, approximate_best_subset, select_coins_bnb, SelectionResult", "wallet/src/account/utxo_selector/output_group.rs: OutputGroup::get_effective_value"]}
{"id": "C66", "title": "A transaction the wallet builds is the one that was asked for, loses nothing, and pays its fee", "statement": "When a wallet completes a request for a transaction (outputs, plus inputs and commands that have to be in it) the outputs asked for are in the transaction unchanged; the only further outputs are change: at most one per currency, of a positive amount, to the change address, only for coins and tokens the request is about. Every input added is one of the unspent outputs offered and none is used twice. Of every token the request is about, inputs and outputs (with what orders give and take) are exactly equal; of other tokens nothing is spent or sent. The coins that remain are at least the fee the user is told, and exactly that fee when there is change, provided the inputs of the request do not bring more coins than it costs (otherwise the fee paid may be lower by the cost of one output, see Findings). The fee told is at least what the fee rate demands for the size of the signed transaction. The amounts are accepted by the chain's own check of inputs against outputs, which takes exactly this fee.", "quantifier": "all requests and sets of unspent outputs, fee rates, sizes, order data, selection algorithms and random choices for which the wallet does not report an error", "why_tests_cant": "Amounts, sizes, number of currencies, rounding of fees and random selections interact; wallet tests build a handful of transactions and compare them with the code's own estimate.", "anchors": ["wallet/src/account/mod.rs: select_inputs_for_send_request, utxo_output_groups_by_currency, group_preselected_inputs, output_change_size_and_fees", "wallet/src/account/currency_grouper/mod.rs: group_outputs_with_issuance_fee, group_utxos_for_input", "wallet/src/account/utxo_selector/mod.rs: SelectionResult::add_change", "common/src/size_estimation/mod.rs: tx_size_with_num_inputs_and_outputs", "chainstate/constraints-value-accumulator/src/constraints_accumulator.rs: from_inputs, from_outputs, satisfy_with"]}
{"id": "C67", "title": "The unspent outputs a wallet shows are those of the chain", "statement": "After any history of a wallet account (blocks scanned, reorganisations, transactions of the mempool and of the user, going offline, abandoning, closing and opening the wallet) the confirmed outputs the account lists are exactly the outputs on the best chain to keys of the account that no transaction of the chain spends, each listed once. The outputs listed for spending are exactly the outputs of confirmed, mempool and waiting transactions it knows that no such transaction spends. Closing and opening the wallet changes neither list, in whatever order the stored transactions are read. The first holds as long as no transaction that spends an output spent in a block as well is added after the fact, abandoned, marked as conflicted or reloaded; the second as long as no two known transactions spend the same output (outside of these limits it is false, see Findings).", "quantifier": "all histories of any length, all transactions with any inputs and outputs, all filters for outputs to keys of the account, all orders of the stored transactions", "why_tests_cant": "The lists are kept incrementally in several maps that every operation changes; only whole histories show whether they still agree with the chain, and reorganisations, abandoning and restarts interleave in unboundedly many ways.", "anchors": ["wallet/src/account/output_cache/mod.rs: OutputCache::new, add_tx, remove_confirmed_tx, rollback_tx_data, utxos, is_consumed, reset_mempool_txs", "wallet/src/account/mod.rs: scan_new_blocks, reset_to_height, add_wallet_tx_if_relevant, load_from_database"]}
{"id": "C68", "title": "Giving a transaction up gives up what depends on it", "statement": "When the user abandons a transaction, or a block makes one impossible, all waiting transactions that spend its outputs, directly or not, are given up as well: no transaction that waits for a block spends an output of an abandoned or conflicted one. Abandoning succeeds only if it gives up the transaction named; all other transactions are unchanged or are unconfirmed ones that are given up with their contents unchanged, confirmed ones never change. (For histories without reorganisations and restarts in which transactions come after those they spend from; otherwise it is false, see Findings.)", "quantifier": "all such histories of any length and all trees of dependent transactions", "why_tests_cant": "The dependency map is built incrementally and walked transitively; tests abandon chains of two or three transactions right after making them.", "anchors": ["wallet/src/account/output_cache/mod.rs: abandon_transaction, remove_from_unconfirmed_descendants, update_conflicting_txs, add_tx", "wallet/src/account/mod.rs: abandon_transaction, scan_new_blocks"]}
{"id": "C69", "title": "Blocks may arrive in any order", "statement": "Blocks handed to the node in whatever order, also repeatedly, are all accepted in the end, none is left waiting, and the tip has the most chain trust among them; two nodes that get the same blocks in different orders have tips of the same chain trust, and the same tip and chain state if no other block has that trust. (The blocks come with all their ancestors, are valid and pass the checks, the pool of waiting blocks is larger than their number, and no reorganisation limit is in effect.) For arbitrary blocks: the node does not panic, the work on waiting blocks ends, the pool does not exceed its size, no block waits for an accepted one, the answer names the new tip. The pool itself behaves like a list of blocks: taking the children of a block returns exactly those, in the order of arrival; a full pool gives up one block on which no other waiting block depends; forgetting a bad block removes exactly its descendants.", "quantifier": "all sequences of blocks of any length, all orders, all outcomes of checks, all random choices, all pool sizes above zero", "why_tests_cant": "The number of orders is factorial in the number of blocks; the pool keeps the blocks in a list and two maps whose agreement only shows over sequences of calls, and the evicted block is chosen at random.", "anchors": ["chainstate/src/detail/orphan_blocks/pool.rs: OrphanBlocksPool", "chainstate/src/detail/mod.rs: process_block, attempt_to_process_block, process_orphans_of, remove_orphans_of, check_legitimate_orphan", "chainstate/src/detail/block_invalidation/mod.rs: invalidate_stale_block"]}
{"id": "C70", "title": "A wallet restored from its seed finds what was paid to it", "statement": "A new wallet with the same seed that reads the chain from the start ends with the same recorded transactions and recognises the same addresses as the wallet that was there all the time, and among them every address that wallet gave out, whatever addresses were requested in between and however often it was closed and opened, as long as it saw transactions in blocks only and no block was undone. In general a restored wallet finds all payments to its keys if no key is more than the look-ahead after the keys paid before it, and for payments from others this is exact. In any history: a transaction that pays to an address given out is recorded when it is seen; an issued address was never given out before and comes after the last used one; an address is issued exactly if it is within the look-ahead of the last used one; what is loaded from the database is what was in memory; scanning never fails.", "quantifier": "all sequences of address requests, scanned transactions (in blocks or not), undone blocks and reloads, of any length; all look-ahead sizes from 1 below 2^31; all keys with distinct hashes; all chains", "why_tests_cant": "Whether a restored wallet finds a payment depends on the order of all payments before it and on when which address was given out; tests use few addresses in a handful of orders.", "anchors": ["wallet/src/key_chain/leaf_key_chain/mod.rs: LeafKeySoftChain", "wallet/src/key_chain/account_key_chain/mod.rs: issue_address, next_unused_address, mark_public_key_as_used, mark_public_key_hash_as_used, load_from_database", "wallet/types/src/keys.rs: KeychainUsageState", "wallet/src/account/mod.rs: mark_outputs_as_seen, mark_output_as_seen, collect_output_destinations, add_wallet_tx_if_relevant, scan_new_blocks", "wallet/src/wallet/mod.rs: reset_wallet_transactions"]}
{"id": "C71", "title": "The wallet follows the chain of its node", "statement": "When the accounts of a wallet stand at the same block, wherever that is (on the node's chain, on a branch the node has left, at a block the node does not know), the synchronisation ends and every account has scanned exactly the node's chain, block by block; if account numbers are used in order on that chain, every block that concerns an account, whichever its number, is recorded there with its height and nothing else is. What an account has scanned is a branch of the tree of blocks at all times, also when the node changes its best block between any two questions and when the call fails. Accounts that stand at different blocks are brought together, unless one is at the node's best block and another is not (the process ends) or two of them share the same last block with the node's chain (an error at each attempt).", "quantifier": "all trees of blocks, all nodes and best blocks, all numbers of accounts and their positions, all assignments of blocks to accounts, chains of any length, all sequences of node states during a call", "why_tests_cant": "The outcome depends on the positions of all accounts relative to an arbitrary tree and on what the node answers at each of many calls; a test takes a few positions on a few chains.", "anchors": ["wallet/wallet-controller/src/sync/mod.rs: sync_once, fetch_and_sync_to_next_group, fetch_and_sync, fetch_next_blocks, group_accounts_by_mainchain_blocks, get_common_block_info", "wallet/src/wallet/mod.rs: scan_new_blocks, scan_new_blocks_unused_account, create_next_account", "wallet/src/account/mod.rs: scan_new_blocks, reset_to_height"]}
{"id": "C72", "title": "Orphan transactions wait for what they lack, and no longer", "statement": "A transaction of a peer that is rejected because an output it spends is missing (or its nonce is at most two ahead) is kept for at most 50 seconds of later orphans, within a limit of 100, found under its id, dropped when its peer disconnects. When a transaction is accepted, exactly the orphans that require something of it are queued. Provided no transaction arrives from a peer after its disconnection was reported, no assertion fails. Provided the transaction pool answers honestly, an orphan is not accepted by another way, no transaction of the chain comes in again and the chain does not supply what is missing, an orphan that has everything it requires is in the queue, and when no work is left every orphan lacks something; the work comes to an end whatever the answers. While a peer waits for its turn no other peer is served more than twice.", "quantifier": "All sequences of transactions, disconnections, units of work and changes of the chain, all answers of the transaction pool, all random choices, all handlers; all sequences of calls of the work queue.", "why_tests_cant": "Whether an orphan is forgotten or the process aborts depends on the order in which the four indices, the queues and the schedule change over an unbounded history, and on random choices; the cases that fail need particular interleavings (a late transaction of a disconnected peer, a parent accepted by another way).", "anchors": ["mempool/src/pool/orphans/mod.rs: TxOrphanPool, insert_and_enforce_limits, children_of, remove_by_origin", "mempool/src/pool/orphans/detect.rs: OrphanType", "mempool/src/pool/work_queue/mod.rs: WorkQueue", "mempool/src/pool/mod.rs: add_transaction, finalize_tx, perform_work_unit, on_peer_disconnected", "p2p/src/sync/mod.rs: SyncingEvent::Disconnected"]}
{"id": "C73", "title": "The transactions in the mempool can be mined, and a change of the chain loses none that can", "statement": "Whatever transactions are submitted, however the chain changes and the size limit is set, the transactions in the mempool connect one after the other in their order of arrival on the current tip, and so does every part of them that contains with a transaction those it depends on; no operation of the mempool fails internally, and the mempool never has to be rebuilt because an evicted transaction cannot be disconnected. A refused transaction changes nothing; an accepted one comes last. After a change of the chain the mempool contains only transactions of the disconnected blocks and transactions it contained before, in that order, and none of the new chain. If no limit binds, each of those is in the new chain, or in the mempool, or the verifier refuses it on the new tip, or it clashes with a new transaction of the connected blocks, or it depends on one that had to go.", "quantifier": "All configurations and measures of memory, all sequences of submissions, changes of the chain (with any blocks disconnected and connected) and changes of the size limit; all transactions with any inputs and outputs the mempool tracks.", "why_tests_cant": "The pool evicts, expires and re-adds transactions in unbounded interleavings; that what remains is still connectable depends on every dependency the verifier enforces being among those the store tracks, and on the order of arrival being respected by each operation.", "anchors": ["mempool/src/pool/tx_pool/mod.rs: add_transaction, finalize_tx, remove_expired_transactions, trim, remove_tx_and_descendants, set_max_size", "mempool/src/pool/tx_pool/reorg.rs: handle_new_tip, reorg_mempool_transactions, ReorgData, refresh_mempool", "mempool/src/pool/tx_pool/store/mod.rs: MempoolStore, into_transactions", "mempool/src/pool/dependency.rs: TxRequiredDependency, TxProvidedDependency", "chainstate/tx-verifier/src/transaction_verifier/mod.rs: connect_transaction, disconnect_transaction, spend_input_from_account"]}
{"id": "C74", "title": "What the API server says about an address follows the chain", "statement": "While the scanner of the API server follows a node through valid chains, it never aborts. After any sequence of new blocks and changes of the chain, its tables of outputs and balances are row by row those of a scanner that has only ever seen the current chain. The locked balance of an address is the worth of its unspent outputs of transactions whose lock has not run out. The balance is the worth of its unspent outputs of transactions that are not locked, plus the worth of all outputs of block rewards to it; it is the worth of the unspent and unlocked outputs exactly when no output of a block reward to it is spent or locked. The list of all outputs of an address contains every unspent output of its own once and nothing else; the list of spendable outputs contains those of them that come from a block reward or are not locked.", "quantifier": "All geneses, all sequences of calls of the scanner (each any height of a common block and any list of new blocks) in which every chain is valid; all addresses and currencies; all outputs with any of the four kinds of lock.", "why_tests_cant": "Locks run out by height and by the median time of eleven blocks, at any later block, on either side of a change of the chain; the balances are kept by increments that must add up over an unbounded history, and winding back must restore every table.", "anchors": ["api-server/scanner-lib/src/blockchain_state/mod.rs: scan_blocks, disconnect_tables_above_height, update_locked_amounts_for_current_block, update_tables_from_transaction_inputs, update_tables_from_transaction_outputs, update_tables_from_block_reward, increase_address_amount, decrease_address_amount", "api-server/api-server-common/src/storage/impls/in_memory/mod.rs: get_address_balance, get_address_available_utxos, get_address_all_utxos, get_locked_utxos_until_now, del_utxo_above_height", "api-server/api-server-common/src/storage/storage_api/mod.rs: UtxoLock::from_output_lock"]}
{"id": "C75", "title": "The address book of the peer-to-peer layer keeps what it should and no more", "statement": "Whatever is gossiped, connected, failed, banned, reserved, removed and restarted, the address book never panics. Its two tables never hold more addresses than they have slots and at most eight buckets of one address group, no address twice, and only addresses it was told; an address is 'tried' only if there was an outbound connection to it. Gossip displaces neither tried addresses nor any reachable new address, and forgets nothing about a reachable one. A ban or a discouragement lasts for its duration across restarts and ends at the first maintenance thereafter. Reserved nodes are never given up and are due again after a bounded time. The addresses selected for connections are at most as many as asked for, of distinct groups not yet connected, each of them known, due, and neither banned, discouraged nor reserved; if there is one to choose, one is chosen. Maintenance forgets exactly the addresses whose time is over: one hour after the first failure if never reached, at the 672nd failure in a row if it was. A restart restores the tables, bans and anchors.", "quantifier": "All histories of events (gossip, failed and successful connections, disconnections, activity, removals, changes of the reserved nodes, bans, discouragements, anchors, maintenance, restarts with any boot and reserved nodes) at any times in any order; all hash functions, table sizes and random choices.", "why_tests_cant": "Where addresses collide depends on a salted hash, whom they displace on the history, and delays and selections are random; the ids inside the tables are renumbered only after 2^32 insertions; an attacker chooses the gossip.", "anchors": ["p2p/src/peer_manager/peerdb/mod.rs: PeerDb (new, peer_discovered, outbound_peer_connected, outbound_peer_disconnected, report_outbound_failure, heartbeat, ban, unban, discourage, undiscourage, set_anchors, add_reserved_node, remove_reserved_node, select_non_reserved_outbound_addresses, select_reserved_outbound_addresses)", "p2p/src/peer_manager/peerdb/address_tables/mod.rs: AddressTables", "p2p/src/peer_manager/peerdb/address_tables/table/mod.rs: Table (replace_if, replace, remove)", "p2p/src/peer_manager/peerdb/address_data/mod.rs: AddressData (transition_to, next_connect_time, connect_now, retain)", "p2p/src/peer_manager/peerdb/storage_load.rs"]}
{"id": "C76", "title": "The peer manager bounds, diversifies and protects the node's connections", "statement": "Whatever happens to the node – connections made, refused and closed, misbehaviour, bans, requests by the operator, heartbeats and restarts, with any random choices – the peer manager does not panic (as long as the networking layer reports outbound connections only for addresses that are being dialled). There are never more than the configured number of inbound peers that are not being disconnected, of full relay and block relay connections, made or being made, and of feelers (one). No two connections that the node makes of its own accord are to one address group, nor are two anchors; no two outbound connections other than feelers are to one IP address and port. A peer that is not being disconnected is not banned and, unless whitelisted, below the misbehaviour threshold; scores grow only by misbehaviour reported of that peer; when the threshold is reached, the address is discouraged and all its connections are closed. A peer is new only if its connection was reported while networking was enabled and its address is not banned; addresses dialled are neither banned nor discouraged, or reserved. An inbound connection is accepted exactly if there is room, or a peer can be evicted and the newcomer is not discouraged. An evicted inbound peer is banned or discouraged if there is such a one; otherwise it is outside four disjoint sets of peers that are best by address group, ping, last block and last transaction, and the newest of a largest group of the rest. An evicted outbound peer is old enough and has the oldest news of the chain; evictions never leave fewer outbound peers than wanted. While outbound connections are missing, a heartbeat dials another address if there is one that can be connected to; reserved nodes are dialled whenever they are due, anchors after a restart, and a connection the operator asks for exactly if nothing forbids it.", "quantifier": "all histories of events of any length, all random choices (samples, orders of equals, eviction of bad peers), all configurations with valid address tables, all hash functions and address groups, all candidate lists for eviction", "why_tests_cant": "The limits and the diversity depend on interleavings of connections made, being made, failed, banned and evicted; the protection from eviction is a statement on all sets of attackers' peers and random choices, while the tests try some.", "anchors": ["p2p/src/peer_manager/mod.rs: try_connect, validate_connection, try_accept_connection, accept_connection, connection_closed, adjust_peer_score, ban, discourage, heartbeat, establish_new_connections, evict_block_relay_peer, evict_full_relay_peer, maybe_reject_because_already_connected, allow_new_outbound_connection", "p2p/src/peer_manager/peers_eviction/mod.rs: select_for_eviction_inbound, select_for_eviction_outbound"]}
{"id": "C77", "title": "Messages arrive unchanged, in order and independent of how the network cuts the bytes", "statement": "Messages sent over one connection are received unchanged and in order, however the network cuts the byte stream into pieces and whatever comes after them. What a receiver gets depends on the sequence of bytes only, so a receiver that stops waiting and asks again later loses nothing. A message is delivered exactly when a length of at most the limit and as many bytes that are a message have arrived, with no further read; bytes that are not a message are reported as such and skipped, exactly one frame of them; a length above the limit is refused as soon as the four bytes of the length are there, and remains an error; a stream that ends within a frame is reported as ended, and no part of a frame is ever delivered. While waiting for a message of any size, fewer than four bytes plus the limit are pending before each read. A sender refuses exactly the messages above the limit, writes nothing for these and exactly one frame for the others. The binary form of the messages of the network is exact: all values of all kinds of messages, including blocks, transactions and headers, are read back, no other bytes are accepted as a message, and user agents that are read consist of 1 to 24 printable characters.", "quantifier": "all sequences of messages of any types with an exact binary form (in particular all messages of the peer-to-peer protocol), all limits below four gigabytes, all ways of cutting the stream, all contents of the receive buffer, and arbitrary (malicious) byte streams", "why_tests_cant": "The unit tests send a random message through one buffer and check the two size errors. They cannot try all fragmentations and all malformed streams; that the result is independent of the cuts is an induction over the sequence of reads.", "anchors": ["networking/src/transport/message_codec.rs: MessageCodec::decode, encode, check_encoded_message_size", "networking/src/transport/message_stream.rs: MessageReader::recv, MessageWriter::send", "p2p/src/net/default_backend/types.rs: Message, HandshakeMessage, P2pTimestamp", "p2p/src/message.rs", "p2p/types/src/peer_address.rs: PeerAddress", "common/src/primitives/user_agent.rs: UserAgent", "common/src/primitives/semver.rs: SemVer"]}
{"id": "C78", "title": "Connections of the networking backend have an orderly life", "statement": "For every history of commands, dials, incoming connections and events of connection tasks: what is reported about one connection is nothing; or that it was established, at most once; then, if it was never accepted, at most its end; if it was accepted, its announcement to the synchronisation, messages and misbehaviour, and its end reported exactly once to the synchronisation and then to the peer manager. Nothing is reported before or after. The requests to dial an address are as many as the answers (established or error) plus the dials still going on. There are never more inbound connections in their handshake than configured, and a new one is taken exactly when networking is enabled and there are fewer. The backend panics only if a connection is accepted twice; it stops with an error only if a new socket no longer tells its addresses, or if a connection found to come from the node itself has ended already. A node connecting to itself finds out: neither end is ever reported as established, the dial fails with that reason and the inbound end is told to disconnect; no other dial fails with that reason. When networking is disabled exactly the existing connections are told to disconnect, all of them can end, and until it is enabled again nothing is reported as established and no message is passed on. Every established connection told to disconnect can end and its end is reported. As long as no dial succeeds while networking is disabled, every dial not yet answered can still be answered and every handshake can end.", "quantifier": "all lists of events from the start of the backend, all configured limits, all addresses, nonces and connection ids, and all continuations", "why_tests_cant": "The tests run a few peers against one backend in a fixed order; the claims are about every interleaving of commands, results of dials, handshakes, losses and enabling or disabling of networking, over histories of any length.", "anchors": ["p2p/src/net/default_backend/backend.rs: Backend::{run, handle_connect_res, accept_peer, disconnect_peer, send_message, create_pending_peer, create_peer, destroy_peer, is_connection_from_self, handle_peer_event, handle_message, handle_command, insert_new_pending_peer, remove_pending_peer}", "p2p/src/net/default_backend/peer/mod.rs: Peer::{new, run}", "p2p/src/net/default_backend/peer/handshake_handler.rs: HandshakeHandler::run_handshake", "p2p/src/net/default_backend/types.rs: PeerEvent, BackendEvent, Command", "p2p/src/net/default_backend/default_networking_service.rs"]}
{"id": "C79", "title": "Nodes which complete a handshake agree, and messages go where they belong", "statement": "Two nodes which complete a handshake have chosen the same protocol version (the smaller one, a supported one), the same common services (also if one side offers fewer than it has), and each knows the network, name and version of the other and the address it is seen at. A side completes the handshake exactly if the expected message arrives, the time in it is within the allowed difference of the span from the start of the handshake to the arrival, and there is a common version; otherwise nothing is told to the backend and at most a farewell is sent, only to nodes which know that message. Nodes following the protocol never blame each other, whatever their clocks and versions. Clocks differing by less than allowed minus delay and rounding are accepted, those differing by more than allowed plus the time of the handshake are not. After the handshake every message goes to exactly one place by its kind: all messages for the synchronisation of blocks, and all for transactions, arrive there in order; the peer manager gets its messages in order, one note at the place of the first synchronisation message, and one report of misbehaviour for each late handshake message.", "quantifier": "all pairs of nodes (versions, networks, services, allowed clock differences), all times and clock offsets, all messages and all lists of messages received", "why_tests_cant": "Tests perform a few handshakes with fixed versions and mocked clocks; agreement is about both ends of every combination of versions, services, clocks and answers, and routing about message sequences of any length.", "anchors": ["p2p/src/net/default_backend/peer/handshake_handler.rs: HandshakeHandler::{validate_peer_time, validate_handshake, handshake_impl, run_handshake}", "p2p/src/protocol.rs: choose_common_protocol_version", "p2p/src/net/default_backend/peer/mod.rs: Peer::handle_socket_msg, maybe_send_will_disconnect", "p2p/src/net/default_backend/types.rs: Message::categorize, P2pTimestamp, can_send_will_disconnect", "p2p/src/error.rs: BanScore for P2pError, ProtocolError, ConnectionValidationError"]}
{"id": "C80", "title": "The rolling filter remembers at least as many items as it is made for", "statement": "A rolling filter made for a number of items always reports each of the last that many items inserted, whatever was inserted before. What it holds is a stretch of the newest items, never more than one and a half times that many; an older item is reported only if one of the three bloom filters lets it through by accident, and exact bloom filters would forget it. No bloom filter is filled beyond what it was made for, and the hash functions of a replaced filter are not used again.", "quantifier": "all sizes, all histories of insertions of any length over any type of items, all behaviours of the bloom filters on items not inserted", "why_tests_cant": "Tests insert random items up to a fixed number; the claim is about every history and every size, with any accidental hits of the bloom filters.", "anchors": ["utils/src/bloom_filters/rolling_bloom_filter/mod.rs: RollingBloomFilter::{new, insert, contains}", "utils/src/bloom_filters/rolling_bloom_filter/cyclic_array.rs: CyclicArray", "utils/src/bloom_filters/bloom_filter.rs: BloomFilter"]}
{"id": "C81", "title": "Transactions are relayed without waste and only what was asked for is taken", "statement": "A transaction is requested from a peer exactly when the peer announces it, the initial block download is over, both nodes have the service, the mempool lacks it, it is not already requested from this peer and the limit of open requests is not reached. A transaction of a peer goes to the mempool exactly when it is the response to an open request, so per id at most once for each request; a requested transaction delivered within an hour is taken whatever else happens in between; open requests never exceed the limit, are forgotten after an hour and not earlier. Every request of a peer is answered in the same turn, with the transaction if the mempool has it and otherwise with its absence, and transactions are sent only as answers. The score of a peer changes only for messages that need a service it does not share, or for a requested transaction that the mempool rejects. At the times of announcing, all waiting transactions still in the mempool are announced, in the order the mempool gives; between two announcements of one transaction to the same peer at least 50000 announcements pass between the two nodes. Only transactions the mempool accepted for relay are announced, and each of these is put before every connected peer. A transaction of the node itself is put before all connected peers again and again until some peer fetched it or it left the mempool. No message makes the task of a peer panic.", "quantifier": "all sessions with a peer (all messages, events, clock values, answers of the mempool and the chainstate), all histories of a node with any number of peers, all configurations of limit and filter", "why_tests_cant": "Tests run single exchanges between two nodes; counting requests against submissions, the distance of repeated announcements, the bound on open requests and the fate of local transactions are about histories of any length with any order of messages and clocks.", "anchors": ["p2p/src/sync/peer/transaction_manager.rs: PeerTransactionSyncManager::{main_loop, handle_local_event, enqueue_transactions_to_announce, announce_transactions, handle_message, handle_transaction_request, handle_transaction_response, handle_transaction_announcement}", "p2p/src/sync/peer/requested_transactions.rs: RequestedTransactions", "p2p/src/sync/peer_common/known_transactions.rs: KnownTransactions", "p2p/src/sync/peer_common/mod.rs: handle_message_processing_result", "p2p/src/sync/mod.rs: SyncManager::{handle_transaction_processed, requeue_unconfirmed_local_transactions, register_peer, unregister_peer, handle_tx_mgr_notification, send_tx_mgr_event}"]}
{"id": "C82", "title": "Bootstrap files reproduce the chain they were exported from", "statement": "Importing a bootstrap file processes exactly the blocks that were written to it, in order and unchanged, however reading cuts the file into pieces. A new node that imports the exported main chain of another node ends with the same tip, chain state and main chain. A file that ends early is always noticed: the blocks completely in it are processed, the import reports an error, and importing the complete file afterwards leads to the same result; blocks already stored are passed over. A file of another chain, of another format or of the old format is refused without processing anything. With enough space the exported file is complete. With stale blocks, the file lists every known block once, parents first, and importing it leads to the same known blocks and a tip of the same chain trust. The database is in its unsafe fast mode exactly while the initial download is unfinished or an import runs.", "quantifier": "all reachable states of the exporting node, all chains and block trees, all codecs that are exact, all ways of cutting the file into pieces or truncating it, all capacities of buffer and disk, all interleavings of tip changes and imports", "why_tests_cant": "Tests export and import a few random chains with one buffer size; the claim is about every chain, every truncation point and every division into pieces.", "anchors": ["chainstate/src/detail/bootstrap.rs: {import_bootstrap_stream, export_bootstrap_stream, fill_buffer, check_for_legacy_format, BootstrapFileHeader}", "chainstate/src/detail/mod.rs: Chainstate::{import_bootstrap_stream, update_initial_block_download_flag}, DbRecklessModeCounter", "chainstate/src/detail/chainstateref/mod.rs: {get_mainchain_blocks_list, get_block_id_tree_as_list}"]}
{"id": "C83", "title": "Addresses name exactly one object of one chain, and mistyped ones are refused", "statement": "Every destination, pool, delegation, token, order and VRF key has an address, and reading this address gives the object back; different objects have different addresses. A string is accepted exactly if it consists of the prefix of the object it encodes, the separator, the bits of the object followed by fewer than eight further bits, and a correct checksum; it is accepted on one chain only and as one kind of object only, and the prefix of a destination tells its form. A string that differs from an accepted one in one or two characters is refused, also for destinations whose prefixes have different lengths; so are strings with capital letters. The short form shown to users is defined for every accepted address and shows the prefix, the first three and the last four characters.", "quantifier": "all objects, all strings, all four chains, all positions of one or two wrong characters", "why_tests_cant": "Tests encode and decode a few samples; the number of strings and of pairs of errors is beyond enumeration.", "anchors": ["common/src/address/mod.rs: Address::{new, from_string, to_short_string}, decode_address", "common/src/primitives/bech32_encoding/mod.rs: {bech32m_encode, bech32m_decode}", "common/src/address/traits.rs: Addressable", "common/src/address/hexified.rs: HexifiedAddress::serde_deserialize", "common/src/chain/config/mod.rs: ChainConfig::{destination_address_prefix, pool_id_address_prefix, delegation_id_address_prefix, token_id_address_prefix, order_id_address_prefix, vrf_public_key_address_prefix}"]}
{"id": "C84", "title": "The issuer's wallet offers exactly the token operations the ledger will take", "statement": "Let the ledger take any sequence of transactions, among them the wallet's own that are not in a block yet. From the node's report of the confirmed state of a token it issues and these transactions, the wallet computes exactly the state the token has afterwards: whether it is frozen and whether that can be changed, the kind of supply, whether the supply is locked, and the units in circulation. It then carries out a request to mint, unmint, lock, freeze, unfreeze or hand over the token, or to change its metadata address, exactly if the ledger will take the transaction made for the request after the waiting ones; a request carried out joins the waiting ones and the statement holds again. Nothing is carried out for a token whose authority the wallet does not hold.", "quantifier": "all reachable ledger states, all tokens, all finite sequences of transactions about any tokens that the ledger takes in which unmint commands burn something, all requests (minting within 2^127 units in circulation, unminting a positive amount)", "why_tests_cant": "The statement compares two independent implementations of the same state machine, one in the wallet and one in the ledger, over all sequences of commands; tests try single commands on fresh tokens.", "anchors": ["wallet/src/account/output_cache/mod.rs: TokenCurrentSupplyState, TokenFreezableState, get_token_unconfirmed_info, apply_freeze_mutations_from_tx, apply_total_supply_mutations_from_tx", "wallet/src/account/mod.rs: mint_tokens, unmint_tokens, lock_token_supply, freeze_token, unfreeze_token, change_token_authority, change_token_metadata_uri", "wallet/wallet-controller/src/synced_controller.rs: mint_tokens, unmint_tokens, lock_token_supply, freeze_token, unfreeze_token", "chainstate/tx-verifier/src/transaction_verifier/mod.rs: connect_tokens_outputs", "chainstate/tx-verifier/src/transaction_verifier/input_output_policy/purposes_check.rs", "chainstate/src/detail/query.rs: get_token_info_for_rpc"]}
{"id": "C85", "title": "A storage transaction is a private copy that replaces the contents on commit", "statement": "Storage behaves as plain maps with a lock. Whatever is called, what a reader reads (single keys, all keys with a prefix, all keys from a key on) is what was committed before it was opened, and stays so while it is open. What a writer reads is the committed contents with its own writes and deletions applied; commit makes exactly this the contents, abort leaves the contents as they were. Iteration gives each matching entry exactly once, in ascending order, and an iteration over a prefix that reported its end stays ended. Values read back are the values written; iterating a map with keys of two parts over an encoded first part gives exactly the entries with that part; iterating from a key that begins with an order-preserving number gives exactly the entries that are not before it, in numeric order. Storage made from a dump holds the dumped contents.", "quantifier": "all finite sequences of opening, writing, deleting, committing, aborting and closing, all keys and values, all prefixes, any number of maps, all key and value types with exact codecs", "why_tests_cant": "Reads inside a transaction merge two sorted sequences with deletions among them, and the property is about all interleavings of entries and all prefixes; the randomised backend tests sample a few hundred of them.", "anchors": ["storage/core/src/adaptor/locking.rs: TxRo, TxRw, merge_iterators, commit, transaction_ro, transaction_rw", "storage/inmemory/src/lib.rs: StorageMaps", "storage/core/src/util.rs: MapPrefixIter", "storage/src/database/mod.rs: Storage::new_from_dump, MapRef, prefix_iter_decoded, greater_equal_iter_decoded", "storage/src/database/raw.rs: dump_storage", "storage/src/order_preserving_value.rs: OrderPreservingValue", "serialization/src/encoded.rs: Encoded::decode"]}
{"id": "C86", "title": "An encrypted wallet keeps its secrets behind the password", "statement": "A wallet file behaves as a safe. While it is unlocked the root keys, the seed phrase and the standalone private keys written last are read back; setting, changing or removing the password changes none of them. While it is locked (after locking, or after opening a file for which a password is set) no secret is given out and none is changed, and nothing that is returned depends on the secrets. It unlocks exactly with the password set last; an empty password is refused. While a password is set every secret in the file is encrypted under the key derived from it, including those written after it was set. No call panics. All this holds if root keys are stored when unlocking is attempted; without root keys, as in hardware wallets, a locked wallet unlocks with any password, and reading a standalone private key or changing the password panics afterwards.", "quantifier": "all finite sequences of encrypting, locking, unlocking, reopening, and writing, deleting and reading secrets, all passwords and secrets, any number of standalone keys, any cipher and key derivation that are sound in the stated sense", "why_tests_cant": "Tests encrypt one wallet once and try one wrong password. The property is about every interleaving of password changes with writes to three tables, and the case without root keys is not among those tested.", "anchors": ["wallet/storage/src/internal/mod.rs: Store::new, encrypt_private_keys, unlock_private_keys, lock_private_keys, is_encrypted, is_locked", "wallet/storage/src/internal/store_tx.rs: EncryptionState, check_can_decrypt_all_root_keys, encrypt_root_keys, encrypt_seed_phrase, encrypt_standalone_private_keys, set_root_key, set_seed_phrase, del_seed_phrase, set_standalone_private_key", "wallet/storage/src/internal/password.rs: password_to_sym_key, challenge_to_sym_key", "utils/src/maybe_encrypted.rs: MaybeEncrypted", "wallet/src/wallet/mod.rs: encrypt_wallet, lock_wallet, unlock_wallet"]}
{"id": "C87", "title": "A signed intent binds the owners of all inputs to one intent for one transaction", "statement": "The text signed for an intent determines the intent and the transaction. A signed intent is accepted exactly if it is for the expected text and holds, for every given destination in order, a signature of the text that speaks for it: by a key with the hash of the destination, or by the quorum of a multisig; it is never accepted if a destination is open to anyone or to a script. It is accepted for at most one intent and transaction. What a wallet signs with the keys of the destinations is accepted; signing succeeds exactly if there is one destination for each input, each of a single key that is at hand and signs. What is hashed for a message differs from everything hashed to spend an input, so a signature of a message or an intent never spends anything. Intents are not told apart from other signed messages: a signature of a message with the text of an intent counts for the intent.", "quantifier": "all intents, transaction ids, lists of destinations, signatures and messages, any hash and signature scheme; all transactions and sighash types for the separation from spending", "why_tests_cant": "Tests sign a few intents and alter single fields. That no two intents share a text, for intents that themselves contain the delimiters, and that no message can be taken for a transaction is about all byte strings.", "anchors": ["common/src/chain/transaction/signed_transaction_intent.rs: SignedTransactionIntent, from_components, produce_from_transaction_id, produce_from_transaction, verify, get_message_to_sign, normalize_destination", "common/src/chain/transaction/signature/inputsig/arbitrary_message/mod.rs: produce_message_challenge, ArbitraryMessageSignature, verify_signature", "common/src/primitives/id/mod.rs: LowerHex for Id", "common/src/chain/transaction/signature/sighash/mod.rs: signature_hash"]}
{"id": "C88", "title": "Derived keys depend on the path alone, and the wallet has the private key of every address it gives out", "statement": "The text of a derivation path is read exactly if it is `m` followed, for each of at most 255 steps, by a slash, a decimal number below 2^31 without leading zeros, and an apostrophe or `h` for a hardened step; what is printed for a path is read as this path. The binary form is exact. A key is derived to exactly the paths below its own (its own path and others are refused as such), in one go or by way of any key in between with the same result or failure; the result carries the path asked for and is a nonzero scalar. Without hardened steps, deriving and taking the public key commute, with the same failures; from a public key no hardened step is derived. What is authenticated in a step determines the child number and the parent key, and differs between hardened and normal children. For every address derived from the public key of an account, the private key found from the account's private key is the private key of this address; a private key found for any public key is its private key. Accounts, purposes and indices have different paths.", "quantifier": "all texts, byte strings, paths, keys, seeds and indices; any group with a generator of known order, any hash function", "why_tests_cant": "Tests use the published vectors and random samples. That every text has at most one reading, that public and private derivation fail together, and that no address is given out whose key cannot be found are about all paths and keys.", "anchors": ["crypto/src/key/hdkd/derivation_path.rs: DerivationPath, get_super_path_diff, FromStr, Display, Encode, Decode", "crypto/src/key/hdkd/child_number.rs: ChildNumber, FromStr, Display, increment", "crypto/src/key/hdkd/u31.rs: U31", "crypto/src/key/hdkd/derivable.rs: Derivable::derive_absolute_path", "crypto/src/key/secp256k1/extended_keys.rs: Secp256k1ExtendedPrivateKey, Secp256k1ExtendedPublicKey, derive_child, new_master", "wallet/src/key_chain/mod.rs: make_account_path", "wallet/src/key_chain/account_key_chain/mod.rs: get_private_key", "wallet/src/key_chain/leaf_key_chain/mod.rs: derive_key"]}
{"id": "C89", "title": "The search for staking timestamps finds exactly the times at which the pool could have staked", "statement": "Asking for the balances of pools over a range of heights fails exactly if the range is empty or ends above the tip; otherwise each pool has at each height the balances it had there, although the walk back from the tip drops pools and stops early. A search that succeeds gives for each height of the range exactly the timestamps that are to be tried for that height and at which the hash of the pool meets the target with the balances the pool had after the preceding block, in ascending order, and nothing for other heights. Whether hashes are computed in advance changes neither the times found nor whether the search fails. If all times between blocks are searched on a chain with rising times, no time is given for two heights. Where PoS is in force over the range, collecting the data for the search panics exactly if the pool was decommissioned within the range, and otherwise succeeds for every non-empty range.", "quantifier": "all chains, pools, height ranges, numbers of seconds, both search modes, all targets, randomness, hash functions and balances", "why_tests_cant": "Tests try a few chains with a few pools; that the early stop never loses a balance, that the windows of all heights are right and that caching is neutral are statements about all lifetimes of pools, all ranges and all hash functions.", "anchors": ["blockprod/src/detail/timestamp_searcher/mod.rs: TimestampSearchData::obtain, find_timestamps_for_staking_impl, find_timestamps, collect_distinct_hash_inputs", "chainstate/src/detail/chainstateref/mod.rs: get_stake_pool_balances_at_heights, collect_pool_balances", "blockprod/src/detail/utils.rs: get_pool_balances_at_heights, timestamp_add_secs"]}
{"id": "C90", "title": "The estimated size of a transaction is the size it has when signed", "statement": "The size estimated for the witness of an input is the number of bytes of every complete witness that can be made for its destination: a key, the hash of a key, a multisignature of at most 32 keys with exactly the required signatures, or no key at all, the keyed ones also inside the spending or the refunding of a hashed timelock contract. The estimate is refused exactly for script hashes and for multisignatures nothing is known about. The size for the numbers of inputs and outputs, plus the sizes of the inputs, the outputs and the witnesses, is the number of bytes of the signed transaction, whatever the numbers of inputs and outputs below 2^32. When a pool is decommissioned, a delegation emptied or addresses are swept, the transaction hands over all coins it takes in but for the fee, and the fee is at least the fee for its size when signed, at the rate asked for.", "quantifier": "all keys, signatures, signature hash types, secrets, multisignatures with at most 32 keys, all transactions with flags below 64 and fewer than 2^32 inputs and outputs", "why_tests_cant": "Tests build a few transactions; that no number of inputs, outputs, keys or signatures crosses a boundary of the variable-length numbers at which the estimate is a byte off is a statement about all of them.", "anchors": ["common/src/size_estimation/mod.rs: input_signature_size_from_destination, multisig_signature_size, tx_size_with_num_inputs_and_outputs, outputs_encoded_size, inputs_encoded_size, input_signatures_size_from_destinations", "wallet/src/account/mod.rs: calculate_tx_fee, decommission_stake_pool_impl, sweep_delegation, sweep_addresses, group_preselected_inputs"]}
