# Design of the formal model

The subject is mintlayer-core (Rust) in /repo.  Everything here is about a Lean 4 model written by
reading that source; the Rust code is never run.  Each Lean definition cites the file and lines it models.

## Layout

* `properties.jsonl` – the properties, in terms of the API.
* `lean/Verif/Base/*` – containers (a model of `BTreeMap`) and error plumbing shared by all areas.
* `lean/Verif/<Area>/Model.lean` – model, function by function.
* `lean/Verif/<Area>/Spec.lean` – small independent specification (when the statement needs one).
* `lean/Verif/<Area>/Lemmas.lean` – helper lemmas.
* `lean/Verif/<Area>/Props.lean` – property theorems plus non-vacuity examples only.
* `MANIFEST.json` – property → theorems.  `seeded/LOG.jsonl` – mutation log.

## Trusted base

* The Lean 4.33 kernel.  Axioms used: at most `propext`, `Classical.choice`, `Quot.sound`.
* The faithfulness of the model to the Rust text (citations on each definition).
* Common modelling decisions (each is repeated at the definition it concerns):
  * `BTreeMap` is a strictly sorted association list (`BMap`), iteration in key order.
  * hashes/ids (`PoolId`, `DelegationId`, `TokenId`, `OrderId`, outpoints, `Id<Block>`) are natural numbers or
    an arbitrary linearly ordered type; no hash function is modelled, so "ids are distinct" is always an explicit
    hypothesis, never derived.
  * `Amount` is a `Nat` with every operation checked against 2^128; `SignedAmount` is an `Int` checked against the
    i128 range.
  * `Result` is `Except`; after `Err` the partially mutated object is discarded unless a definition says
    otherwise (the callers drop the database transaction / the cache: `chainstate/src/detail/mod.rs` 303-355).
  * `parity_scale_codec` is an external dependency which is not in /repo. `Verif/Codec/Base.lean` models it from the SCALE
    specification (little endian and compact integers, structs, enums, vectors, options, `BTreeMap`); `Verif/Codec/Vectors.lean`
    checks the model against the byte strings expected by the test suite in /repo. Memory and depth limits are not modelled.
  * threads, disk, network, timing, floating point, memory are not modelled.

## Plan per property

| id | what is modelled | how it is proved |
|----|------------------|------------------|
| C01 C02 | `DataDelta`, `combine_*`, `DeltaDataCollection` as maps folded in key order | pointwise characterisation of the fold, then case analysis per key |
| C03 | `DeltaAmountCollection`, `combine_amount_delta` with i128/u128 bounds | pointwise; integer arithmetic |
| C04 C06 | `PoSAccountingDelta` operations and undo over an arbitrary parent view | each op/undo pair restores the observation; induction over histories; invariant for C06 |
| C05 | view through delta, `merge_with_delta`, `undo_merge_with_delta` on DB-like maps | pointwise via C01/C03 lemmas |
| C07 | the delegation part of `ConstrainedValueAccumulator::from_inputs` | induction over inputs |
| C08–C11 | `TokensAccountingCache` operations and undo | invariant over histories; case analysis |
| C12–C15 | `OrdersAccountingCache`, price calculation | arithmetic; invariants with ghost totals |
| C37 | `OrdersAccountingDB::merge_with_delta`, `OrdersAccountingDeltaData::merge_with_delta` | pointwise via C01/C03 lemmas, soundness invariant gives success |
| C38 | `TokensAccountingDB::merge_with_delta`, delta merge | as C37 |
| C16–C19 | `UtxosCache` with FRESH/DIRTY flags, layered flush, connect/disconnect | refinement to a plain map |
| C20 C21 | `ConstrainedValueAccumulator::satisfy_with` and fee extraction | conservation and suffix-sum invariants over the greedy loop |
| C22 | `distribute_pos_reward` v0/v1 | arithmetic on floors, sums over delegation maps |
| C23 | decimal printing and parsing on strings (lists of characters) | digit-string lemmas |
| C24 | checked arithmetic of `Amount`/`SignedAmount` | arithmetic |
| C25 | `Compact` ↔ `Uint256` | arithmetic on powers of 256 |
| C26 | `PerThousand` | finite table + parsing lemmas |
| C39 | `construct_uint!` on lists of 64-bit words | digit lemmas, loop invariants for shifts, multiplication, long division |
| C27 | `EmissionSchedule` | induction over heights |
| C28 | block index creation, `get_skip_height`, ancestor walk, last common ancestor on a block index map | invariant over all additions/deletions, recursion on height |
| C40 | median of the past block times | counting argument on sorted windows |
| C29, C41, C42 | PoS and PoW target computation, upgrades, consensus dispatch on the block tree | arithmetic on exact 256/512-bit operations; invariant over accepted trees |
| C30 C31 | mintscript evaluation stack machine, timelock checker | structural induction on scripts, induction on the stack machine's fuel; case analysis |
| C43 | `translate_input` (transaction, reward, timelock-only), `verify_full`, `verify_timelocks`, abstract crypto | case analysis against a declarative table of spending conditions |
| C45 | `verify_signature`, multisig verification and signing, abstract crypto | invariant over signing steps |
| C32 | nonce map of the transaction verifier, through layers and in the storage | the uses made by each step as a sequence, composed over transactions, blocks and histories |
| C49 | `TransactionVerifier`: NFT register, staking, tokens, orders and UTXO stages, nonces, the four undo caches, block rewards, flush to storage, both directions; read-only checks (`check_transaction`, input/output policy, signatures, frozen tokens, reward amounts) are arbitrary functions of what the verifier shows; per-epoch accounting deltas and the sealed accounting are not modelled | each stage refined to an abstract state, undo of each stage proved against any verifier that shows the state after it, then representation of the stored state is unique |
| C50 | `make_id.rs` on the codec of C46, transaction ids; the hash function is an arbitrary function on bytes | injectivity of what is hashed; conclusions are disjunctions with an explicit pair of clashing byte strings |
| C51 | the verifier of C49 with read-only checks that have four guarantees (`Guards`: inputs not empty, at most one command, inputs accumulated by the model of C20, orders between different currencies); ids opaque, assumed to determine the transaction (`Sane`) | invariant over the whole history: every transaction consumes an output, a nonce or an order state that never comes back |
| C52 | the verifier of C49 with the value checks of C20 (`ValueGuards`: inputs and outputs accumulate and balance, at most one command and one NFT, order commands of the version in force, reward outputs as the policy demands, staking reward as in C22); `read` tells the contents of outputs and `Described` that the verifier sees the same ones | every step of the verifier changes what the ledger holds by a known amount (`Moved`); sums over maps; induction over the chain. `InRange` of C49 stays a hypothesis |
| C53 | `check_transaction` on the transactions of the codec model, all limits and upgrade flags as parameters; UTF-8 decoding and `is_alphanumeric` arbitrary; that the version of the transaction is supported and that the config has limits at all is not a question | decision logic: the error given is a fault of the transaction (`Broken`), accepted iff there is no fault |
| C54 | the input/output policy for transactions and block rewards on the transactions of the codec model, with the accumulator of C20; ids and destinations become the numbers of the ledger models by `num`; reading from storage does not fail | decision logic: the error given is a fault (`TxFault`, `RewardFault`), accepted iff there is no fault |
| C55 | `Node`: the transactions of the codec model as the verifier model sees them (`Node.tx`), and what its read-only checks must refuse (`Enforces`: C53, C54, frozen tokens, pool ids and pledges, rewards); signatures, time locks of inputs and the size of blocks may add further refusals | refinement: the guards assumed by C51 and C52 hold (`C55_guards`, `C55_value_guards`), so their results hold for chains of encodable transactions unless hashes of these transactions clash; NodeExample.lean has such a node and a chain of four blocks |
| C56 | `check_operations_with_frozen_tokens` (`Node.checkFrozen`) within the node of C55; spec: `units` (units of a token an output holds), `Trades` (orders trading it), `Untouched` (same record, outputs, orders) | the check and the refusals of the token table carried through the stages of a transaction, block rewards, blocks and chains; values in range by C57; refusals and a chain with a frozen token as examples |
| C57 | the same model; spec: `Ledger.StakingOk` (the stored tables of staking agree), `Affordable` (coins and subsidies below 2^126), `FreshPools` (ids of new pools) | invariants over operations, transactions, blocks and chains: coherence of the tables of staking and a bound of all coins (forwards, from C52), and a bound for the balances of closed pools and for token supplies followed backwards from the successful write at the end of the block (`Up`); withdrawals are bounded by the accumulator's own check (C07). Removes the hypothesis `ChainInRange` from C49, C52 and C55 |
| C58 | `Stake.effective`, `Stake.checkHash`: effective_pool_balance.rs and hash_check.rs step by step with checked operations (`Stake/Model.lean`); spec: the published formula over ℚ and rounding up (`Stake/Spec.lean`) | the code's value is the rounded-up formula; cap, floor, growth and super-additivity follow from the formula |
| C59 | `Stake.validate` (check_proof_of_stake with kernel, signature, randomness, target), `Stake.produce` (blockprod: prepare, search, sign), `Stake.runJobs` (jobs container) in `Stake/Produce.lean`; VRF, hash and signatures are parameters with the laws in `Lawful`; spec: `WinsSlot`, `Valid`, `Loses` (`Stake/ProduceSpec.lean`) | the check is the specification; what the producer builds satisfies it; the search visits every slot once |
| C60 | `Epoch.connect`, `Epoch.disconnect` in `Epoch/Model.lean` (epoch_seal.rs, post_connect_tip, post_disconnect_tip, the per-epoch deltas) over the staking accounting of `Pos`; that disconnecting a block restores the staking state before it is a premise of `Reach` (it is C04 and C45); spec: `Reach`, `Ended`, `lastOf` (`Epoch/Spec.lean`) | invariant over histories: every stored delta of an epoch takes the chain's state at the end of the epoch before to that at its own end, every stored undo takes it back |
| C61 | `Epoch.Rnd.connect`, `disconnect`, `reorganize` in `Epoch/Randomness.lean` (update_epoch_data, EpochDataCache, reorganize_in_memory); the randomness a block contributes is a parameter, a function of its chain and of the randomness given to it; that the kind of a block is that of its height is a premise of `Reach` (validate_consensus); spec: `rnd`, `given` (`Epoch/RandomnessSpec.lean`) | invariant over histories: finished epochs right, epochs not begun absent |
| C62 | `Sync.locatorFromBlock`, `locatorFromBest`, `headersByLocator`, `headersSinceFork` in `Sync/Query.lean` (query.rs) over the database of C36, headers are block ids; spec: `IsLocator`, `Run`, `FirstMain`, `ForkOf` (`Sync/QuerySpec.lean`) | the walk of the locator by induction over the heights; the gap from a sparse distance between a number and its double |
| C63 | `Sync.handle`, `sendBlock`, `requestHeaders`, `handleNewTip` in `Sync/Model.lean` (block_manager.rs) for one peer over the database of C36; `Link`, `Step`, `Session`, `Idle`, `Terminates` (`Sync/Spec.lean`) are the two nodes, the queues between them and their interleaved steps. Not modelled: timeouts, peer scores, services, clocks, transactions | invariant with five phases (`Good`: headers asked, headers answered, blocks requested, blocks under way, done) and a lexicographic measure: missing blocks, distance of the known best block, messages left |
| C64 | the functions of C63; `Node`, `NStep`, `NReach` (`Sync/AnyPeerSpec.lean`) are a node and a peer that may send any message whose headers and blocks do not have the id of genesis. Duplicates inside one request for blocks are accepted, as in the code, which compares a request with the queue only. Scores and bans are not modelled: an error of a message leaves the state as the code leaves it | invariant `PInv` over all messages (`Sync/AnyPeer.lean`), `NInv` adds what was heard, asked for and served |
| C65 | wallet/src/account/utxo_selector: `select_coins` and the three algorithms it chooses from, with all their loops and checked arithmetic (`Select/Model.lean`). Shuffles, random bits and which of the most valuable groups a heap pops are parameters (`Rand`, `Rand.Fair`); weights are unbounded. How groups are made from outputs and fees is not modelled; `Payable` is the filter at account/mod.rs 561-565. | specification `Pays` (`Select/Spec.lean`); invariants of the loops; for branch and bound: every selection without change is either open or not better than the best found, and the open part of the tree shrinks with every round | selection, report, refusal, completeness, least waste proved; no failure only for pools that are light or of equal weights, with a witness of the failure otherwise |
| C66 | wallet/src/account/mod.rs: `select_inputs_for_send_request` with the grouping of inputs and outputs by currency, the selection per currency (C65), the change and the final computation of the fee (`Send/Model.lean`). Sizes of inputs and outputs, change addresses and order data are parameters; `usize` is unbounded; which unspent outputs are offered, signing and the key chain are not modelled. | specification `Send/Spec.lean`, on top of that of the chain's accumulators (C20); invariant of the loop over currencies; acceptance by composing with `C20_satisfiable_iff` | proved; the fee told is paid only if inputs of the request do not bring surplus coins, with a witness otherwise (`C66_surplus`) |
| C67 | wallet/src/account/output_cache/mod.rs, all functions that change the cache, and those of wallet/src/account/mod.rs that call them (`Cache/Model.lean`): pools, delegations, tokens and orders with their nonces, the map of descendants, conflicts, abandoning, reset to a height, loading. Not modelled: amounts, multisig and HTLC details (an output has a list of destinations), the order of names and errors of the database, the growth of the key chain. | specification `Cache/Spec.lean` (the chain as a list of transactions, `Run` as all histories); invariant over histories (`Cache/Inv.lean`) on top of the effects of each function (`Cache/Base.lean`, `Kill.lean`, `Track.lean`) | proved within the limits about disputed outputs, with witnesses beyond them |
| C68 | the same model | invariant over histories (`Cache/Desc.lean`) | proved for histories without reorganisations and restarts, with witnesses beyond them |
| C69 | chainstate/src/detail/orphan_blocks/pool.rs and its use in chainstate/src/detail/mod.rs (`Orphans/Model.lean`) on top of the block processing of C36. Blocks are their ids, which fix the contents; the random choice is a parameter; panics and endless loops are error values. Not modelled: the thread of the pool (its calls are executed one by one), blocks from peers (they never become orphans). | the pool refines a list (`Orphans/Pool.lean`, specification `Does`); invariants of the loop over waiting blocks (`Orphans/Node.lean`), induction over the blocks delivered (`Orphans/Order.lean`) with C36 | proved |
| C70 | wallet/src/key_chain/leaf_key_chain/mod.rs, the two chains of account_key_chain/mod.rs, `KeychainUsageState`, and the marking of outputs in wallet/src/account/mod.rs (`KeyChain/Model.lean`). Keys and hashes are numbers, derivation is a parameter with distinct hashes as hypothesis; overflows and `expect`s are error values; which token and order commands concern the account is a parameter. Not modelled: VRF keys, keys added by hand (watch only, multisig, private), failures of the database. | the maps hold exactly the keys up to the look-ahead after the last used one (`KeyChain/Inv.lean`), so that what is recognised depends on the last used keys only (simulation, `KeyChain/Restore.lean`); the gap condition by induction over the chain (`KeyChain/Gap.lean`) | proved |
| C71 | `C71_follow`, `C71_found`: a node that stays as it is, all accounts at one block; `C71_apart`: at different blocks; `C71_wait`: a node that is behind; `C71_branch`: a node that changes at will; `C71_abort`, `C71_stuck`: the two cases that fail; witnesses `C71_witness_promoted`, `_hidden`, `_mixed`. Model: `Verif/WalletSync`. Abstracted: which block concerns which account (`rel`), what the node answers (last common block, blocks of its main chain). Not modelled: failed calls to the node, database errors. |
| C72 | `C72_lookup`, `C72_bounded`, `C72_admit`, `C72_wake`, `C72_disconnect`, `C72_work`: invariant of the four indices over all runs, each event described exactly; `C72_no_abort`; `C72_awake`, `C72_settled`: invariant "queued or lacking something"; `C72_drain`: lexicographic measure; `C72_fair`: potential of at most two turns; witnesses `C72_witness_abort`, `_forgotten`, `_copy`, `_mined`. Model: `Verif/TxOrphans`. Arguments of the model: the answers of the transaction pool (modelled in `Verif/Mempool`) and the random choices. Not modelled: events, the initial block download, nanoseconds. |
| C73 | `C73_connects`: invariant "the pool in order of arrival connects from the tip to the verifier" over all runs; `C73_closed`: removing leaves; `C73_submit`, `C73_reorg`: each event described; `C73_reorg_keeps`, `C73_block`: cell by cell, the rebuilt pool agrees with the former one on all a surviving transaction touches. Model: `Verif/TxPool` on top of `Verif/Mempool` (C34), whose hypothesis on added transactions is discharged here. The verifier is a ledger of cells, one for each dependency the mempool knows of; all its other checks are one predicate of the transaction and the tip. Hence outside of the model: balances of delegations and orders, token supplies, frozen tokens, commands on orders of version 0. Not modelled: the tip moving during a verification, the initial block download, the rolling fee rate. |
| C74 | Refinement of the tables to a ledger (all outputs made, all outpoints spent, the tip), by induction over outputs, inputs, transactions, blocks and calls; `C74_balances`, `C74_balance_is_unspent`, `C74_available_utxos`, `C74_all_utxos`. `C74_reorg`: every step at a height keeps the rows below it, so winding back restores the tables exactly. Model: `Verif/Scanner`. Not modelled: the tables of fees, pools, delegations, tokens, orders, statistics and lists of transactions; Postgres (the in-memory storage is modelled). A valid chain is one whose inputs exist, are unspent and unlocked, whose outputs are new, whose block times are not before the median time, whose amounts add up to less than 2^128, and whose locks end before 2^63 (height) and 2^64 (time). |
| C75 | The table (buckets of ids, id ↔ address map, renumbering) refines a map from slots to addresses; invariant of the book by induction over the history of events; bans, reserved nodes and anchors are folds over the history; restarts go through the modelled storage. `C75_never_panics`, `C75_table_bounds`, `C75_tried_connected`, `C75_not_invented`, `C75_gossip`, `C75_bans`, `C75_ban_holds`, `C75_ban_ends`, `C75_reserved`, `C75_anchors`, `C75_select`, `C75_purge`, `C75_patience`, `C75_restart`, `C75_none_stranded`. Model: `Verif/PeerDb`. The hash functions, the address groups, the random numbers and the random sampling are parameters. Assumed: the clock plus 37 hours stays below the end of time and there are fewer than 2^32 - 1 events (a counter of failures is a `u32`). Not modelled: failures of the storage. |
| C76 | Invariant of the peer manager (on top of that of the address book) by induction over the history of events: counts per role, groups and sockets pairwise distinct over the list of connections made and being made, scores, bans, feelers; the effect of one event on the peers, the scores and the dials; the eviction as a relation on the list of candidates (a division into disjoint protected sets and the rest). `C76_never_panics`, `C76_connection_limits`, `C76_feelers_leave`, `C76_diversity`, `C76_no_double`, `C76_no_banned_peer`, `C76_scores`, `C76_misbehaving`, `C76_admission`, `C76_dialled`, `C76_inbound_evict_iff`, `C76_inbound_evicted`, `C76_inbound_protects`, `C76_outbound_evict_iff`, `C76_outbound_evicted`, `C76_inbound_iff`, `C76_flood`, `C76_outbound_kept`, `C76_candidates`, `C76_connect_iff`, `C76_seeks_full`, `C76_seeks_block`, `C76_reserved_dialled`, `C76_anchors_dialled`, `C76_anchors_set`, `C76_dial_ends`, `C76_handshake`, `C76_forgotten`; witnesses `C76_discouraged_accepted`, `C76_banned_reserved_refused`, `C76_feeler_doubles`. Not modelled: the messages exchanged (address gossip and its rate limits, pings), DNS seeds, the pending responses of the callers, the checks of compatibility of a peer (a Boolean of the event). |
| C77 | Refinement of receiving to a statement on the bytes to come: decoding is monotone in the buffer (a decision stays when bytes are appended, no decision leaves the buffer unchanged), hence receiving equals decoding all bytes of the stream, by induction over the reads; the four results are characterised by the form of the stream (frame, header above the limit, incomplete). The binary forms of the messages are built from those of C46. `C77_received`, `C77_invalid`, `C77_too_large`, `C77_eof`, `C77_stuck`, `C77_cut`, `C77_cut_many`, `C77_pending`, `C77_prompt`, `C77_sent`, `C77_sent_limited`, `C77_transfer`, `C77_message_exact`, `C77_message_kind`, `C77_peers`, `C77_unlimited_finding`. Not modelled: the noise encryption below, failures of the operating system, memory reservation, timeouts. |
| C78 | Labelled transition system of the backend with the tasks of its connections; each successful event is one of 23 described effects (`step_ok`), an invariant relates the maps of pending and connected peers with the tasks, and ghost invariants over histories give the reports of each connection (a regular shape), the balance of dials, which connections can end, and which can never end. `C78_life`, `C78_dials`, `C78_limit`, `C78_panic`, `C78_stop`, `C78_self`, `C78_disabled`, `C78_disabling`, `C78_ends`, `C78_disconnect`, `C78_lost`. Not modelled: the contents of messages and of the information about a peer (C77 models the messages), channels to the peer manager and the synchronisation being closed (node shutdown), the order of the `HashMap` in the search for a nonce, and time (a handshake that takes too long is a task that ends). Tasks are restricted to the events `Peer::run` can send next. |
| C79 | Decision logic of both sides outright (exact conditions of success, what is sent and told), then composition: the answer of one side is the input of the other. Linear arithmetic over clocks with offsets. Routing by induction over the messages received. `C79_version`, `C79_inbound`, `C79_outbound`, `C79_agree`, `C79_no_blame`, `C79_clocks`, `C79_sync`, `C79_notes`, `C79_categories`. Not modelled: the timeout of the handshake (a task that ends in C78), the texts of reasons (a parameter), closed channels, overflow of the present time plus the allowed difference. |
| C80 | Refinement of the cyclic array of three filters to the list of all insertions: the three hold adjacent stretches of its newest part. `C80_remembers`, `C80_holds`, `C80_forgets`, `C80_capacity`, `C80_fresh`. Not modelled: the bits of a bloom filter (an external crate), only that it reports what was inserted; probabilities. |
| C81 | Decision logic of each turn by classification of its effects (`Did`), invariants over sessions (counts of requests and submissions, size, the filter as a function of the announcements exchanged, distance of repeated ones through C80), then invariants over histories of the node. `C81_request`, `C81_accept`, `C81_once`, `C81_limit`, `C81_kept`, `C81_cleared`, `C81_fetch`, `C81_answer`, `C81_asked`, `C81_score`, `C81_credit`, `C81_no_service`, `C81_announce`, `C81_order`, `C81_spaced`, `C81_not_back`, `C81_accepted`, `C81_sessions`, `C81_relay`, `C81_blame`, `C81_event`, `C81_connect`, `C81_remembered`, `C81_forgotten`, `C81_confirmed`, `C81_notified`, `C81_again`. Not modelled: the mempool and the chainstate (their answers are inputs; assumed is that a transaction is found under its id and that the order of announcing is a permutation), failures of channels, the random distribution of delays (the delays are inputs), overflow of clocks. |
| C82 | Round trip of the file format over any exact codec (C46 for blocks) and any division of the input into pieces; the buffered writer refined to the bytes handed to it; the lists of blocks from the invariants of C36; import by induction over the chain and, with stale blocks, through the invariant of C69. `C82_roundtrip`, `C82_sound`, `C82_truncated`, `C82_other_chain`, `C82_refused`, `C82_start_unique`, `C82_written`, `C82_disk_full`, `C82_main_list`, `C82_tree_list`, `C82_export`, `C82_reproduce`, `C82_resume`, `C82_again`, `C82_interrupted`, `C82_stale`, `C82_stale_fails`, `C82_reckless`. Not modelled: the files of the operating system, interruptions of single writes, what the unsafe mode of the database means. |
| C83 | The checksum is linear over xor and its step is injective, so two words with the same residue differ by a word with residue zero; that no state reached from one symbol within 1022 steps is again one symbol is evaluated by the kernel for the 31 symbols (`far_all`). Round trip of bits and characters by induction; prefixes compared by evaluation. `C83_kinds`, `C83_roundtrip`, `C83_injective`, `C83_strings`, `C83_canonical`, `C83_malleable`, `C83_typo`, `C83_typo_destination`, `C83_typo_ids`, `C83_capitals`, `C83_short`, `C83_chains`, `C83_form`, `C83_json`. The crate `bech32` is not in the repository: it is modelled after BIP 173, BIP 350 and its documentation, which is trusted (including that left-over bits are not checked); strings of the tests of the repository are reproduced as examples. Not modelled: QR codes, the replacement of hexified objects inside JSON texts. |
| C84 | Simulation by induction over the transactions: the wallet's step on a command follows the ledger's step of the token model (C08-C11), commands about other tokens change neither; decision of each request compared with the conditions of the ledger's operation. `C84_sound_start`, `C84_sound_issue`, `C84_sound_run`, `C84_prediction`, `C84_offers`, `C84_again`, `C84_not_mine`, `C84_mint_beyond`, `C84_needs_single_commands`, `C84_needs_burning`. Nonces (C32, C68), signatures, fees and the length limit of metadata addresses are left out. |
| C85 | Refinement: simulation between the locked maps with deltas and plain functions, by induction over the calls; merged iteration proved to list the overlaid map by induction over both sides; prefixes are intervals of the lexicographic order. `C85_transactions`, `C85_snapshot`, `C85_end_is_final`, `C85_typed`, `C85_typed_prefix`, `C85_typed_order`, `C85_dump`. The in-memory backend behind the locking adaptor is modelled; LMDB and SQLite, waiting threads and I/O errors are not. `merge_join_by` and `BTreeMap::range` are taken by their documentation. |
| C86 | Refinement of an abstract safe (contents in the clear, password, lock) by the storage, by induction over the calls. `C86_safe`, `C86_no_panic`, `C86_flags`, `C86_sealed`, `C86_locked`, `C86_needs_root`. Cipher and key derivation are parameters with the laws in `Sound`: decryption inverts encryption; ciphertexts are refused under other keys; passwords do not collide under a salt. The last two are idealisations of computational assumptions; `toy_sound` shows that the laws can be met. Erasing memory and what a database file keeps of deleted rows are not modelled. |
| C87 | Injectivity of the texts; decision logic of verification against the specification `Vouches`, which uses the quorum of C45; round trip. `C87_message`, `C87_verify`, `C87_one_intent`, `C87_challenge`, `C87_unsigned_inputs`, `C87_components`, `C87_roundtrip`, `C87_can_sign`, `C87_not_a_spend`, `C87_message_is_intent`. Texts are byte strings, the hash and the signature scheme are parameters; that a signed hash stands for one text is assumed of the hash in `C87_challenge` only. |
| C88 | Exact grammar of path texts (`PathText`), lawful codec, commuting square of private and public derivation by induction over the steps. `C88_text`, `C88_print`, `C88_valid`, `C88_bytes`, `C88_increment`, `C88_path`, `C88_stepwise`, `C88_public`, `C88_public_only_normal`, `C88_inputs`, `C88_kinds`, `C88_address_key`, `C88_found_key`, `C88_wallet_paths`. The curve is any commutative group with a generator of order `n` (`Sound`), HMAC is any function; `toy_sound` shows that the laws can be met. That HMAC hides keys or has no collisions is not stated, nor is the chain of VRF keys modelled. |
| C89 | Invariant of the walk back from the tip (a dropped pool has no balance further down), item-by-item characterization of the search data, search against the spec `Wins`/`InWindow`. `C89_balances`, `C89_search`, `C89_cache`, `C89_distinct`, `C89_panics` in Verif/Slots. Assumed of the chain: pools exist on intervals of heights (`Lifetimes`). `C89_pools_end`, `C89_lifetimes` (Verif/Slots/Ledger.lean) derive this for every chain the ledger of C49-C57 accepts, from `Sound` (C57), with the balances being those `NonZeroPoolBalances::obtain` reads from the states; `C89_obtain` says what these are, and when reading them is an error (left out of the model of the search). Disconnecting in memory is taken to restore the balances of a height (C49). Storage errors, parallelism and the async wrapper are left out; the hash, and the decoding of compact targets, are parameters. |
| C90 | Lengths of the binary forms of C46, compared with witnesses written out as bytes (`RawFor`, `Signs`). `C90_signature`, `C90_raw` (the witnesses of the spec are those of the code), `C90_unsupported`, `C90_transaction`, `C90_estimate`, `C90_pay_all`, `C90_sweep` (decommissioning, emptying a delegation and sweeping addresses, where the fee is taken off the output after the estimate) in Verif/Size. The made-up key and signature are any bytes of the right lengths; the kept results of `multisig_signature_size` and the choice of a destination from an output (`input_signature_size`) are left out. No claim for an input of a timelock contract whose key is `AnyoneCanSpend`. |
| C33 | `FeeRate`, fee checks, rolling minimum (float decay is an arbitrary function) | arithmetic, decision logic |
| C47 | fee estimation points | monotonicity over arbitrary pools |
| C34 | `MempoolStore`: dependencies, relatives, counters, indices, cluster limits, dropping, expiry, trimming (memory measure is an arbitrary function; RBF is disabled in the code and not modelled; the admission checks of `TxPool` are the hypothesis `Addable`) | graph lemmas, invariant over histories |
| C48 | `collect_txs`, `DefaultTxAccumulator`, multi-root traversal (verifier and time lock check are arbitrary functions; tip checks not modelled) | loop invariant over queue, pending counters and heap; induction along sequence numbers |
| C44 | the bytes fed to the hash of a signature, mode by mode; input commitments of both versions and of kernels (signature schemes are not modelled, the hash function is arbitrary, errors of the providers are not modelled) | the message is a function of an explicit view, each part of it has a prefix free form; per input case analysis of commitments lifted over the list |
| C46 | binary forms of all types of transactions, blocks, witnesses and genesis, type by type; tag lookahead; ids with an arbitrary hash function (validity of keys and proofs is an arbitrary predicate on bytes) | two laws (read back, canonical) shown for each combinator and composed over the types |
| C35 | `BlockStatus` bitfields | bit-vector reasoning |
| C36 | `attempt_to_process_block`, `integrate_block`, `activate_best_chain`, `reorganize`, connect/disconnect tip, `BlockInvalidator`, best chain candidates, `with_rw_tx`, the consistency checker; the chain state is abstract with a law (disconnect undoes connect) that `Chainstate/Ledger.lean` derives for the verifier of C49; checks of a block that do not concern the tree are an arbitrary function of block and call | invariant over all sequences of process/invalidate/reset calls |

## Findings (disagreements between code and stated property)

Recorded here as they are confirmed by a proved counterexample.

* Accounting: undoing a merge of balance changes fails when a merged-in change equals -2^127
  (`C03_undo_min_fails`).  Not reachable through `add_unsigned`/`sub_unsigned` alone (single changes are bounded by
  2^127-1), only as an accumulated change.
* Amounts: the signed remainder refuses `MIN % -1` although the exact result 0 is representable (`C24_signed_rem`).
* Orders: `create_order` checks that the *ask* balance of the new id is zero but not the *give* balance, while its
  undo requires the give balance to equal the created amount.  Undo is therefore exact only for states in which an
  absent order has no give balance; that is part of the invariant `SoundView`, which every history preserves.
* Tokens: minting an *unlimited* or *lockable* token does not look at the current supply, and a fixed cap may be set
  above 2^127.  A mint that takes the total over 2^127-1 is accepted by the operation; from then on the supply cannot
  be read through the pending layer and the flush fails (`C08_unlimited_mint_overflow_detected_late`).  So the error
  surfaces only when the block is flushed, not when the transaction is connected.
* Staking: the query for all shares of a pool through a pending layer keeps a share that dropped to zero as an entry 0
  (`Some({d: 0})`), while after the flush the entry is gone (`None`) – `C05_shares_zero_entry`.  Value by value the
  answers agree (`C05_flush_faithful`).  Reward distribution treats both alike.
* Staking: the operations accept re-creating a decommissioned pool id whose delegations still hold shares; the new pool
  is then unbalanced (`C06_reused_id_unbalanced`).  Unreachable in the node as long as pool ids (hashes of a spent
  outpoint) are never repeated.  Delegating to a delegation of a decommissioned pool is accepted and gives the
  non-existing pool a balance (`C06_delegate_to_dead_pool`).
* UTXO set: adding an outpoint "without overwrite" only looks at the top cache.  If a lower layer has the outpoint, the
  entry is marked fresh, and spending it brings the lower version back (`C16_uniqueness_needed`) or the flush fails
  (`C19_uniqueness_needed`).  C16–C19 therefore assume that created outpoints are unique, as the code comments do.
* UTXO set: a block reward with an empty input list connects but cannot be disconnected
  (`C18_reward_without_utxo_inputs`), and a non-UTXO reward input before a UTXO input makes disconnection restore
  nothing (`C18_reward_misaligned`).  Both are excluded elsewhere (a stake block has exactly one UTXO kernel input).
* Staking rewards: version 0 refuses a reward when (reward - cost) × margin exceeds 128 bits although the result fits
  (`C22_no_arithmetic_failure` shows this is its only arithmetic failure).
* Decimal amounts: parsing **panics** on a dot followed by 256 digits whose value fits 128 bits, e.g. `"." + 256 × "0"`:
  the length check allows 257 bytes, assuming at least one digit before the dot, but that digit is optional
  (`C23_parse_panics`, exact set in `C23_parse_panics_iff`).  Reachable from any text that is deserialised as an amount.
* Decimal amounts: zero printed with more than 38 decimals (`"0"`) is refused when read back with the same number of
  decimals (`C23_zero_many_decimals_refused`), and subtracting zero is refused when the other operand has more than 38
  decimals (`C23_subtract_zero_refused`), contrary to the function's comment.  10^39 does not fit 128 bits.
* Emission: the documentation of a schedule period says its subsidy applies starting at the period's height, but the block at
  exactly this height is still paid the previous subsidy (example in `Verif/Emission/Props.lean`).
* Proof of work: the length of the last period is computed by a checked subtraction of timestamps (`actual_timespan`, the
  code has a TODO).  Timestamps of proof of work blocks need not increase, so acceptable chains exist after which every
  further block makes the node panic (`C41_panic_reachable`, a chain of 4031 blocks whose times differ by 1000 seconds).
* Proof of work: when old target times timespan exceeds 256 bits the result is replaced by the largest number *before* the
  division, so slow blocks would lower the target (`C41_overflow_lowers`).  The limits of all networks that retarget exclude it
  (`C41_networks`).
* Proof of stake: an upgrade to proof of stake without initial difficulty after blocks of another kind panics
  (`C29_panics_without_initial`); no shipped configuration has one.
- **Spending an output locked for a huge number of blocks aborts the node (C31).** `BlockHeight + BlockDistance`
  `expect`s that the sum fits in `i64`. `check_timelock` converts the lock's `u64` to `i64` (an error when it does not fit)
  but a distance `n < 2^63` with `source_height + n >= 2^63` reaches the `expect`. No validation bounds `ForBlockCount` in
  outputs, so a transaction that creates such an output is valid, and any attempt to spend it (already in the mempool, and
  before any signature is looked at) panics. `C31_panic_iff` gives the exact domain; `C31_panic_reachable` shows
  `verify_full` panics for every tip height from 1 on.
- **Multisig signing with a mismatched challenge reaches `unreachable!` (C45).** `sign_classical_multisig_spending` takes the
  challenge as an argument and does not compare it with the one inside the partial spend. `C45_sign_mismatch_panics`;
  `C45_sign_no_panic` is the domain where it holds.
- **Multisig counts key positions, not keys (C45).** A challenge may list the same key twice, and its owner then fills both
  positions with one signature. `C45_duplicate_keys_count_twice`.
- **Removing a mempool transaction that has both parents and children corrupts the counters (C34, latent).** `remove_tx` only
  subtracts the removed transaction itself from its ancestors, although its descendants are cut off too, and with reasons other
  than `Block` does not touch its descendants at all. Exact when the transaction is a leaf, or has no parents and is removed as
  `Block` (`C34_remove`); wrong in the middle (`C34_middle_removal_breaks`). Production only removes leaves first; the `Block`
  reason is unused and `drop_conflicts`, which removes in hash order, is behind `ENABLE_RBF = false`.
- **A failed `add_tx` changes the accumulator (C48).** The trait promises that an error leaves it unchanged; on overflow of the fees
  the size is already increased (`C48_add_tx_error_not_clean`, tx_accumulator/mod.rs 97-119). Unreachable from a valid pool.
- **The multi-root post-order is not one (C48).** All roots count as visited at the start, so a root that is an ancestor of an earlier
  root comes after it (`C48_given_not_in_order`). Harmless here: `collect_txs` waits for parents itself.
- **Block assembly needs an atomic verifier (C48).** `C48_connects` holds for a verifier that a refused transaction leaves unchanged.
  `connect_transaction` is not atomic, and `collect_txs` (198) calls it on the verifier itself, not on a child as the admission
  path does (tx_pool/mod.rs 887). `C48_verifier_not_atomic` proves that the modelled verifier violates the condition, and
  `C48_assembled_block_invalid` runs the modelled `collect_txs` with it: three transactions that the mempool accepts one after
  the other (fill an order and delegate 50 in one transaction; withdraw the delegation including the 50; freeze the order,
  highest fee) make it select freeze and withdrawal, which is not a valid block, because the delegation of the refused fill stays
  in the verifier. The three transactions remain in the pool, so the next attempt assembles the same block.
- **NFT issuance cannot be disconnected from the verifier that connected it (C49).** `unregister` calls `precache_token_issuance`,
  which is an error if the cache has an entry (token_issuance_cache.rs 104-118, 177-201): `C49_nft_cannot_be_disconnected`.
  Disconnecting a block uses a new verifier, so it is not affected; evicting such a transaction from the mempool always
  fails and leads to a rebuild of the pool.
- **Connect, disconnect, connect again in one verifier (C49).** After a disconnect the undo cache keeps an `Erase` for the transaction
  if there are other undos of the source, and `insert` treats it as existing: `C49_reconnect_fails`. A transaction evicted from
  the mempool is refused when it is submitted again, until the pool is rebuilt.
- **Balances between the operations of one transaction (C49, C57).** The theorems of C49 assume that no balance leaves its range even between
  two operations (`InRange`), while the verifier itself checks only at the end of the staking stage. A transaction that takes more
  from a delegation than it holds and delegates to it at the same time would be outside of them. C57 shows that the checks of the node
  exclude it: the accumulator refuses withdrawals above the balance, and all coins together are below the limit. A pool that was
  closed can still be delegated to, and what is withdrawn again stays in its balance, so that balance is not bounded by the coins
  there are; the write at the end of a block fails before it overflows.
- **Mempool relatives ignore balances (C34).** A withdrawal that relies on a deposit still in the pool is not a child of the
  deposit (`C34_deposit_not_tracked`), so expiry can remove the deposit alone. The code notices when the verifier fails to
  disconnect and rebuilds the pool.
- **Resetting failure flags below an invalid block leaves an inconsistent tree (C36).** `reset_block_failure_flags` on a descendant of
  an invalid block clears the flags of that subtree only. A block recorded as valid then has an invalid parent, the node's own
  consistency check fails, and blocks on top are refused with a general error (`C36_reset_finding`). The other theorems about
  histories assume that resets are called on blocks whose parent is valid (`Proper`).
- **Invalidation and reset do not update the lowest height with allowed reorganizations (C36).** Only `integrate_block` does. When they
  switch to a longer chain (of more trust but not more than the invalidated one) the stored height is too low, the check in the
  consistency checker would fail, and a reorganization deeper than the limit is accepted (`C36_reorg_limit_finding`). With block
  processing only, the limit holds (`C36_reorg_depth`, `C36_min_height`).
- **A crash between two transactions of block processing (C36).** When a chain cannot be connected, the index of the new block is stored
  as valid in one transaction and the failure is recorded in the next one. If the node stops in between (or the second one fails),
  the block stays recorded as valid without its data: it cannot be submitted again, its children are refused with a general error
  without the failure ever being recorded, and the consistency check fails (`C36_commit_finding`). Tip, chain state and main chain
  are unaffected for every behaviour of the storage (`C36_commit_all_or_nothing`).
- A block that forks off below the reorganization limit is recorded as invalid, not just refused (`Err.beforeReorgLimit` is classified
  as a bad block), so it stays refused even if the limit were raised later; only a reset of its flags removes it.
- **Token ids of version 0 and other ids (C50).** make_id.rs 17-33 says that ids of different kinds made from the same input are distinct.
  For token ids of version 0 made from an input that takes from a delegation there is an output reference whose order id is the hash of
  the same bytes (`C50_token_v0_finding`); the two need different inputs and the output number is at least 65536, so this has no
  practical effect. If the first input is an order command without nonce, the id could repeat; that is excluded by configuration only:
  such commands and token ids of version 1 come into force at the same height on every network (config/builder.rs).
- **What makes a transaction with an order fill unique (C51).** The comment in check_transaction.rs 428-437 says that forbidding fills
  with a zero amount ensures that the transaction has a UTXO and so is unique. That is not what ensures it. Zero fills are refused by the
  accounting anyway (`OrderUnderbid`; `ordInput_fill`), and positive fills alone do not force another input: the accumulator deducts what
  was paid only after all inputs are summed up, so two crossing orders, or one order between equal currencies, pay for each other.
  Uniqueness rests on the rule of one command per transaction (purposes_check.rs 214-227) together with
  `OrdersCurrenciesMustBeDifferent` (check_transaction.rs 466-475): `C51_no_replay` with them, `C51_each_check_needed` without either.
- **One signature serves several inputs (C44).** The position of the signed input is not part of the message. With all inputs covered
  and all or no outputs, the messages of all inputs are the same (`C44_position_finding`), so inputs with one key can carry one and the
  same signature.
- **Block rewards and transactions are not told apart in signed messages (C44).** There is no tag of the kind; version and flags are
  just left out for rewards. `C44_kinds_finding` gives a reward and a transaction with the same message (finding one with given hashes
  takes the work of fixing some fifty bits of a transaction id, and the spent output must exist).
- **Multisig spends are malleable (C46).** The signatures are a `BTreeMap<u8, Signature>`, whose decoder takes entries in any order and
  lets a repeated key override the earlier entry. Anybody can rewrite a witness into different bytes with the same meaning
  (`C46_multisig_finding`). The transaction id does not cover witnesses, the witness merkle root does.
- **A read of no bytes loses the byte looked at (C46).** `Peekable::read` takes the pending byte before it looks at the length of the
  buffer (`C46_lookahead_finding`). Unreachable at present: the first read of all tagged types is the one byte tag.
- **The limit of one issuance misses HTLC outputs (C53).** `get_tokens_issuance_count` counts token issuance of version 0 inside transfers,
  locked transfers and burns, not inside HTLC values (`C53_htlc_issuance_finding`). Possible only if HTLCs are in force while tokens of
  version 0 still are, which is so at no height of mainnet and testnet (config/builder.rs 62-101, 236-310).
- **Units of a frozen token could be destroyed (C56).** With `FrozenTokensValidationVersion::V0` the inputs of a transaction are not checked
  (mod.rs 742-752), only its outputs: an output holding units of a frozen token can be spent and the units left over, which makes them
  disappear although the recorded supply remains (`fzRun false fzLose` in Policy/FrozenExample.lean: 450 units gone, supply still 500).
  Holdings can not move otherwise (`C56_outputs_v0`). Fixed in the code by V1, in force on mainnet from height 254,740.
- **Comments of effective_pool_balance.rs (C58).** Lines 132-136 say that the adjustment is 0 for a pledge of 0, which it is not (it is then largest: the weight
  is the balance divided by 1.075375728, `C58_floor`), and lines 139-140 that the weight is a parabola in the balance, while it is linear in it and a parabola in
  the pledge (`C58_pledge`). The computation itself is the formula. A supply below 1000 atoms makes it fail for every pool.
- **Two pools with one staker key starve each other (C59).** The block producer remembers the timestamp used last by the public key of the staker
  (blockprod/src/detail/mod.rs 104-113), not by the pool. After a failing search for one pool, a call for another pool with the same key on the same tip begins
  after the slots just searched and answers "try again later" although the other pool wins one of them (`shared_key_starves`). `C59_cover` is therefore
  stated for calls of one pool.
- **A tip that changes late (C59).** If the job manager handles a new tip between the end of a search and the message that remembers its timestamp
  (jobs_container.rs 71-89, 140-149), the timestamp is remembered for the new tip, and slots never examined for it are skipped
  (`stale_after_new_tip`). If the tip moves between the two reads of it by the producer, the block may not be later than its parent and is refused
  (`C59_accepted` states acceptance under "later than the parent" and that this holds if the two reads agree).
- **A seal distance of zero (C61).** `sealed_epoch_distance_from_tip` is not validated. With 0 the last block of an epoch is given the randomness of its own epoch. That is
  absent the first time, but left in the database when the block is disconnected (epoch_seal.rs 258-269 deletes it only with the first block of the epoch), so a node that
  connects the block again computes other randomness than before, and two nodes on the same chain differ (`C61_distance_finding`). The networks use 2; a comment at
  consensus/src/pos/mod.rs 81-90 says that 0 is used by tests only. The same comment says that missing data should become an error; on a network whose first epochs have no
  proof of stake it is regularly missing (`C61_equation`), so that change would reject valid blocks there.
- **Endless exchange after a long reorganization (C63).** A client asks for headers with the locator of the best block it knows the server to have. If the server has
  left the branch of that block, and the last header of a full answer has less trust than that block, the client keeps the block and sends the same locator again, for ever,
  even though the server has more blocks (`C63_endless_finding`). The comment at block_manager.rs 358-371 expects this if the number of headers in a message is not
  noticeably larger than the depth limit for reorganizations. `Near` gives the condition under which it cannot happen: the old branch together with the blocks of the new one
  up to the same trust are not more than the headers in a message. With 2000 headers and a depth of 1000 this holds if the new branch has at least the trust
  of the old one after 1000 blocks.
- **The random draw loses a group and aborts the wallet (C65).** When the groups drawn are too heavy, `select_coins_srd` (utxo_selector/mod.rs 243-250) pops groups until the rest
  is light enough. The check is made after a group has been popped, so the group at which the loop stops has left the heap but is still counted in the value and weight.
  The result can then be worth less than the target, and `compute_and_set_waste` panics ("effective value is larger than target"), which aborts the process (`C65_draw_fails`:
  the pool contains a selection for the target within the weight, yet the program fails for this order). Besides, the heap pops the most valuable group first, while the comment says that the least
  valuable ones are removed. `C65_no_panic` shows that this cannot happen if all groups together are within the weight or all groups have the same weight.
- **Surplus of coins in the inputs of a request lowers the fee (C66, latent).** If the inputs that a request already has bring more coins than its outputs and the fee, the selection is asked for 0
  coins, and the surplus becomes change without the cost of the change output having been set aside; account/mod.rs 466-497 nevertheless adds this cost to the fees saved, so that it is given
  to the change. The fee paid is then lower than the fee the user is told (and than the rate demands) by the cost of one output (`C66_surplus`, `C66_fee_bound`). The present callers do not reach this:
  coin outputs are spent with a fee computed by hand (account/mod.rs 1289-1313).
- **Observations on the wallet (C66).** Change outputs of tokens are counted twice in the size, so the fee is somewhat too high (the example `sample_built`: 570 for 540 bytes). Without
  change the excess (below twice the cost of a change output) goes to the fee, which is then greater than the fee told. Tokens brought by inputs of a request that has no output in this token get no
  change and are lost.
- **A conflict makes the wallet impossible to open (C68).** Transactions that lost against the chain (`Conflicted`) and abandoned ones stay in the database, and `OutputCache::new` loads them like all
  others: `add_tx` (output_cache/mod.rs 1012-1065) runs the nonce checks for them too. After a withdrawal from a delegation (or a token or order command) became conflicted because another one with the
  same nonce was confirmed – the very case `update_conflicting_txs` is for – the next start fails with `InconsistentDelegationDuplicateNonce` (`C68_witness_unloadable`).
- **A restart revives abandoned transactions (C67, C68).** In the same way an abandoned transaction is loaded as if it counted: it overwrites the state of the outputs it spends, so that an output
  which a confirmed transaction spends is listed as unspent (`C67_witness_restart`); its nonces count; it is entered in the map of descendants, and the next confirmed transaction with
  such a nonce fails to be scanned because an abandoned transaction cannot become conflicted (`C68_witness_stuck`).
- **Double spends are not noticed (C67; the code has a TODO, issue 1875).** A transaction whose input was spent by another one in a block stays waiting, and its change is offered for spending
  (`C67_witness_double_spend`); abandoning it makes the spent input appear as unspent (`C67_witness_abandon`).
- **Freezing a token gives up the payments behind it (C68).** `violates_frozen_token` is checked without excluding the confirmed transaction itself (unlike the check of nonces, 857-905): when a
  transaction that freezes a token is confirmed it counts as in conflict with itself, and all waiting transactions that spend its change become conflicted although they are valid; they are no longer
  rebroadcast and what they spend is offered again (`C68_witness_freeze`).
- **Nonces after a reorganisation (C68).** A waiting withdrawal behind one that is taken back and confirmed again does not count when it is confirmed itself (`already_present`), so the last nonce stays
  behind and the next confirmed withdrawal cannot be scanned (`C68_witness_reorg`).
- **Descendants are missed after a reorganisation (C68).** A transaction that returns to the mempool after having been confirmed has no link to the ones that spend from it; abandoning it leaves
  them waiting (`C68_witness_orphan`).
- **The order for loading is not an order (C67).** `wallet_tx_order` (wallet/src/account/output_cache/mod.rs) calls abandoned and conflicted transactions equal to all unconfirmed ones while two
  inactive ones are ordered by their number (`C67_witness_order`); `sort_by` gives an unspecified order for it and may panic.
- **Undoing in the wrong order (C68).** `abandon_transaction` and `update_conflicting_txs` undo transactions in the reverse of the order of a breadth first walk, which is not an order of dependency. Two
  commands for one token that both spend from the abandoned transaction are undone in the order of their ids; if this is the wrong one the last nonce stays one too high, and the next command of
  the wallet has a nonce that the node refuses (`C68_witness_undo_order`).
- **Re-sending a waiting block displaces another one (C69).** `OrphanBlocksPool::add_block` (pool.rs 97-105) makes room before it checks whether the block is in the pool already: when the pool is full,
  a block that is in it displaces another one although nothing is added (`C69_witness_again`).
- **A pool of size zero panics (C69).** `max_orphan_blocks` is an option of the node; with 0 the first block without known parent runs into `expect("As orphans can never be empty …")` (pool.rs 92), and the
  node aborts (`C69_witness_zero`).
- **Children of a block that fails its checks keep waiting (C69).** `process_block_and_related_orphans` returns before the waiting children are looked at, and only an invalidation after a failure to connect
  removes them (`remove_orphans_of`); after a failed check they stay in the pool until they are displaced (`C69_witness_stale`).
- **Unconfirmed payments can hide later ones from a restored wallet (C70).** Keys are marked as used also by transactions that are not in a block (mempool transactions and those of the user), and by
  blocks that are undone later. The wallet then gives out addresses beyond the look-ahead of what the chain shows; if the earlier payment is never confirmed, or only after the later one — the same block is
  enough — a wallet restored from the seed does not find the later payment (`C70_witness_unconfirmed`, `C70_witness_order`); the scan of a block goes over its transactions once.
- **A rescan gives out addresses again (C70).** `reset_wallet_transactions` (wallet/mod.rs 831-860) resets the last issued index along with the last used one, so that addresses given out before but not
  used yet are issued as new ones (`C70_witness_rescan`).
- **Only the first own key of an output is marked (C70).** `mark_output_as_seen` (account/mod.rs 2052-2076) returns at the first destination found. For a pool whose decommission key and staker key are both of
  the wallet the staker key is not marked: it is returned as the next unused address although it is in the chain, and a restored wallet issues it again (`C70_witness_staker`). The same for both keys of an HTLC.
- **An output whose first destination is `AnyoneCanSpend` is not looked at further (C70).** `mark_output_as_seen` returns `false` there, whereas `is_mine` looks at all destinations; an HTLC that anybody with
  the secret may spend and the wallet may refund is not recorded by a wallet that did not create it (`C70_witness_anyone`).
- **The look-ahead must not be zero (C70, no defect).** `next_unused` gives out the next key even then, and a restored wallet would not know it (`C70_witness_zero`); `set_lookahead_size` of the wallet
  accepts 0, the controller refuses it (wallet-controller/src/lib.rs 677).
- **A wallet stopped between two accounts aborts at the next start (C71).** Batches are scanned and committed account by account. If the wallet is stopped after the last batch was committed for one account and
  before it was committed for the next (there are always two: the unused account is scanned too), one account is at the node's best block and the other is not, and `get_common_block_info` (sync/mod.rs 396)
  fails its `assert!(node_block_id != wallet_block_id)`: the process ends at every start until the node has a new block (`C71_abort`).
- **Accounts with the same last shared block cannot be synchronised (C71).** If the same interruption is followed by a reorganisation that replaces the block, one account is on the stale branch and the other at
  the block where it leaves the chain; both have the same common block, the number of blocks to fetch to the next group is 0, and every attempt ends with `NoNewBlocksFound` (`C71_stuck`).
- **An account found while the others are ahead (C71).** It is promoted in the middle of a round, is not in any group of that round and stays behind; if the round reaches the best block, the next one aborts
  as above (`C71_witness_promoted`).
- **A transaction for the unused account while the account before it has none (C71)** makes `create_next_account` fail with `EmptyLastAccount` after the scan has been committed. The next call succeeds; the
  wallet holds the transactions of an account that it does not list (`C71_witness_hidden`).
- **Merged groups trust the first answer (C71).** After fetching the blocks up to the next group the code does not check that the last of them is the block of that group; a node that reorganises twice in
  between leaves an account with a mixture of two branches, counted as in sync (`C71_witness_mixed`).
- **A late transaction of a disconnected peer can abort the node (C72).** When a peer disconnects, its queue is removed but it stays in the schedule of the round. `p2p/src/sync/mod.rs` 509-512 reports the
  disconnection to the mempool *before* the tasks of the peer are stopped, so a transaction of the peer can still come in; if it is an orphan and its parent is accepted in the same round, the peer is in the
  schedule twice, and when it is served for the second time `assert!(!peer_queue.is_empty())` (work_queue/mod.rs) fails (`C72_witness_abort`). `C72_no_abort`: this is the only way.
- **An orphan whose parent is accepted by another way is forgotten (C72).** A unit of work drops an orphan from the queue if a parent is an orphan too. If that parent is in the transaction pool already
  (submitted once more and accepted while it was an orphan), processing it gives `Duplicate`, which does not queue its children. The child stays, complete, until it is 50 seconds old and another orphan comes in
  (`C72_witness_forgotten`).
- **A transaction of the chain that comes in again is taken for an orphan (C72)**, since its inputs are spent, and keeps orphans that spend its outputs from being processed (`C72_witness_copy`).
- **Orphans are not looked at when their parents come with a block (C72)** (there is a TODO in tx_pool/reorg.rs): `C72_witness_mined`.
- **The hard limit is never reached (C72).** With a capacity of 100 the check against `ORPHAN_POOL_SIZE_HARD_LIMIT` cannot act; if the capacity were 50000, `InternalId::new` would fail its assertion before it.
- **An orphan sent by two peers belongs to the first (C72)** and is dropped when that peer disconnects.
- **The check for conflicts in the mempool decides nothing (C73).** A transaction that consumes something a transaction of the pool consumes does not connect on top of the pool, and that is checked before; so the
  answer `Conflict` is not given (`C73_submit`), a double spend is reported as a missing or spent input.
- **Dependencies the store does not track (remark to C73).** The verifier enforces more than the mempool tracks as dependencies: a withdrawal needs the balance another transaction adds to a delegation, a transfer
  needs the token unfrozen, minting needs room in the supply. When the transaction that provides this is evicted alone, the other one stays in the pool although it does not connect any more; the code repairs this by
  rebuilding the pool when a disconnection fails, and with the next tip. C73 says nothing about such transactions: in the model these checks are part of a predicate that does not depend on the pool.
- **Spent block rewards stay in the balance of the API server (C74).** An input that spends a `Transfer` or `LockThenTransfer` output of a block reward or of the genesis marks the output as spent, but neither the balance
  of the address is decreased nor the transaction listed for the address (scanner 1346-1369, against 472-543 where the balance was increased). On every chain whose genesis pays coins to an address the balance shown for
  it is too high for ever after (`C74_spent_reward_counted`); the list of outputs is right.
- **Locked block rewards are shown as spendable (C74).** A `LockThenTransfer` output of a block reward (proof of work pays with one) goes to the balance and the list of spendable outputs at once
  (`C74_locked_reward_counted`).
- **A long lock stops the API server (C74).** The node accepts an output with `ForBlockCount(n)` or `ForSeconds(n)` for any `n`. The scanner computes the end of the lock when it sees the output: with
  `n < 2^63 ≤ height + n` the time-lock check itself panics, with a time past `2^64` the conversion to `UtxoLock` does (`expect("no overflow")`). The process ends, and does so again at the same block after a
  restart (`C74_long_lock_aborts`, `C74_long_lock_stops`). By reading: with Postgres this happens for all heights from `2^63` and times from `2^63` on, since they do not fit in its integers.
- **Statistics of the API server (remarks, by reading).** The statistic `Staked` is not decreased when a pool is decommissioned: the amount is read from the data of the pool after `decommission_pool()` has set it to
  zero (scanner 1372-1400, 1424-1443). The rewards of stakers added to it are not removed either. `Preminted` is increased by the outputs of every block reward, not only by those of the genesis. In the in-memory storage
  `set_address_transactions_at_height` replaces the list of the same height, and the table of transactions by global index is not wound back.
- **A connected peer can be forgotten (C75).** `outbound_peer_connected` moves the address to the tried table; the address displaced from there goes back to the new table, where it displaces another one, which is
  then removed from the address book and the database – even if there is a connection to it. When that connection ends, the book makes a new entry for the address and applies the transition `Disconnected` to an entry that is
  already disconnected (in a debug build `debug_panic_or_log` aborts); in a release build the address stays in the book but in no table: it is never selected, and hearing of it again is ignored, because it is known
  (`C75_connected_forgotten`, `C75_stranded`).
- **Stranded addresses after a restart (C75).** A reserved node that is displaced from the tables is not removed from the database. If it is not reserved at the next start, loading it collides with the address that took its
  slot, and one of the two is stranded in memory and on disk (`C75_restart_strands`). The comment at peerdb/mod.rs 138-142 says that an address is discarded here only when the hashing has changed, and that this "should resolve by
  itself eventually"; a stranded address remains so. A boot node strands the address whose slot it takes in the same way.
- **A former reserved node is stranded (C75).** `add_reserved_node` followed by `remove_reserved_node` leaves the address in the book but in no table (`C75_unreserved_stranded`).
- **A shorter ban replaces a longer one (C75).** `ban` overwrites the end of the ban, so that an automatic ban may cut short a manual one (`C75_ban_shortened`).
- **A discouraged address gets an outbound connection (C76).** `validate_connection` asks only whether the address is banned when the connection is outbound; its comment says that discouraged addresses were excluded
  before. An address that is discouraged while it is being dialled – a peer connected from the same IP address misbehaves – is accepted when the connection is made, and stays, because the eviction of bad outbound peers
  happens only when there are more peers of that role than wanted (`C76_discouraged_accepted`).
- **A banned reserved node is dialled for ever (C76).** `try_connect` lets reserved nodes pass the check of bans, `validate_connection` refuses them after the handshake, and the refusal is counted as a failure of the address
  (`C76_banned_reserved_refused`).
- **Two connections to one address (C76).** `maybe_reject_because_already_connected` lets feelers pass, as their addresses come from the table of new addresses; but the address of a connected peer can be there, when it has been
  displaced from the address book (see C75) and been heard of again (`C76_feeler_doubles`). `C76_no_double` is therefore about connections other than feelers.
- **Without a size limit the length of large messages is cut (C77).** `MessageCodec::encode` writes `len as u32`; with `max_encoded_message_size` of `None` (or 2^32 and more) a message of 2^32 bytes or more is sent with a wrong length and
  the stream is out of step from then on (`C77_unlimited_finding`). The peer-to-peer layer always sets a limit (10 MiB), for which `C77_sent_limited` and `C77_transfer` hold.
- **A dial which succeeds while networking is disabled may never be answered (C78).** `handle_connect_res` does not look at `networking_enabled`, while `PeerInfoReceived` is dropped when networking is disabled. A dial in progress when networking gets
  disabled, whose handshake ends before it is enabled again, leaves a pending outbound connection which nobody accepts, disconnects or reads: the peer manager never hears about the dial again (and keeps it in `pending_outbound_connects`), the socket
  stays open, until networking is disabled once more. `C78_lost` proves this for every continuation; `C78_ends` shows that nothing is lost in all other histories.
- **A remote node can stop the networking of a node by resetting its connection early (C78).** `create_pending_peer` and `Peer::new` ask the socket for its addresses and pass the error on with `?`, out of `Backend::run`, both for accepted and for dialled
  connections. If the remote node has reset the connection by then (`getpeername` fails with ENOTCONN), the backend stops, and p2p shuts down. `C78_stop` states exactly when the backend stops; the second case is a self-connection
  detected after the task of its inbound end has timed out (`send(..)?` on a closed channel in `create_peer`).
- **A transaction may be announced back to the peer that announced it (C81).** The filter of exchanged announcements is asked when a transaction is queued, not when the queue is announced; an announcement of the peer in between is
  not noticed (`C81_announced_back`). `C81_not_back` is therefore about transactions exchanged before the event. Harmless: the peer ignores announcements of what it has.
- **A rejected transaction costs its sender the score twice (C81).** `handle_transaction_response` passes the error of `add_transaction_remote` on to `handle_message_processing_result`, which adjusts the score; the mempool also broadcasts
  the rejection (`make_tx_rejected_event`), for which `handle_transaction_processed` adjusts it again (`C81_punished_twice`). As these scores are 0 or at least the threshold, nothing but the score changes at present.
- **An export can report success although the file is incomplete (C82).** `export_bootstrap_stream` does not flush the `BufWriter`; dropping it flushes and ignores errors. If the disk is full, up to one buffer of data is lost without an
  error (`C82_disk_full`, `C82_disk_full_finding`). The import of such a file fails (`C82_truncated`), so the loss is noticed only there.
- **One bad block makes the export with stale blocks fail (C82).** The index of a block that could not be connected is kept, its data is not; `get_block_id_tree_as_list` lists it and `get_encoded_existing_block` then fails
  (`C82_stale_fails`, `C82_stale_finding`). The export without stale blocks is not affected (`C82_export`).
- **Every object has several addresses (C83).** The bits left over after the last byte are not checked when an address is read, so for every object there is a second accepted string, and `Address` values for the same object can be unequal,
  because the comparison includes the string (`C83_malleable`, `C83_canonical`).  This depends on the behaviour of the crate `bech32` as documented.
- **JSON does not check prefixes (C83).** `HexifiedAddress::serde_deserialize` reads an address without looking at the prefix (a comment in the code says so): the address of a pool of one chain is accepted as a token of another
  (`C83_json`).
- **Lock and unmint commands of other tokens (C84).** `apply_total_supply_mutations_from_tx` compares the token id for mint commands only.  The prediction is right all the same because the ledger refuses transactions with more than one account
  command; `C84_needs_single_commands` shows what it would be without that rule.
- **Unmint commands that burn nothing (C84).** The ledger takes an unmint command without burnt tokens, and spends its nonce, whether or not the supply is locked.  The wallet fails to compute the state of a locked token while such a transaction
  waits (`C84_needs_burning`), and then also refuses to send the token.
- **Minting beyond 2^127 (C84).** For tokens without cap the wallet does not check for overflow; the transaction is built and the ledger refuses it (`C84_mint_beyond`).
- **Any password unlocks a wallet without root keys (C86).** `unlock_private_keys` tests the password only against the stored root keys.  Wallets whose keys are on a device store none, so a locked one accepts every password.  Its standalone
  private keys are still encrypted under the right key: reading one, or changing the password, then panics with "key was checked when unlocked" (`C86_needs_root`).
- **Intents are not separated from signed messages (C87).** An intent is signed as an ordinary message whose text has the form `<tx_id:…;intent:…>`.  An owner who signs arbitrary texts for a third party can thereby be made to
  sign an intent (`C87_message_is_intent`).  Messages as a whole are separated from transactions (`C87_not_a_spend`).
- **A key cannot be derived to its own path (C88).** `derive_absolute_path` refuses the path of the key itself, although no step is needed; so `get_private_key` does not find the private key of an account's own public key (`C88_path`).
  The wallet gives out no address for that key.
- **The timestamp search panics for a pool decommissioned within the range (C89).** `TimestampSearchData::obtain` starts at the first height where the pool has balances and expects them at every later height of the range (`expect("Balances must be present")`).
  For a pool that was decommissioned at a height inside the range this expectation fails (`C89_panics`, with a concrete chain beside it). Ending the range at the last height of the pool avoids it. This is read off the code and the model; the code was not run.
- **A delegation to a decommissioned pool breaks the query for its balances (C89).** `delegate_staking` does not look whether the pool of the delegation still exists (see `C06_delegate_to_dead_pool`), and no check on the way to it does.
  So a chain can hold a pool with a balance and no data. `NonZeroPoolBalances::obtain` treats this as a broken invariant, so that `get_stake_pool_balances_at_heights` fails for every list of pools with that one among them
  (`C89_dead_pool_error`: an accepted chain of four blocks after which it happens). Anyone can bring this about for a pool that was decommissioned and has a delegation. This is read off the code and the model; the code was not run.
