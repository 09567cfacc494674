{
 "C36": {
  "note": "Resets are assumed to be called on blocks with valid parents (C36_reset_finding shows why). The reorganization limit is exact for block processing only (C36_reorg_limit_finding). After a crash between two transactions the failed block may stay recorded as valid (C36_commit_finding)."
 },
 "C66": {
  "note": "Random choices are parameters assumed fair (Ctx.Fair). The fee paid is at least the fee told unless the inputs of the request bring surplus coins (C66_surplus is the witness, C66_fee_bound the bound in all cases). C66_accepted assumes that the chain accepts the inputs one by one, at most one order command, and amounts below 2^128."
 },
 "C67": {
  "note": "Run contains the limits as hypotheses: transactions added unconfirmed, marked dead or reloaded are undisputed by confirmed ones (C67_confirmed), no double spending among known transactions (C67_spendable). Witnesses C67_witness_* show that the claims fail beyond them. C67_history and C67_history_disputed are concrete runs."
 },
 "C68": {
  "note": "For Calm histories (no reorganisation or restart, parents before children). C68_history is a concrete one; C68_witness_* show failures beyond the limits and faults in the handling of nonces and frozen tokens."
 },
 "C69": {
  "note": "Acyclic (parents before children) holds because a block contains the hash of its parent. C69_witness_small shows that the bound on the number of blocks is needed, C69_witness_again / _zero / _stale are findings."
 },
 "C70": {
  "note": "Hypothesis env.Inj: the keys of the wallet have distinct hashes. The C70_witness_* theorems show why the restriction to blocks, the order and the look-ahead are needed; they are findings."
 },
 "C71": {
  "note": "C71_abort and C71_stuck are findings: exact descriptions of the cases in which the synchronisation fails. The fuel of syncOnce bounds the rounds of its loop; length of the chain + 2 is enough."
 },
 "C72": {
  "note": "C72_awake and C72_settled need four restrictions on the events (definition Legal); the witnesses show what happens without them. C72_witness_abort is a finding. The answers of the transaction pool are arguments; what is assumed of them is the definition Honest."
 },
 "C73": {
  "note": "For the dependencies the mempool tracks (outputs, nonces of delegations and tokens, existence of pools, delegations, tokens, orders). The other checks of the verifier are one predicate of the transaction and the tip, which does not depend on the other transactions in the pool; see the remark in DESIGN.md. C73_reorg_keeps and C73_block have the hypothesis that no limit binds (Roomy); an example shows that their hypotheses can be met."
 },
 "C74": {
  "note": "For the in-memory storage. The statement as users would want it (balance = worth of unspent unlocked outputs) fails for outputs of block rewards; the theorems say exactly what the balance is, and three theorems show the failures on valid chains. The validity of chains is a hypothesis, shown to hold of concrete chains by a checker proved sound."
 },
 "C75": {
  "note": "C75_restart and C75_none_stranded are for nodes without boot and reserved nodes and, the latter, for events about addresses the book knows; C75_connected_forgotten, C75_restart_strands and C75_unreserved_stranded show what happens otherwise. Bans are replaced, also by shorter ones (C75_ban_shortened), which C75_ban_holds excludes."
 },
 "C76": {
  "note": "C76_never_panics assumes that the networking backend reports outbound connections and failures only for addresses being dialled (the code panics otherwise). C76_no_double excludes feelers (C76_feeler_doubles) and C76_dialled is about the moment of dialling (C76_discouraged_accepted). The checks of the peer itself (compatibility, services, version) are a Boolean of the event."
 },
 "C77": {
  "note": "C77_transfer and C77_peers are for limits below 2^32 (the code cuts longer lengths, C77_unlimited_finding). Validity of keys, signatures and UTF-8 within messages is an arbitrary predicate, as in C46."
 },
 "C78": {
  "note": "C78_ends is for histories in which no dial succeeds while networking is disabled; C78_lost shows that the code loses a dial otherwise. C78_stop includes a way for remote nodes to stop the backend (see Findings)."
 },
 "C79": {
  "note": "The messages are those of C77; that they arrive unchanged is C77_peers. Times are nanoseconds; the time sent is cut to seconds as in the code."
 },
 "C80": {
  "note": "That a single bloom filter reports every item inserted is assumed of the external crate; its other answers are arbitrary."
 },
 "C81": {
  "note": "The mempool is the surroundings: every answer is allowed, except that transactions are found under their own ids and the order of announcing is a permutation. The filter is that of C80. C81_announced_back and C81_punished_twice are findings."
 },
 "C82": {
  "note": "Blocks are values with an exact codec (C46_block gives one) and the ids they are stored under. C82_disk_full_finding and C82_stale_finding are findings."
 },
 "C83": {
  "note": "The external crate bech32 is modelled after BIP 173 and BIP 350. C83_malleable and C83_json are findings."
 },
 "C84": {
  "note": "The ledger side is the token model of C08-C11 with the one-command rule. C84_needs_single_commands, C84_needs_burning and C84_mint_beyond show that the conditions are needed."
 },
 "C85": {
  "note": "In-memory backend behind the locking adaptor. A call that would wait for the lock is refused in the model. LMDB and SQLite are not modelled."
 },
 "C86": {
  "note": "The cipher and key derivation are abstract; the laws assumed of them are the structure Sound, met by toy_sound. C86_needs_root shows that the condition about root keys is needed."
 },
 "C87": {
  "note": "C87_roundtrip assumes that encoded signatures decode and that signatures made with a key verify under its public key."
 },
 "C88": {
  "note": "Laws assumed of the curve and the serialization of points are the structure Sound, met by toy_sound."
 },
 "C89": {
  "note": "Under Lifetimes (each pool exists on an interval of heights), which C89_lifetimes derives for the chains of the ledger model. Hash and target decoding are parameters; C89_panics is a finding: the data collection panics for a pool decommissioned within the range."
 },
 "C90": {
  "note": "Witnesses with exactly the required number of signatures; multisignatures of at most 32 keys (the limit of the chain configuration). input_signature_size, which picks the destination of an output, is not modelled."
 }
}