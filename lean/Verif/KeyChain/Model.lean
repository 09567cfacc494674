import Verif.Base.BMap
import Verif.Base.Amount

/-!
# The keys of a wallet account and the outputs it recognises

Model of `LeafKeySoftChain` (wallet/src/key_chain/leaf_key_chain/mod.rs), of `KeychainUsageState` (wallet/types/src/keys.rs), of the two chains of keys of `AccountKeyChainImpl`
(wallet/src/key_chain/account_key_chain/mod.rs) and of how `Account` marks the keys it sees (wallet/src/account/mod.rs).

Public keys and hashes of public keys are numbers; how a key is derived from the key of the account and its index is a parameter (`Env`).  The derivation and the printing of addresses are total here
(`derive_child` and `Address::new` may fail in the code).  Not modelled: the keys of VRFs, and keys added by hand (watch only, multisig, private).
-/

namespace Verif.KeyChain
open Verif

/-- the largest number of keys of a chain: indices are below 2^31 (`U31`, crypto/src/key/hdkd/u31.rs 22-49) -/
def maxKeys : Nat := 2147483648

/-- 2^32: additions of `u32` beyond that end the program -/
def u32Size : Nat := 4294967296

/-- `KeyPurpose` (wallet/types/src/keys.rs 33-47) -/
inductive Purpose
  | receive | change
  deriving DecidableEq, Repr

/-- how keys are made: `ExtendedPublicKey::derive_child` for the chain of a purpose, and `PublicKeyHash::from` -/
structure Env where
  key : Purpose → Nat → Nat
  hash : Nat → Nat

/-- `Destination` (common/src/chain/transaction/output/mod.rs) -/
inductive Dest
  | pubKey (k : Nat) | pubKeyHash (h : Nat) | anyone | script (h : Nat) | multisig (h : Nat)
  deriving DecidableEq, Repr

/-- `KeyChainError::{Derivation, LookAheadExceeded, CouldNotLoadKeyChain, MissingDatabaseProperty}`; `overflow`, `missing`: the program ends (overflow of an addition, `expect`) -/
inductive Err
  | derivation | lookAhead | load | property | overflow | missing
  deriving DecidableEq, Repr

/-- `KeychainUsageState` (wallet/types/src/keys.rs 75-82) -/
structure Usage where
  used : Option Nat
  issued : Option Nat
  deriving DecidableEq, Repr

/-- `old_value.is_none_or(|old_value| old_value < new)` (keys.rs 100, 116) -/
def below (o : Option Nat) (i : Nat) : Bool :=
  match o with
  | none => true
  | some v => decide (v < i)

/-- `increment_up_to_last_issued` (keys.rs 115-119) -/
def Usage.issue (u : Usage) (i : Nat) : Usage :=
  if below u.issued i then { u with issued := some i } else u

/-- `increment_up_to_last_used` (keys.rs 99-106) -/
def Usage.use (u : Usage) (i : Nat) : Usage :=
  if below u.used i then ({ u with used := some i } : Usage).issue i else u

/-- what the database holds for a chain: the addresses, the keys and the usage (`get_addresses`, `get_public_keys`, `get_keychain_usage_states`), by index.  In the database the entries of both chains
share a table, keyed by the derivation path -/
structure Db where
  addrs : BMap Nat Nat
  keys : BMap Nat Nat
  usage : Option Usage
  deriving DecidableEq

/-- `LeafKeySoftChain` (leaf_key_chain/mod.rs 34-68) with its part of the database.  An address is the hash of the key it pays to -/
structure Leaf where
  purpose : Purpose
  addrs : BMap Nat Nat
  keys : BMap Nat Nat
  byKey : BMap Nat Nat
  byHash : BMap Nat Nat
  usage : Usage
  db : Db
  deriving DecidableEq

/-- `new_empty` followed by `save_usage_state` (leaf_key_chain/mod.rs 71-88, account_key_chain/mod.rs 93-111) -/
def Leaf.new (p : Purpose) : Leaf :=
  { purpose := p, addrs := BMap.empty, keys := BMap.empty, byKey := BMap.empty, byHash := BMap.empty, usage := ⟨none, none⟩,
    db := ⟨BMap.empty, BMap.empty, some ⟨none, none⟩⟩ }

/-- `save_usage_state` (249-259) -/
def Leaf.save (l : Leaf) : Leaf := { l with db := { l.db with usage := some l.usage } }

/-- the chain with a new key (322-347) -/
def Leaf.addKey (env : Env) (l : Leaf) (i : Nat) : Leaf :=
  let k := env.key l.purpose i
  { l with
    db := { l.db with keys := l.db.keys.insert i k, addrs := l.db.addrs.insert i (env.hash k) },
    keys := l.keys.insert i k,
    addrs := l.addrs.insert i (env.hash k),
    byKey := l.byKey.insert k i,
    byHash := l.byHash.insert (env.hash k) i }

/-- `derive_and_add_key` (310-350): a key that is there already is not derived again -/
def Leaf.derive (env : Env) (l : Leaf) (i : Nat) : Leaf :=
  match l.keys.get i with
  | some _ => l
  | none => l.addKey env i

/-- `plus_one` (u31.rs 55-57) of an index, or zero if there is none -/
def nextIndex : Option Nat → Except Err Nat
  | none => .ok 0
  | some i => if i + 1 < maxKeys then .ok (i + 1) else .error .derivation

/-- the answer to a request for an address: the index, the key and the address -/
structure Issued where
  index : Nat
  key : Nat
  addr : Nat
  deriving DecidableEq, Repr

/-- the key and the address at an index (`derive_and_add_key` returns the key, `expect("The address should be derived")`, 200-204, 229-233) -/
def Leaf.answer (l : Leaf) (i : Nat) : Except Err Issued :=
  match l.keys.get i, l.addrs.get i with
  | some k, some a => .ok ⟨i, k, a⟩
  | _, _ => .error .missing

/-- `next_unused` (189-219) -/
def Leaf.nextUnused (env : Env) (l : Leaf) : Except Err (Leaf × Issued) := do
  let i ← nextIndex l.usage.used
  let l := l.derive env i
  let r ← l.answer i
  .ok (if l.usage.used = l.usage.issued then ({ l with usage := l.usage.issue i } : Leaf).save else l, r)

/-- `check_issued_lookahead` (276-292) -/
def checkLookahead (u : Usage) (i look : Nat) : Except Err Unit :=
  match u.used with
  | none => if i ≥ look then .error .lookAhead else .ok ()
  | some v => if v + look ≥ u32Size then .error .overflow else if i > v + look then .error .lookAhead else .ok ()

/-- `issue_new` with `get_new_issued_index` (222-246, 262-273) -/
def Leaf.issueNew (env : Env) (l : Leaf) (look : Nat) : Except Err (Leaf × Issued) := do
  let i ← nextIndex l.usage.issued
  checkLookahead l.usage i look
  let l := l.derive env i
  let r ← l.answer i
  .ok (({ l with usage := l.usage.issue i } : Leaf).save, r)

/-- `get_last_derived_index` (353-355) -/
def Leaf.lastDerived (l : Leaf) : Option Nat := (l.keys.entries.getLast?).map (·.1)

/-- where `top_up` starts (365-368) -/
def Leaf.topStart (l : Leaf) : Nat :=
  match l.lastDerived with
  | none => 0
  | some i => i + 1

/-- where `top_up` ends (370-373) -/
def topEnd (u : Usage) (look : Nat) : Except Err Nat :=
  match u.used with
  | none => .ok look
  | some v => if v + look + 1 ≥ u32Size then .error .overflow else .ok (v + look + 1)

/-- one round of the loop of `top_up` (377-379) -/
def Leaf.topStep (env : Env) (l : Leaf) (i : Nat) : Leaf :=
  if i < maxKeys then l.derive env i else l

/-- `top_up` (359-383) -/
def Leaf.topUp (env : Env) (l : Leaf) (look : Nat) : Except Err Leaf := do
  let e ← topEnd l.usage look
  .ok ((List.range' l.topStart (e - l.topStart)).foldl (Leaf.topStep env) l)

/-- `mark_child_key_as_used` (438-447) -/
def Leaf.markIndex (env : Env) (l : Leaf) (i look : Nat) : Except Err Leaf :=
  (({ l with usage := l.usage.use i } : Leaf).save).topUp env look

/-- `get_child_num_from_destination` (404-412): the index of the key a destination pays to; it is also where `mark_pubkey_as_used` and `mark_pub_key_hash_as_used` look (449-476) -/
def Leaf.find (l : Leaf) : Dest → Option Nat
  | .pubKey k => l.byKey.get k
  | .pubKeyHash h => l.byHash.get h
  | _ => none

/-- `is_destination_mine` (385-393) -/
def Leaf.isMine (l : Leaf) : Dest → Bool
  | .pubKey k => l.byKey.contains k
  | .pubKeyHash h => l.byHash.contains h
  | _ => false

/-- `get_all_issued_addresses` (leaf_key_chain/mod.rs 478-500): the addresses up to the last issued one -/
def Leaf.issuedAddrs (l : Leaf) : BMap Nat Nat :=
  match l.usage.issued with
  | none => BMap.empty
  | some n => l.addrs.filter (fun i _ => decide (i ≤ n))

/-- `new_from_parts` on what `load_leaf_keys` reads (92-185); the check for duplicates (135-147) cannot fail here as the model of the database is keyed by the index -/
def Leaf.load (env : Env) (p : Purpose) (db : Db) : Except Err Leaf := do
  let u ← okOr db.usage .property
  let byKey := BMap.ofList (db.keys.entries.map fun e => (e.2, e.1))
  .ok { purpose := p, addrs := db.addrs, keys := db.keys, byKey := byKey, byHash := BMap.ofList (byKey.entries.map fun e => (env.hash e.1, e.2)),
        usage := u, db := db }

/-! ## The two chains of an account -/

/-- `AccountKeyChainImpl`, the chains of `sub_chains` and `lookahead_size` (account_key_chain/mod.rs 43-70) -/
structure Chains where
  receive : Leaf
  change : Leaf
  look : Nat
  deriving DecidableEq

/-- `get_leaf_key_chain` -/
def Chains.leaf (c : Chains) : Purpose → Leaf
  | .receive => c.receive
  | .change => c.change

/-- `get_leaf_key_chain_mut`, after the change -/
def Chains.setLeaf (c : Chains) : Purpose → Leaf → Chains
  | .receive, l => { c with receive := l }
  | .change, l => { c with change := l }

/-- `new_from_root_key` and `top_up_all` (77-155, 496-502) -/
def Chains.new (env : Env) (look : Nat) : Except Err Chains := do
  let r ← (Leaf.new .receive).topUp env look
  let c ← (Leaf.new .change).topUp env look
  .ok ⟨r, c, look⟩

/-- `issue_address`, `issue_key` (392-413) -/
def Chains.issue (env : Env) (c : Chains) (p : Purpose) : Except Err (Chains × Issued) := do
  let r ← (c.leaf p).issueNew env c.look
  .ok (c.setLeaf p r.1, r.2)

/-- `next_unused_address` (382-389) -/
def Chains.next (env : Env) (c : Chains) (p : Purpose) : Except Err (Chains × Issued) := do
  let r ← (c.leaf p).nextUnused env
  .ok (c.setLeaf p r.1, r.2)

/-- `mark_public_key_as_used` and `mark_public_key_hash_as_used` (509-537): the chain of the addresses to receive is asked first -/
def Chains.mark (env : Env) (c : Chains) (d : Dest) : Except Err (Chains × Bool) :=
  match c.receive.find d with
  | some i => do
    let l ← c.receive.markIndex env i c.look
    .ok ({ c with receive := l }, true)
  | none =>
    match c.change.find d with
    | some i => do
      let l ← c.change.markIndex env i c.look
      .ok ({ c with change := l }, true)
    | none => .ok (c, false)

/-- `is_destination_mine` (441-445) -/
def Chains.isMine (c : Chains) (d : Dest) : Bool := c.receive.isMine d || c.change.isMine d

/-- `load_leaf_keys` for both chains; `look` is read from the information about the account (282-345) -/
def Chains.load (env : Env) (r c : Db) (look : Nat) : Except Err Chains := do
  let a ← Leaf.load env .receive r
  let b ← Leaf.load env .change c
  .ok ⟨a, b, look⟩

/-- `reset_wallet_transactions` and `top_up_addresses` (wallet/src/wallet/mod.rs 831-882): a rescan forgets all keys, all addresses and how they were used -/
def Chains.reset (env : Env) (_c : Chains) (look : Nat) : Except Err Chains := Chains.new env look

/-! ## Outputs and transactions -/

/-- `TxOutput`, by the destinations in it.  `pay`: transfers (also locked ones), issued tokens and orders, which have one destination -/
inductive Output
  | pay (d : Dest)
  | delegation (id : Nat) (d : Dest)
  | pool (id : Nat) (decommission staker : Dest)
  | produced (d : Dest) (pool : Nat)
  | htlc (spend refund : Dest)
  | delegate (id : Nat)
  | other
  deriving DecidableEq, Repr

/-- `TxInput`.  `cmd`: the commands for tokens and orders -/
inductive Input
  | utxo (tx idx : Nat) | delegation (id : Nat) | cmd (c : Nat)
  deriving DecidableEq, Repr

/-- `WalletTx`: a transaction, or the reward of a block -/
structure Tx where
  id : Nat
  ins : List Input
  outs : List Output
  deriving DecidableEq, Repr

/-- `Account` (wallet/src/account/mod.rs): its keys and the transactions in its output cache -/
structure Account where
  chains : Chains
  txs : BMap Nat Tx
  deriving DecidableEq

/-- which commands for tokens and orders concern the account, given the recorded transactions and which destinations are its own: a parameter (`find_order`, `find_token` and the new authority of a token,
mod.rs 2244-2265) -/
abbrev CmdTest := BMap Nat Tx → (Dest → Bool) → Nat → Bool

/-- all recorded outputs -/
def outputsOf (txs : BMap Nat Tx) : List Output := (txs.entries.map fun e => e.2.outs).flatten

/-- `pool_data` of the output cache: who may decommission a pool created by a recorded transaction -/
def poolData (txs : BMap Nat Tx) (id : Nat) : Option Dest :=
  (outputsOf txs).findSome? fun o => match o with
    | .pool i d _ => if i = id then some d else none
    | _ => none

/-- `delegation_data` of the output cache: the owner of a delegation created by a recorded transaction -/
def delegationData (txs : BMap Nat Tx) (id : Nat) : Option Dest :=
  (outputsOf txs).findSome? fun o => match o with
    | .delegation i d => if i = id then some d else none
    | _ => none

/-- `collect_output_destinations` (1946-1975) -/
def collect (txs : BMap Nat Tx) : Output → List Dest
  | .pay d => [d]
  | .delegation _ d => [d]
  | .produced d p => d :: (poolData txs p).toList
  | .pool _ d s => [d, s]
  | .htlc s r => [s, r]
  | .delegate i => (delegationData txs i).toList
  | .other => []

/-- `is_mine` (1978-1982); without keys added by hand also `is_mine_or_watched` -/
def Account.isMine (a : Account) (o : Output) : Bool := (collect a.txs o).any a.chains.isMine

/-- `mark_created_stake_pool_as_seen` (2081-2101) without the VRF key -/
def markPool (env : Env) (c : Chains) : Output → Except Err Chains
  | .pool _ d _ => do
    let r ← c.mark env d
    .ok r.1
  | _ => .ok c

/-- the loop of `mark_output_as_seen` (2052-2076) -/
def markDests (env : Env) (c : Chains) : List Dest → Except Err (Chains × Bool)
  | [] => .ok (c, false)
  | d :: rest =>
    match d with
    | .anyone => .ok (c, false)
    | d => do
      let r ← c.mark env d
      if r.2 then .ok (r.1, true) else markDests env r.1 rest

/-- `mark_output_as_seen` (2045-2077) -/
def markOutput (env : Env) (txs : BMap Nat Tx) (c : Chains) (o : Output) : Except Err (Chains × Bool) := do
  let c ← markPool env c o
  markDests env c (collect txs o)

/-- `mark_outputs_as_seen` (2032-2043) -/
def markOutputs (env : Env) (txs : BMap Nat Tx) (c : Chains) : List Output → Except Err (Chains × Bool)
  | [] => .ok (c, false)
  | o :: rest => do
    let r ← markOutput env txs c o
    let s ← markOutputs env txs r.1 rest
    .ok (s.1, r.2 || s.2)

/-- `get_txo` of the output cache -/
def getTxo (txs : BMap Nat Tx) (tx idx : Nat) : Option Output := (txs.get tx).bind fun t => t.outs[idx]?

/-- whether an input concerns the account (2234-2266) -/
def Account.inputMine (test : CmdTest) (a : Account) : Input → Bool
  | .utxo tx idx => (getTxo a.txs tx idx).any a.isMine
  | .delegation id => (delegationData a.txs id).any a.chains.isMine
  | .cmd c => test a.txs a.chains.isMine c

/-- `add_wallet_tx_if_relevant` (2228-2284); of the output cache only the set of transactions is kept -/
def Account.scanTx (env : Env) (test : CmdTest) (a : Account) (t : Tx) : Except Err (Account × Bool) := do
  let ins := t.ins.any (a.inputMine test)
  let r ← markOutputs env a.txs a.chains t.outs
  .ok (⟨r.1, if ins || r.2 then a.txs.insert t.id t else a.txs⟩, ins || r.2)

/-- a new account (without the scan of the genesis block, `scan_genesis` 2286-2297, which is the scan of a transaction) -/
def Account.new (env : Env) (look : Nat) : Except Err Account := do
  let c ← Chains.new env look
  .ok ⟨c, BMap.empty⟩

/-- `scan_new_blocks` (2301-2360): the rewards and transactions in the order of the chain; which of them are recorded -/
def Account.scan (env : Env) (test : CmdTest) (a : Account) : List Tx → Except Err (Account × List Bool)
  | [] => .ok (a, [])
  | t :: rest => do
    let r ← a.scanTx env test t
    let s ← r.1.scan env test rest
    .ok (s.1, r.2 :: s.2)

end Verif.KeyChain
