import Verif.Stake.Model
import Verif.Target.Model

/-!
# Finding and checking a proof of stake block

Model of consensus/src/pos/{mod,kernel,block_sig,input_data}.rs, the proof of stake part of consensus/src/lib.rs and validator.rs, and of blockprod/src/detail/{mod,utils}.rs and
job_manager/jobs_container.rs as far as they decide which header is produced.

Keys, signatures and the verifiable random function are parameters (`Crypto`).  The target is the one of `Verif.Target`, the weight of a pool the one of
`Verif.Stake.Model`.  Not modelled: proof of work and empty consensus (`Verif.Target`), the transactions and the reward of the block
(`body` stands for the two merkle roots; C44 is about the transactions), the threads; cancellation is an event of the job manager below.
-/

namespace Verif.Stake
open Verif

/-- what the random function is applied to: `construct_transcript` – chainstate/types/src/vrf_tools.rs 38-47; the labels are constants -/
structure Slot where
  randomness : Nat
  time : Nat
  epoch : Nat
  deriving DecidableEq, Repr

/-- `TxInput` as far as a kernel is concerned: a UTXO or an account -/
inductive Inp
  | utxo (op : Nat)
  | account
  deriving DecidableEq, Repr

/-- `PoSData` – common/src/chain/block/consensus_data.rs 61-74; the kernel witness is a number -/
structure PosData where
  kernel : List Inp
  witness : Nat
  pool : Nat
  vrf : Nat
  target : Nat
  deriving DecidableEq, Repr

/-- `BlockHeader` with proof of stake data -/
structure Header where
  prev : Nat
  body : Nat
  time : Nat
  pos : PosData
  deriving DecidableEq, Repr

/-- `SignedBlockHeader` -/
structure Signed where
  header : Header
  signature : Option Nat
  deriving DecidableEq, Repr

/-- signatures and the verifiable random function.  A header is signed in its encoding, which determines it (C37, C36).  The last argument of
`sign` and `prove` is the randomness used. -/
structure Crypto where
  pub : Nat → Nat
  sign : Nat → Header → Nat → Nat
  verify : Nat → Nat → Header → Bool
  vrfPub : Nat → Nat
  prove : Nat → Slot → Nat → Nat
  /-- `verify_vrf_and_get_vrf_output` – vrf_tools.rs 63-77 -/
  output : Nat → Slot → Nat → Option Nat

/-- the configuration of the chain -/
structure Net where
  t : Target.Params
  version : Nat → Version
  epochLength : Nat
  sealDistance : Nat
  initialRandomness : Nat
  supply : Option Nat
  mismatchForbidden : Nat → Bool
  maxFutureOffset : Nat → Nat

inductive Dest
  | publicKey (pk : Nat)
  | other
  deriving DecidableEq, Repr

/-- outputs, as far as a kernel is concerned -/
inductive Output
  | createStakePool (pool : Nat) (staker : Dest)
  | produceBlock (dest : Dest) (pool : Nat)
  | other
  deriving DecidableEq, Repr

/-- `PoolData` -/
structure Pool where
  pledge : Nat
  rewards : Nat
  vrfKey : Nat
  deriving DecidableEq, Repr

/-- what is stored at a block: block index, randomness of the sealed epochs, pools, balances of pools, unspent outputs.  The check of a header reads the state at its
parent (chainstateref/mod.rs 682-701, `reorganize_in_memory`), the producer the state at the tip. -/
structure View where
  store : BlockTree.Store
  tip : Nat
  epochs : Nat → Option Nat
  pools : Nat → Option Pool
  balances : Nat → Option Nat
  utxo : Nat → Option Output

/-- `ConsensusPoSError` and `BlockProductionError` -/
inductive PErr
  | target (e : Target.Err)
  | hash (e : Err)
  | invalidTarget | prevNotFound | strictOrder | poolNotFound | noKernel | multipleKernels | kernelMustBeUtxo | missingKernel
  | invalidKernelOutput | poolMismatch | wrongDestination | noSignature | badSignature | stakerBalance | noSupply | badBits | vrf
  | futureInThePast | timeOverflow | tryAgainLater | balanceNotFound | notPos | stakingFailed | overflow
  deriving DecidableEq, Repr

/-! ### epochs -/

/-- `epoch_index_from_height` – common/src/chain/config/mod.rs 553-556 -/
def epochOf (n : Net) (h : Nat) : Nat := h / n.epochLength
/-- `is_last_block_in_epoch` – 560-563 -/
def lastInEpoch (n : Net) (h : Nat) : Bool := (h + 1) % n.epochLength == 0
/-- `sealed_epoch_index` – 575-585 -/
def sealedEpoch (n : Net) (h : Nat) : Option Nat :=
  if lastInEpoch n h then subIn (epochOf n h) n.sealDistance else subIn (epochOf n h) (n.sealDistance + 1)

/-- `randomness_of_sealed_epoch` – consensus/src/pos/mod.rs 68-99 -/
def randomnessFor (n : Net) (v : View) (h : Nat) : Nat :=
  match sealedEpoch n h with
  | none => n.initialRandomness
  | some e => match v.epochs e with
    | none => n.initialRandomness
    | some r => r

/-- `get_sealed_epoch_randomness` – blockprod/src/detail/utils.rs 130-141 -/
def producerRandomness (n : Net) (v : View) (h : Nat) : Nat :=
  (((sealedEpoch n h).map v.epochs).join).getD n.initialRandomness

/-! ### the hash -/

/-- `from_block` – chainstate/types/src/pos_randomness.rs 44-60 and `calc_and_check_pos_hash` – hash_check.rs 88-116 -/
def checkSlot (c : Crypto) (ver : Version) (slot : Slot) (target vrf key pledge balance supply : Nat) : Except PErr Unit := do
  let hash ← okOr (c.output key slot vrf) .vrf
  match checkHash ver hash target pledge balance supply with
  | .ok () => .ok ()
  | .error e => .error (.hash e)

/-- `compact_target_to_target` – consensus/src/pos/mod.rs 101-107 -/
def targetOf (bits : Nat) : Except PErr Nat :=
  match Compact.decode bits with
  | .ok t => .ok t
  | .error _ => .error .badBits

/-- `staker_balance` – pos-accounting/src/pool/pool_data.rs 66-68 -/
def Pool.stakerBalance (p : Pool) : Option Nat := if p.pledge + p.rewards < U128 then some (p.pledge + p.rewards) else none

/-! ### the check -/

/-- `get_kernel_output` – consensus/src/pos/kernel.rs 20-41 -/
def kernelOutput (v : View) (kernel : List Inp) : Except PErr Output :=
  match kernel with
  | [] => .error .noKernel
  | [.utxo op] => okOr (v.utxo op) .missingKernel
  | [.account] => .error .kernelMustBeUtxo
  | _ => .error .multipleKernels

/-- the pool and the destination of the staker in the kernel output – mod.rs 166-187 -/
def kernelPool : Output → Except PErr (Nat × Dest)
  | .createStakePool p d => .ok (p, d)
  | .produceBlock d p => .ok (p, d)
  | .other => .error .invalidKernelOutput

/-- `check_block_signature` – block_sig.rs 35-65 -/
def checkSignature (c : Crypto) (s : Signed) : Dest → Except PErr Unit
  | .other => .error .wrongDestination
  | .publicKey pk => do
    let sig ← okOr s.signature .noSignature
    ensure (c.verify pk sig s.header = true) .badSignature

/-- the target a block after `prev` has to have; an error of the target becomes one of the check -/
def requiredTarget (n : Net) (v : View) (initial : Option Nat) (cfg : Target.PosCfg) (prev : Nat) : Except PErr Nat :=
  match Target.posTarget n.t v.store initial cfg prev with
  | .ok t => .ok t
  | .error e => .error (.target e)

/-- the mismatch of the pools – mod.rs 189-207 -/
def checkPoolId (n : Net) (height a b : Nat) : Except PErr Unit :=
  if n.mismatchForbidden height then ensure (a = b) .poolMismatch else .ok ()

/-- `check_proof_of_stake` – consensus/src/pos/mod.rs 126-235 -/
def checkStake (n : Net) (c : Crypto) (v : View) (initial : Option Nat) (cfg : Target.PosCfg) (s : Signed) : Except PErr Unit := do
  let pos := s.header.pos
  let target ← requiredTarget n v initial cfg s.header.prev
  ensure (target = pos.target) .invalidTarget
  let prev ← okOr (BlockTree.getGen n.t.tree v.store s.header.prev) .prevNotFound
  ensure (prev.timestamp n.t.tree < s.header.time) .strictOrder
  let height := prev.height + 1
  let seed := randomnessFor n v height
  let pool ← okOr (v.pools pos.pool) .poolNotFound
  let out ← kernelOutput v pos.kernel
  let (kpool, dest) ← kernelPool out
  checkPoolId n height pos.pool kpool
  checkSignature c s dest
  let balance := (v.balances pos.pool).getD 0
  let pledge ← okOr pool.stakerBalance .stakerBalance
  let supply ← okOr n.supply .noSupply
  let t ← targetOf pos.target
  checkSlot c (n.version height) ⟨seed, s.header.time, epochOf n height⟩ t pos.vrf pool.vrfKey pledge balance supply

/-- the configuration of proof of stake at a height – consensus_upgrade.rs 135-171 through `Target.status` -/
def posStatus (n : Net) (height : Nat) : Except PErr (Option Nat × Target.PosCfg) :=
  match Target.status n.t.upgrades height with
  | .ok (.posOngoing cfg) => .ok (none, cfg)
  | .ok (.posThreshold i cfg) => .ok (i, cfg)
  | _ => .error .notPos

/-- `validate_consensus` for a header with proof of stake data – validator.rs 33-80, 112-146 -/
def validate (n : Net) (c : Crypto) (v : View) (s : Signed) : Except PErr Unit := do
  let prev ← okOr (BlockTree.getGen n.t.tree v.store s.header.prev) .prevNotFound
  let (initial, cfg) ← posStatus n (prev.height + 1)
  checkStake n c v initial cfg s

/-! ### the search -/

/-- the loop of `find_timestamp_for_staking` – mod.rs 356-383; `rnd` is the randomness drawn at each timestamp -/
def search (c : Crypto) (ver : Version) (seed epoch target pledge balance supply vsk : Nat) (rnd : Nat → Nat) : Nat → Nat → Option (Nat × Nat)
  | 0, _ => none
  | k + 1, time =>
    let vrf := c.prove vsk ⟨seed, time, epoch⟩ (rnd time)
    match checkSlot c ver ⟨seed, time, epoch⟩ target vrf (c.vrfPub vsk) pledge balance supply with
    | .ok () => some (time, vrf)
    | .error _ => search c ver seed epoch target pledge balance supply vsk rnd k (time + 1)

/-- `find_timestamp_for_staking` – mod.rs 331-386 -/
def findTime (c : Crypto) (ver : Version) (supply bits first last seed epoch pledge balance vsk : Nat) (rnd : Nat → Nat) :
    Except PErr (Option (Nat × Nat)) := do
  let target ← targetOf bits
  ensure (first ≤ last) .futureInThePast
  pure (search c ver seed epoch target pledge balance supply vsk rnd (last + 1 - first) first)

/-- `PoSGenerateBlockInputData` – input_data.rs 68-80; the outputs of the kernel go into the witness only -/
structure Input where
  sk : Nat
  vsk : Nat
  pool : Nat
  kernel : List Inp
  deriving DecidableEq, Repr

/-- `PoSFinalizeBlockInputData` – input_data.rs 152-169 -/
structure Final where
  epoch : Nat
  seed : Nat
  pledge : Nat
  balance : Nat
  deriving DecidableEq, Repr

/-- `stake` – mod.rs 237-291: the header with the timestamp found, if any -/
def stake (n : Net) (c : Crypto) (ver : Version) (h : Header) (f : Final) (vsk first last : Nat) (rnd : Nat → Nat) : Except PErr (Option Header) := do
  let supply ← okOr n.supply .noSupply
  let r ← findTime c ver supply h.pos.target first last f.seed f.epoch f.pledge f.balance vsk rnd
  pure (r.map fun (time, vrf) => { h with time := time, pos := { h.pos with vrf := vrf } })

/-- `finalize_consensus_data` – consensus/src/lib.rs 147-222, proof of stake -/
def finalize (n : Net) (c : Crypto) (ver : Version) (h : Header) (f : Final) (i : Input) (first last aux : Nat) (rnd : Nat → Nat) : Except PErr Signed := do
  let r ← stake n c ver h f i.vsk first last rnd
  match r with
  | some h' => .ok ⟨h', some (c.sign i.sk h' aux)⟩
  | none => .error .stakingFailed

/-- `calculate_target_required_from_block_index` – target.rs 110-135 -/
def targetFromIndex (n : Net) (v : View) (initial : Option Nat) (cfg : Target.PosCfg) (tip : BlockTree.Gen) : Except PErr Nat :=
  match initial with
  | some d => .ok d
  | none => match tip with
    | .genesis => .ok (Compact.encode cfg.targetLimit)
    | .block b => match Target.posTargetInternal n.t v.store cfg b with
      | .ok t => .ok t
      | .error e => .error (.target e)

/-- `generate_finalize_block_data_pos` – blockprod/src/detail/mod.rs 638-671 -/
def finalData (n : Net) (v : View) (height seed : Nat) (i : Input) : Except PErr Final := do
  let balance ← okOr (v.balances i.pool) .balanceNotFound
  let pool ← okOr (v.pools i.pool) .poolNotFound
  let pledge ← okOr pool.stakerBalance .stakerBalance
  pure ⟨epochOf n height, seed, pledge, balance⟩

/-- `timestamp_add_secs` – blockprod utils.rs 271-279 -/
def addSecs (t d : Nat) : Except PErr Nat := if t + d < 2 ^ 64 then .ok (t + d) else .error .timeOverflow

/-- the timestamp from which a call searches – blockprod mod.rs 424-452: one past the later of the one used last and that of the tip -/
def firstTime (lastUsed : Option Nat) (tipTime : Nat) : Except PErr Nat := addSecs (max (lastUsed.getD 0) tipTime) 1

/-- the outcome of a call: the signed header or an error; and the timestamp to be remembered, unless the call ended before the search -/
structure Outcome where
  result : Except PErr Signed
  used : Option Nat

/-- the timestamp left in `block_timestamp` – mod.rs 240-292 -/
def usedTime (r : Except PErr Signed) (first last : Nat) : Nat :=
  match r with
  | .ok s => s.header.time
  | .error .stakingFailed => last
  | .error _ => first

/-- everything before the search – blockprod mod.rs 204-262, 455-520, 546-562: the header to be completed, the data for the search, its bounds and the version.
`tipAtStart` is the tip when the call began. -/
def prepare (n : Net) (v : View) (i : Input) (lastUsed : Option Nat) (tipAtStart now body witness vrf : Nat) :
    Except PErr (Header × Final × Nat × Nat × Version) := do
  let startTip ← okOr (BlockTree.getGen n.t.tree v.store tipAtStart) .prevNotFound
  let first ← firstTime lastUsed (startTip.timestamp n.t.tree)
  let tip ← okOr (BlockTree.getGen n.t.tree v.store v.tip) .prevNotFound
  let height := tip.height + 1
  let seed := producerRandomness n v height
  let (initial, cfg) ← posStatus n height
  let target ← targetFromIndex n v initial cfg tip
  let f ← finalData n v height seed i
  let last ← addSecs now (n.maxFutureOffset height)
  ensure (first ≤ last) .tryAgainLater
  pure (⟨tip.id n.t.tree, body, first, ⟨i.kernel, witness, i.pool, vrf, target⟩⟩, f, first, last, n.version height)

/-- `produce_block` – blockprod mod.rs 395-527, for proof of stake -/
def produce (n : Net) (c : Crypto) (v : View) (i : Input) (lastUsed : Option Nat) (tipAtStart now body witness vrf aux : Nat) (rnd : Nat → Nat) : Outcome :=
  match prepare n v i lastUsed tipAtStart now body witness vrf with
  | .error e => ⟨.error e, none⟩
  | .ok (h, f, first, last, ver) =>
    let r := finalize n c ver h f i first last aux rnd
    ⟨r, some (usedTime r first last)⟩

/-! ### the job manager -/

/-- `JobsContainer` – blockprod/src/detail/job_manager/jobs_container.rs 28-31: the tips expected by the running jobs and the timestamps used last, by the custom
id, which is the public key of the staker (mod.rs 104-113) -/
structure Jobs where
  jobs : List (Nat × Nat)
  last : List (Nat × Nat)
  deriving DecidableEq, Repr

inductive Event
  | add (key tip : Nat)
  | newTip (tip : Nat)
  | used (key time : Nat)
  | stop (key : Nat)
  | stopAll
  deriving DecidableEq, Repr

/-- what `handle_add_job` answers – 38-69 -/
inductive Answer
  | exists
  | started (last : Option Nat)
  deriving DecidableEq, Repr

def answer (j : Jobs) (key : Nat) : Answer :=
  if (j.jobs.lookup key).isSome then .exists else .started (j.last.lookup key)

/-- the handlers – jobs_container.rs 38-149 -/
def step (j : Jobs) : Event → Jobs
  | .add key tip => if (j.jobs.lookup key).isSome then j else { j with jobs := (key, tip) :: j.jobs }
  | .newTip tip => ⟨j.jobs.filter (fun p => p.2 == tip), []⟩
  | .used key time => { j with last := (key, time) :: j.last.filter (fun p => p.1 != key) }
  | .stop key => { j with jobs := j.jobs.filter (fun p => p.1 != key) }
  | .stopAll => { j with jobs := [] }

def runJobs (j : Jobs) (es : List Event) : Jobs := es.foldl step j

end Verif.Stake
