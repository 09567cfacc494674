import Verif.Stake.Produce

/-!
# Epochs: the randomness

Model of `update_epoch_data` and `create_randomness_from_block` (chainstate/src/detail/chainstateref/epoch_seal.rs 128-270), of the cache of epoch data
(chainstate/types/src/epoch_data_cache.rs), of its use when a block is connected and disconnected (chainstateref/mod.rs 1495-1550) and when the header of a block is checked
that is not on top of the current chain (chainstateref/in_memory_reorg.rs 46-194, mod.rs 683-701).

Simplified: errors of the storage do not occur.  The randomness that a block contributes is a parameter: it is computed from the block, from the randomness it is given, and
from the VRF key of the pool that made it, which is part of the staking state after the block and so determined by the chain (C45).
-/

namespace Verif.Epoch.Rnd
open Verif
open Verif.Stake (Net epochOf lastInEpoch sealedEpoch)

/-- what the randomness depends on: the network, which heights have proof of stake (`net_upgrades`, enforced by `validate_consensus`), whether a block has it
(`ConsensusData`), and the randomness of the last block of a chain, given the randomness of the sealed epoch (`PoSRandomness::from_block`, chainstate/types/src/pos_randomness.rs
46-62, and the part of `create_randomness_from_block` that looks up the key, epoch_seal.rs 163-197); none if it cannot be computed -/
structure World (B : Type) where
  net : Net
  posAt : Nat → Bool
  isPos : B → Bool
  fresh : List B → Nat → Option Nat

variable {B : Type}

/-- the stored data of the epochs – chainstate/storage/src/lib.rs `get_epoch_data` -/
abbrev Store := BMap Nat Nat

/-- `EpochDataCache` – epoch_data_cache.rs 37-45; an entry is `Write` or `Erase` -/
structure Cache where
  parent : Store
  data : BMap Nat (Option Nat)

/-- `EpochDataCache::new` – 48-53 -/
def Cache.new (p : Store) : Cache := ⟨p, BMap.empty⟩

/-- `get_epoch_data` – 83-91 -/
def Cache.get (c : Cache) (e : Nat) : Option Nat :=
  match c.data.get e with
  | some (some r) => some r
  | some none => none
  | none => c.parent.get e

/-- `set_epoch_data` – 105-112 -/
def Cache.set (c : Cache) (e r : Nat) : Cache := { c with data := c.data.insert e (some r) }

/-- `del_epoch_data` – 114-117 -/
def Cache.del (c : Cache) (e : Nat) : Cache := { c with data := c.data.insert e none }

/-- one entry of `flush` -/
def flushOne (s : Store) (x : Nat × Option Nat) : Store :=
  match x.2 with
  | some r => s.insert x.1 r
  | none => s.erase x.1

/-- `ConsumedEpochDataCache::flush` – 71-80 -/
def Cache.flush (c : Cache) (s : Store) : Store := c.data.entries.foldl flushOne s

/-- the randomness of the sealed epoch – epoch_seal.rs 199-207 -/
def seed (w : World B) (get : Nat → Option Nat) (h : Nat) : Nat := (((sealedEpoch w.net h).map get).join).getD w.net.initialRandomness

/-- `update_epoch_data` for `Connect` – epoch_seal.rs 234-257; `chain` ends with the block connected -/
def up (w : World B) (c : Cache) (chain : List B) (b : B) (h : Nat) : Option Cache :=
  if lastInEpoch w.net h = true then
    if w.isPos b = true then
      match w.fresh chain (seed w c.get h) with
      | some r => some (c.set (epochOf w.net h) r)
      | none => none
    else some c
  else some c

/-- `update_epoch_data` for `Disconnect` – epoch_seal.rs 258-269; `h` is the height of the tip that remains -/
def down (w : World B) (c : Cache) (h : Nat) : Cache := if lastInEpoch w.net h = true then c.del (epochOf w.net (h + 1)) else c

/-- `post_connect_tip` – mod.rs 1503-1513; `chain` is the chain before the block -/
def connect (w : World B) (s : Store) (chain : List B) (b : B) : Option Store := (up w (Cache.new s) (chain ++ [b]) b chain.length).map fun c => c.flush s

/-- `post_disconnect_tip` – mod.rs 1534-1544; `chain` is the chain that remains -/
def disconnect (w : World B) (s : Store) (chain : List B) : Store := (down w (Cache.new s) (chain.length - 1)).flush s

/-- `disconnect_tip_in_memory_until` – in_memory_reorg.rs 113-189: `old` blocks are removed from the height `h` of the tip -/
def downMany (w : World B) (c : Cache) (h : Nat) : Nat → Cache
  | 0 => c
  | k + 1 => downMany w (down w c (h - 1)) (h - 1) k

/-- the second half of `reorganize_in_memory` – 75-106: the blocks of the new branch are connected on top of `chain` -/
def upMany (w : World B) (c : Cache) (chain : List B) : List B → Option Cache
  | [] => some c
  | b :: l =>
    match up w c (chain ++ [b]) b chain.length with
    | some c' => upMany w c' (chain ++ [b]) l
    | none => none

/-- `reorganize_in_memory` – 46-111: from the chain `common ++ old` to the chain `common ++ new` -/
def reorganize (w : World B) (s : Store) (common old new : List B) : Option Cache :=
  upMany w (downMany w (Cache.new s) ((common ++ old).length - 1) old.length) common new

end Verif.Epoch.Rnd
