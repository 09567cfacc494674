import Verif.Stake.Produce

/-!
# What makes a header of proof of stake valid, and what a staker has
-/

namespace Verif.Stake
open Verif

/-- the laws of the cryptography: a signature made with a key verifies; a proof of the random function verifies, and nothing but one value can be
proved for a key and an input -/
structure Lawful (c : Crypto) : Prop where
  sign : ∀ sk h r, c.verify (c.pub sk) (c.sign sk h r) h = true
  prove : ∀ sk slot r, ∃ x, c.output (c.vrfPub sk) slot (c.prove sk slot r) = some x
  unique : ∀ sk slot r vrf x, c.output (c.vrfPub sk) slot vrf = some x → c.output (c.vrfPub sk) slot (c.prove sk slot r) = some x

/-- the block index of a block carries its id -/
def Indexed (v : View) : Prop := ∀ id b, v.store.get id = some b → b.id = id

/-- the number of times the target that the hash may be – version 0: the balance, version 1: the weight -/
def Allowance (ver : Version) (pledge balance supply w : Nat) : Prop :=
  match ver with
  | .v0 => w = balance
  | .v1 => effective pledge balance supply = .ok w

/-- the proof `vrf` wins the slot for the pool with this data -/
def WinsSlot (c : Crypto) (ver : Version) (slot : Slot) (target vrf key pledge balance supply : Nat) : Prop :=
  ∃ hash w, c.output key slot vrf = some hash ∧ Allowance ver pledge balance supply w ∧ hash ≤ w * target

/-- the output is of a pool, belonging to `dest` -/
def OfPool (out : Output) (pool : Nat) (dest : Dest) : Prop := out = .createStakePool pool dest ∨ out = .produceBlock dest pool

/-- a header of proof of stake after `prev` is in order: it has the required target; it is later than its parent; its one kernel is an unspent output of a pool
whose owner signed the header; and its proof wins the slot with the data of its pool -/
structure Valid (n : Net) (c : Crypto) (v : View) (s : Signed) (prev : BlockTree.Gen) (initial : Option Nat) (cfg : Target.PosCfg) : Prop where
  target : requiredTarget n v initial cfg s.header.prev = .ok s.header.pos.target
  later : prev.timestamp n.t.tree < s.header.time
  kernel : ∃ op out kpool pk sig, s.header.pos.kernel = [.utxo op] ∧ v.utxo op = some out ∧ OfPool out kpool (.publicKey pk) ∧
    (n.mismatchForbidden (prev.height + 1) = true → s.header.pos.pool = kpool) ∧ s.signature = some sig ∧ c.verify pk sig s.header = true
  wins : ∃ pool supply target, v.pools s.header.pos.pool = some pool ∧ n.supply = some supply ∧ pool.pledge + pool.rewards < U128 ∧
    Compact.decode s.header.pos.target = .ok target ∧
    WinsSlot c (n.version (prev.height + 1)) ⟨randomnessFor n v (prev.height + 1), s.header.time, (prev.height + 1) / n.epochLength⟩ target s.header.pos.vrf
      pool.vrfKey (pool.pledge + pool.rewards) ((v.balances s.header.pos.pool).getD 0) supply

/-- the staker holds the keys of the pool and names its kernel -/
structure Owns (c : Crypto) (v : View) (i : Input) : Prop where
  kernel : ∃ op out, i.kernel = [.utxo op] ∧ v.utxo op = some out ∧ OfPool out i.pool (.publicKey (c.pub i.sk))
  vrf : ∃ pool, v.pools i.pool = some pool ∧ pool.vrfKey = c.vrfPub i.vsk

/-- no header after the tip with this timestamp and this pool is accepted, whatever its other contents -/
def Loses (n : Net) (c : Crypto) (v : View) (pool time : Nat) : Prop :=
  ∀ s : Signed, s.header.prev = v.tip → s.header.time = time → s.header.pos.pool = pool → validate n c v s ≠ .ok ()

end Verif.Stake
