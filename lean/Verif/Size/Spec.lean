import Verif.Size.Model

/-!
# What the sizes are compared with

The witnesses which can be made for a destination, written out as bytes.
-/

namespace Verif.Size
open Verif Verif.Codec

/-- public keys of the length they have -/
def IsKey (pk : Bytes) : Prop := pk.length = 33

/-- signatures of the length they have -/
def IsSig (s : Bytes) : Prop := s.length = 64

/-- `raw` is a signature for the destination: the signature (for a key), the key and the signature (for a hash of a key),
or the required number of signatures with their indices, that number, and all keys (for a multisignature with at most 32
keys, which `info` describes). Each key and each signature comes after a byte for its kind. -/
inductive RawFor (info : Destination → Option (Nat × Nat)) : Destination → Bytes → Prop
  | key {a sig} : IsSig sig → RawFor info (.publicKey a) (0 :: sig)
  | hash {a pk sig} : IsKey pk → IsSig sig → RawFor info (.publicKeyHash a) (0 :: pk ++ 0 :: sig)
  | multi {a} {keys : List Bytes} {sigs : List (UInt8 × Bytes)} {m : UInt8} :
      info (.classicMultisig a) = some (keys.length, sigs.length) →
      m.toNat = sigs.length → 0 < sigs.length → sigs.length ≤ keys.length → keys.length ≤ 32 →
      (∀ pk ∈ keys, IsKey pk) → (∀ s ∈ sigs, IsSig s.2) →
      RawFor info (.classicMultisig a)
        (UInt8.ofNat (4 * sigs.length) :: (sigs.map fun s => s.1 :: 0 :: s.2).flatten ++
          m :: UInt8.ofNat (4 * keys.length) :: (keys.map fun pk => 0 :: pk).flatten)

/-- A number below 16384 written in two bytes (from 64 on), as the length of a sequence of bytes is. -/
def twoBytes (n : Nat) : Bytes := [UInt8.ofNat ((4 * n + 1) % 256), UInt8.ofNat ((4 * n + 1) / 256)]

/-- `w` is a complete witness, with any kind of signature hash, for an input with this destination which spends or refunds a
hashed timelock contract as the tag says. -/
inductive Signs (info : Destination → Option (Nat × Nat)) : Destination → Option HtlcTag → InputWitness → Prop
  | anyone : Signs info .anyoneCanSpend none (.noSignature none)
  | plain {d raw t} : RawFor info d raw → Signs info d none (.standard ⟨t, raw⟩)
  | spend {d raw t} {secret : Bytes} : RawFor info d raw → secret.length = 32 →
      Signs info d (some .spend) (.standard ⟨t, 0 :: secret ++ twoBytes raw.length ++ raw⟩)
  | refund {d raw t} : RawFor info d raw →
      Signs info d (some .refund) (.standard ⟨t, 1 :: twoBytes raw.length ++ raw⟩)

/-- The witnesses of a transaction, input by input. -/
inductive AllSign (info : Destination → Option (Nat × Nat)) :
    List (Destination × Option HtlcTag) → List InputWitness → Prop
  | nil : AllSign info [] []
  | cons {d tag w ds ws} : Signs info d tag w → AllSign info ds ws → AllSign info ((d, tag) :: ds) (w :: ws)

end Verif.Size
