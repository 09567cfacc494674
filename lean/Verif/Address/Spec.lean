import Verif.Address.Kinds

/-! What addresses should be, in terms of strings, bits and prefixes only. -/

namespace Verif.Address.Spec
open Verif Codec Address

/-- the five bits of a symbol, the most significant first -/
def symbolBits (v : Nat) : List Bool := [v.testBit 4, v.testBit 3, v.testBit 2, v.testBit 1, v.testBit 0]

/-- the eight bits of a byte, the most significant first -/
def byteBits (b : UInt8) : List Bool :=
  [b.toNat.testBit 7, b.toNat.testBit 6, b.toNat.testBit 5, b.toNat.testBit 4, b.toNat.testBit 3, b.toNat.testBit 2, b.toNat.testBit 1,
    b.toNat.testBit 0]

/-- the characters of the symbols 0 to 31 -/
def alphabet : List Nat :=
  ['q', 'p', 'z', 'r', 'y', '9', 'x', '8', 'g', 'f', '2', 't', 'v', 'd', 'w', '0', 's', '3', 'j', 'n', '5', '4', 'k', 'h', 'c', 'e', '6',
    'm', 'u', 'a', '7', 'l'].map Char.toNat

/-- the shape of an address: a prefix, '1', the symbols of the data, six symbols of checksum.  The bits of the data symbols are the bits
of the bytes followed by `rest`. -/
structure Shape (pfx : Str) (bytes : Bytes) (rest : List Bool) (s : Str) : Prop where
  text : ∃ data check : List Nat, s = pfx ++ [49] ++ (data ++ check).map (fun v => alphabet.getD v 0) ∧ (∀ v ∈ data ++ check, v < 32) ∧
    check.length = 6 ∧ data.flatMap symbolBits = bytes.flatMap byteBits ++ rest ∧
    (expand pfx ++ data ++ check).foldl step 1 = 0x2bc830a3
  size : s.length ≤ 1023

/-- the kinds of objects that have addresses -/
inductive Category
  | destination | pool | delegation | token | order | vrfKey
  deriving DecidableEq, Repr

/-- the string is accepted as the address of an object of this category on this chain -/
def Accepted (cr : Crypto) (c : ChainType) : Category → Str → Prop
  | .destination, s => ∃ a, (destinations cr c).fromString s = .ok a
  | .pool, s => ∃ a, (pools c).fromString s = .ok a
  | .delegation, s => ∃ a, (delegations c).fromString s = .ok a
  | .token, s => ∃ a, (tokens c).fromString s = .ok a
  | .order, s => ∃ a, (orders c).fromString s = .ok a
  | .vrfKey, s => ∃ a, (vrfKeys cr c).fromString s = .ok a

/-- all of the prefixes -/
def prefixes : ChainType → Category → List Str
  | c, .destination => [destinationPrefix c .anyoneCanSpend, destinationPrefix c (.publicKeyHash []), destinationPrefix c (.publicKey []),
      destinationPrefix c (.scriptHash []), destinationPrefix c (.classicMultisig [])]
  | c, .pool => [poolPrefix c]
  | c, .delegation => [delegationPrefix c]
  | c, .token => [tokenPrefix c]
  | c, .order => [orderPrefix c]
  | c, .vrfKey => [vrfPrefix c]

theorem symbolBits_eq : ∀ v, v < 32 → bits 5 v = symbolBits v := by decide

theorem byteBits_eq' : ∀ v, v < 256 → bits 8 v =
    [v.testBit 7, v.testBit 6, v.testBit 5, v.testBit 4, v.testBit 3, v.testBit 2, v.testBit 1, v.testBit 0] := by decide +kernel

theorem byteBits_eq (b : UInt8) : bits 8 b.toNat = byteBits b := byteBits_eq' _ b.toNat_lt

theorem bytes_eq (bs : Bytes) : bitsOf bs = bs.flatMap byteBits := by
  unfold bitsOf
  congr 1
  funext b
  exact byteBits_eq b

theorem symbols_eq : ∀ {l : List Nat}, (∀ v ∈ l, v < 32) → l.flatMap (bits 5) = l.flatMap symbolBits
  | [], _ => rfl
  | v :: l, h => by
    rw [List.flatMap_cons, List.flatMap_cons, symbolBits_eq v (h v (by simp)), symbols_eq (fun w hw => h w (by simp [hw]))]

theorem char_eq (v : Nat) : char v = alphabet.getD v 0 := by
  have : charset = alphabet := by decide
  rw [char, this]

theorem chars_eq (l : List Nat) : l.map char = l.map (fun v => alphabet.getD v 0) := by
  exact List.map_congr_left (fun v _ => char_eq v)

/-- the shape in terms of the words of the model -/
theorem shape_iff {p : Str} {bs : Bytes} {s : Str} {t : List Bool} (ht : t.length < 8) :
    Shape p bs t s ↔ ∃ l, Word p l s ∧ toBytes (l.take (l.length - 6)) = bs ∧ (l.take (l.length - 6)).flatMap (bits 5) = bitsOf bs ++ t := by
  constructor
  · rintro ⟨⟨d, c, rfl, hlt, hc, hb, hr⟩, hs⟩
    have hd : ∀ v ∈ d, v < 32 := fun v hv => hlt v (by simp [hv])
    have htake : (d ++ c).take ((d ++ c).length - 6) = d := by
      rw [List.length_append, hc, Nat.add_sub_cancel, List.take_left']; rfl
    have hbits : d.flatMap (bits 5) = bitsOf bs ++ t := by rw [symbols_eq hd, bytes_eq, hb]
    refine ⟨d ++ c, ⟨hlt, ?_, ?_, hs, ?_⟩, ?_, ?_⟩
    · rw [chars_eq]; simp
    · rw [List.length_append]; omega
    · rw [← List.append_assoc]; exact hr
    · rw [htake]; exact toBytes_iff.mpr ⟨t, hbits, ht⟩
    · rw [htake]; exact hbits
  · rintro ⟨l, ⟨h1, rfl, h6, hs, hr⟩, -, hb⟩
    refine ⟨⟨l.take (l.length - 6), l.drop (l.length - 6), ?_, ?_, ?_, ?_, ?_⟩, hs⟩
    · rw [List.take_append_drop, ← chars_eq]; simp
    · rw [List.take_append_drop]; exact h1
    · rw [List.length_drop]; omega
    · rw [← symbols_eq (fun v hv => h1 v (List.mem_of_mem_take hv)), hb, bytes_eq]
    · rw [List.append_assoc, List.take_append_drop]; exact hr

end Verif.Address.Spec
