import Verif.Address.Words
import Verif.Codec.Props

/-! Lemmas about the kinds of addresses. -/

namespace Verif.Address
open Verif Codec Codec.Spec

variable {T : Type}

/-- what is needed of a kind of objects: a prefix of small letters, an exact binary form, and objects that are not too long -/
structure Sane (k : Kind T) (fits : T → Prop) : Prop where
  letters : ∀ o, Letters (k.pfx o)
  exact : Exact k.codec fits
  size : ∀ o, fits o → (k.pfx o).length + 1 + (8 * (k.codec.enc o).length + 4) / 5 + 6 ≤ 1023

def lettersB (h : Str) : Bool := decide (1 ≤ h.length) && decide (h.length ≤ 16) && h.all isLower

theorem letters_of {h : Str} (hb : lettersB h = true) : Letters h ∧ h.length ≤ 16 := by
  simp only [lettersB, Bool.and_eq_true, decide_eq_true_eq, List.all_eq_true] at hb
  exact ⟨⟨hb.1.1, by omega, hb.2⟩, hb.1.2⟩

theorem destinationPrefix_letters (c : ChainType) (d : Destination) : lettersB (destinationPrefix c d) = true := by
  cases c <;> cases d <;> rfl

theorem enc_destination (cr : Crypto) (d : Destination) : (Destination.codec cr).enc d =
    d.tag :: (match d with | .anyoneCanSpend => [] | .publicKeyHash a => a | .publicKey a => 0 :: a | .scriptHash a => a | .classicMultisig a => a) := by
  cases d <;> rfl

/-- the length of a destination in binary -/
def destinationSize : Destination → Nat
  | .anyoneCanSpend => 1
  | .publicKeyHash _ => 21
  | .publicKey _ => 35
  | .scriptHash _ => 33
  | .classicMultisig _ => 21

theorem destination_length {cr : Crypto} {d : Destination} (h : d.Fits cr) :
    ((Destination.codec cr).enc d).length = destinationSize d := by
  rw [enc_destination]
  cases d <;> simp only [Destination.Fits] at h <;> simp [h, destinationSize]

theorem sane_destinations (cr : Crypto) (c : ChainType) : Sane (destinations cr c) (Destination.Fits cr) where
  letters o := (letters_of (destinationPrefix_letters c o)).1
  exact := C46_destination cr
  size o h := by
    have h1 := (letters_of (destinationPrefix_letters c o)).2
    have h2 := destination_length h
    have h3 : ((Destination.codec cr).enc o).length ≤ 35 := by rw [h2]; cases o <;> simp [destinationSize]
    show (destinationPrefix c o).length + 1 + (8 * ((Destination.codec cr).enc o).length + 4) / 5 + 6 ≤ 1023
    omega

theorem exact_hash : Exact hashC (fun o => o.length = 32) := exact_of inferInstance (fun _ => ok_hash _)
theorem exact_vrf (cr : Crypto) : Exact (vrfPublicKeyC cr) (fun o => o.length = 32 ∧ cr.vrfPublicKey o = true) :=
  exact_of inferInstance (fun _ => ok_vrfpk cr _)

theorem sane_ids {p : Str} (hp : lettersB p = true) : Sane (⟨fun _ => p, hashC⟩ : Kind Bytes) (fun o => o.length = 32) where
  letters _ := (letters_of hp).1
  exact := exact_hash
  size o h := by
    have h1 := (letters_of hp).2
    have h2 : (hashC.enc o).length = 32 := h
    show p.length + 1 + (8 * (hashC.enc o).length + 4) / 5 + 6 ≤ 1023
    omega

theorem sane_pools (c : ChainType) : Sane (pools c) (fun o => o.length = 32) := sane_ids (by cases c <;> decide)
theorem sane_delegations (c : ChainType) : Sane (delegations c) (fun o => o.length = 32) := sane_ids (by cases c <;> decide)
theorem sane_tokens (c : ChainType) : Sane (tokens c) (fun o => o.length = 32) := sane_ids (by cases c <;> decide)
theorem sane_orders (c : ChainType) : Sane (orders c) (fun o => o.length = 32) := sane_ids (by cases c <;> decide)

theorem sane_vrfKeys (cr : Crypto) (c : ChainType) : Sane (vrfKeys cr c) (fun o => o.length = 32 ∧ cr.vrfPublicKey o = true) where
  letters _ := (letters_of (by cases c <;> rfl)).1
  exact := exact_vrf cr
  size o h := by
    have h1 : (vrfPrefix c).length ≤ 16 := (letters_of (by cases c <;> decide)).2
    have h2 : ((vrfPublicKeyC cr).enc o).length = 33 := by
      show (0 :: o).length = 33
      simp [h.1]
    show (vrfPrefix c).length + 1 + (8 * ((vrfPublicKeyC cr).enc o).length + 4) / 5 + 6 ≤ 1023
    omega

/-! ### New addresses and strings -/

variable {k : Kind T} {fits : T → Prop}

theorem new_ok (hk : Sane k fits) {o : T} {a : Address T} :
    k.new o = .ok a ↔ encode (k.pfx o) (k.codec.enc o) = .ok a.address ∧ a.object = o := by
  unfold Kind.new
  simp only [bind_eq_ok, pure_eq_ok]
  constructor
  · rintro ⟨s, h, rfl⟩; exact ⟨h, rfl⟩
  · rintro ⟨h, rfl⟩; exact ⟨_, h, rfl⟩

theorem fromString_ok (hk : Sane k fits) {s : Str} {a : Address T} :
    k.fromString s = .ok a ↔ a.address = s ∧ fits a.object ∧ ∃ l, Word (k.pfx a.object) l s ∧
      toBytes (l.take (l.length - 6)) = k.codec.enc a.object := by
  unfold Kind.fromString Kind.decodeAddress
  simp only [bind_eq_ok, okOr_eq_ok, ensure_eq_ok, pure_eq_ok]
  constructor
  · rintro ⟨o, ⟨⟨hrp, data⟩, hd, o', ho, -, hp, rfl⟩, rfl⟩
    obtain ⟨hf, he⟩ := (C46_decode_all hk.exact _ _).mp ho
    simp only at hp
    subst hp
    obtain ⟨l, hw, h⟩ := (decode_letters (hk.letters o')).mp hd
    exact ⟨rfl, hf, l, hw, by rw [← h]; exact he⟩
  · rintro ⟨rfl, hf, l, hw, h⟩
    exact ⟨a.object, ⟨(k.pfx a.object, k.codec.enc a.object), (decode_letters (hk.letters _)).mpr ⟨l, hw, h.symm⟩, a.object,
      (C46_decode_all hk.exact _ _).mpr ⟨hf, rfl⟩, (), rfl, rfl⟩, rfl⟩

theorem word_ne {hrp s : Str} {l : List Nat} (hl : Letters hrp) (hw : Word hrp l s) : s.idxOf? 49 = some hrp.length := by
  obtain ⟨h1, rfl, -⟩ := hw
  rw [List.idxOf?_eq_some_iff]
  refine ⟨by simp, by simp, ?_⟩
  intro j hj
  rw [List.getElem_append_left hj]
  have := isLower_iff.mp (hl.2.2 _ (List.getElem_mem hj))
  simp; omega

/-- the checksum is determined by what stands before it -/
theorem checksum_unique {p c c' : List Nat} (hc : c.length = 6) (hc' : c'.length = 6) (h : ∀ v ∈ c, v < 32) (h' : ∀ v ∈ c', v < 32)
    (he : (p ++ c).foldl step 1 = (p ++ c').foldl step 1) : c = c' := by
  rw [List.foldl_append, List.foldl_append] at he
  have hx := foldl_step_xor c c' (p.foldl step 1) (p.foldl step 1) (by omega)
  rw [he, Nat.xor_self, Nat.xor_self] at hx
  match c, c', hc, hc' with
  | [a1, a2, a3, a4, a5, a6], [b1, b2, b3, b4, b5, b6], _, _ =>
    simp only [List.mem_cons, List.not_mem_nil, or_false, forall_eq_or_imp, forall_eq] at h h'
    obtain ⟨g1, g2, g3, g4, g5, g6⟩ := h
    obtain ⟨k1, k2, k3, k4, k5, k6⟩ := h'
    simp only [List.zipWith_cons_cons, List.zipWith_nil_left] at hx
    rw [six_fold (xor_lt32 g1 k1) (xor_lt32 g2 k2) (xor_lt32 g3 k3) (xor_lt32 g4 k4) (xor_lt32 g5 k5) (xor_lt32 g6 k6)] at hx
    have e1 : a1 ^^^ b1 = 0 := by omega
    have e2 : a2 ^^^ b2 = 0 := by omega
    have e3 : a3 ^^^ b3 = 0 := by omega
    have e4 : a4 ^^^ b4 = 0 := by omega
    have e5 : a5 ^^^ b5 = 0 := by omega
    have e6 : a6 ^^^ b6 = 0 := by omega
    rw [eq_of_xor e1, eq_of_xor e2, eq_of_xor e3, eq_of_xor e4, eq_of_xor e5, eq_of_xor e6]

/-- the string with given symbols before the checksum -/
theorem word_of_symbols {hrp : Str} (hl : Letters hrp) {d : List Nat} (hd : ∀ v ∈ d, v < 32) (hlen : hrp.length + 1 + d.length + 6 ≤ 1023) :
    Word hrp (d ++ checksum (expand hrp ++ d)) (hrp ++ 49 :: (d ++ checksum (expand hrp ++ d)).map char) := by
  refine ⟨?_, rfl, ?_, ?_, ?_⟩
  · intro v hv
    rw [List.mem_append] at hv
    rcases hv with hv | hv
    · exact hd v hv
    · exact checksum_lt _ v hv
  · rw [List.length_append, checksum_length]; omega
  · rw [List.length_append, List.length_cons, List.length_map, List.length_append, checksum_length]; omega
  · rw [← List.append_assoc]
    apply checksum_residue
    intro v hv
    rw [List.mem_append] at hv
    rcases hv with hv | hv
    · exact expand_lt hl v hv
    · exact hd v hv

theorem take_checksum (d p : List Nat) : (d ++ checksum p).take ((d ++ checksum p).length - 6) = d := by
  rw [List.length_append, checksum_length, Nat.add_sub_cancel, List.take_left']
  rfl

end Verif.Address
