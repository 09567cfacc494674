import Verif.Address.Spec

/-!
# C83: addresses

`Sane k fits` says of a kind of objects that its prefixes consist of small letters, that its binary form is exact (C46) and that the objects
fit into an address; `C83_kinds` shows it for all of the kinds.
-/

set_option maxRecDepth 100000

namespace Verif.Address
open Verif Codec Codec.Spec Spec

variable {T : Type} {k : Kind T} {fits : T → Prop}

/-- The kinds of the code. -/
theorem C83_kinds (cr : Crypto) (c : ChainType) :
    Sane (destinations cr c) (Destination.Fits cr) ∧ Sane (pools c) (fun o => o.length = 32) ∧
    Sane (delegations c) (fun o => o.length = 32) ∧ Sane (tokens c) (fun o => o.length = 32) ∧
    Sane (orders c) (fun o => o.length = 32) ∧ Sane (vrfKeys cr c) (fun o => o.length = 32 ∧ cr.vrfPublicKey o = true) :=
  ⟨sane_destinations cr c, sane_pools c, sane_delegations c, sane_tokens c, sane_orders c, sane_vrfKeys cr c⟩

/-- Every object has an address, and reading it gives the object back. -/
theorem C83_roundtrip (hk : Sane k fits) {o : T} (ho : fits o) :
    ∃ a, k.new o = .ok a ∧ a.object = o ∧ k.fromString a.address = .ok a := by
  have he := (encode_letters (hk.letters o)).mpr ⟨hk.size o ho, rfl⟩
  refine ⟨⟨_, o⟩, (new_ok hk).mpr ⟨he, rfl⟩, rfl, (fromString_ok hk).mpr ⟨rfl, ho, _, word_of_encode (hk.letters o) he, ?_⟩⟩
  rw [symbolsOf_take, toBytes_toSymbols]

/-- Different objects have different addresses. -/
theorem C83_injective (hk : Sane k fits) {o o' : T} {a a' : Address T} (ho : fits o) (ho' : fits o') (h : k.new o = .ok a)
    (h' : k.new o' = .ok a') (he : a.address = a'.address) : o = o' := by
  obtain ⟨b, h1, h2, h3⟩ := C83_roundtrip hk ho
  obtain ⟨b', h1', h2', h3'⟩ := C83_roundtrip hk ho'
  rw [h] at h1; rw [h'] at h1'
  cases h1; cases h1'
  rw [he, h3'] at h3
  cases h3
  rw [← h2, ← h2']

/-- Which strings are accepted, and for what: exactly those that consist of the prefix of the object, '1', the bits of the object followed by
fewer than eight further bits, and a checksum. -/
theorem C83_strings (hk : Sane k fits) (s : Str) (a : Address T) :
    k.fromString s = .ok a ↔ a.address = s ∧ fits a.object ∧
      ∃ rest, rest.length < 8 ∧ Shape (k.pfx a.object) (k.codec.enc a.object) rest s := by
  rw [fromString_ok hk]
  constructor
  · rintro ⟨h1, h2, l, hw, hb⟩
    obtain ⟨t, ht, h8⟩ := toBytes_iff.mp hb
    exact ⟨h1, h2, t, h8, (shape_iff h8).mpr ⟨l, hw, hb, ht⟩⟩
  · rintro ⟨h1, h2, t, h8, hs⟩
    obtain ⟨l, hw, hb, -⟩ := (shape_iff h8).mp hs
    exact ⟨h1, h2, l, hw, hb⟩

/-- The address made from the object is the one whose further bits are fewer than five zeros. -/
theorem C83_canonical (hk : Sane k fits) {o : T} (ho : fits o) (s : Str) :
    k.new o = .ok ⟨s, o⟩ ↔ ∃ n, n < 5 ∧ Shape (k.pfx o) (k.codec.enc o) (List.replicate n false) s := by
  rw [new_ok hk]
  constructor
  · rintro ⟨he, -⟩
    obtain ⟨n, hn, hb⟩ := toSymbols_bits (k.codec.enc o)
    refine ⟨n, hn, (shape_iff (by simp; omega)).mpr ⟨_, word_of_encode (hk.letters o) he, ?_, ?_⟩⟩
    · rw [symbolsOf_take, toBytes_toSymbols]
    · rw [symbolsOf_take]; exact hb
  · rintro ⟨n, hn, hs⟩
    obtain ⟨l, ⟨h1, rfl, h6, h1023, hr⟩, -, hb⟩ := (shape_iff (by simp; omega)).mp hs
    refine ⟨(encode_letters (hk.letters o)).mpr ⟨hk.size o ho, ?_⟩, rfl⟩
    obtain ⟨m, hm, hb'⟩ := toSymbols_bits (k.codec.enc o)
    have e1 := congrArg List.length hb
    have e2 := congrArg List.length hb'
    rw [flatMap_bits_length, List.length_append, List.length_replicate] at e1 e2
    have hnm : n = m := by omega
    subst hnm
    have hd : l.take (l.length - 6) = toSymbols (k.codec.enc o) :=
      flatMap_bits_inj (fun v hv => h1 v (List.mem_of_mem_take hv)) (toSymbols_lt _) (hb.trans hb'.symm)
    have hsplit : l = toSymbols (k.codec.enc o) ++ l.drop (l.length - 6) := by
      rw [← hd, List.take_append_drop]
    have hlt : ∀ v ∈ expand (k.pfx o) ++ toSymbols (k.codec.enc o), v < 32 := by
      intro v hv
      rw [List.mem_append] at hv
      rcases hv with hv | hv
      · exact expand_lt (hk.letters o) v hv
      · exact toSymbols_lt _ v hv
    have hc : l.drop (l.length - 6) = checksum (expand (k.pfx o) ++ toSymbols (k.codec.enc o)) := by
      apply checksum_unique (p := expand (k.pfx o) ++ toSymbols (k.codec.enc o))
      · rw [List.length_drop]; omega
      · rfl
      · exact fun v hv => h1 v (List.mem_of_mem_drop hv)
      · exact checksum_lt _
      · rw [checksum_residue hlt, List.append_assoc, ← hsplit]; exact hr
    rw [symbolsOf, ← hc, ← hsplit]

/-- Finding: there is always another string that is accepted for the same object. -/
theorem C83_malleable (hk : Sane k fits) {o : T} (ho : fits o)
    (hroom : (k.pfx o).length + 1 + (8 * (k.codec.enc o).length + 5) / 5 + 6 ≤ 1023) :
    ∃ a b, k.new o = .ok a ∧ k.fromString b.address = .ok b ∧ b.object = o ∧ a.address ≠ b.address := by
  obtain ⟨a, ha, hao, -⟩ := C83_roundtrip hk ho
  obtain ⟨hlt, hlen, n, hn, hbits⟩ := regroup_spec _ (bitsOf (k.codec.enc o) ++ [true]) (Nat.le_refl _)
  rw [List.length_append, bitsOf_length] at hlen
  have hw := word_of_symbols (hk.letters o) hlt (by rw [hlen]; simp only [List.length_singleton]; omega)
  have hb : toBytes (regroup (bitsOf (k.codec.enc o) ++ [true])) = k.codec.enc o :=
    toBytes_iff.mpr ⟨[true] ++ List.replicate n false, by rw [hbits, List.append_assoc], by simp; omega⟩
  refine ⟨a, ⟨_, o⟩, ha, (fromString_ok hk).mpr ⟨rfl, ho, _, hw, by rw [take_checksum]; exact hb⟩, rfl, ?_⟩
  intro he
  have h1 := (new_ok hk).mp ha
  obtain ⟨-, h2⟩ := (encode_letters (hk.letters o)).mp h1.1
  rw [h2] at he
  obtain ⟨-, he⟩ := List.append_inj he rfl
  simp only [List.cons.injEq, true_and] at he
  have hwa := word_of_encode (hk.letters o) h1.1
  have hinj : symbolsOf (k.pfx o) (k.codec.enc o) = regroup (bitsOf (k.codec.enc o) ++ [true]) ++
      checksum (expand (k.pfx o) ++ regroup (bitsOf (k.codec.enc o) ++ [true])) := by
    have h3 := mapM_value_map hwa.1
    rw [he, mapM_value_map hw.1] at h3
    exact (Option.some.inj h3).symm
  have h4 := symbolsOf_take (k.pfx o) (k.codec.enc o)
  rw [hinj, take_checksum] at h4
  obtain ⟨m, hm, h5⟩ := toSymbols_bits (k.codec.enc o)
  rw [← h4, hbits, List.append_assoc] at h5
  have h6 := List.append_cancel_left h5
  cases m with
  | zero => simp at h6
  | succ m => simp [List.replicate_succ] at h6

/-- Addresses with a wrong character, or two, are refused: two accepted strings of the same length are equal or differ in at least three
places. -/
theorem C83_typo (hk : Sane k fits) {s s' : Str} {a a' : Address T} (h : k.fromString s = .ok a) (h' : k.fromString s' = .ok a')
    (hp : (k.pfx a.object).length = (k.pfx a'.object).length) (hs : s.length = s'.length) : s = s' ∨ 3 ≤ differing s s' := by
  obtain ⟨-, -, l, hw, -⟩ := (fromString_ok hk).mp h
  obtain ⟨-, -, l', hw', -⟩ := (fromString_ok hk).mp h'
  exact words_differ (hk.letters _) (hk.letters _) hw hw' hp hs

/-- Strings with a capital letter are refused. -/
theorem C83_capitals (hk : Sane k fits) {s : Str} {c : Nat} (hc : c ∈ s) (hu : 65 ≤ c ∧ c ≤ 90) : (k.fromString s).toOption = none := by
  cases h : k.fromString s with
  | error e => rfl
  | ok a =>
    exfalso
    obtain ⟨-, -, l, ⟨h1, rfl, -⟩, -⟩ := (fromString_ok hk).mp h
    have hup : isUpper c = true := by simp [isUpper, hu]
    rw [List.mem_append, List.mem_cons, List.mem_map] at hc
    rcases hc with hc | rfl | ⟨v, hv, rfl⟩
    · rw [(hk.letters _).not_upper c hc] at hup; cases hup
    · omega
    · rw [(char_value v (h1 v hv)).2.1] at hup; cases hup

/-- The short form of an accepted address is always defined: the prefix, '1' and three characters, and the last four; short addresses are
shown entirely. -/
theorem C83_short (hk : Sane k fits) {s : Str} {a : Address T} (h : k.fromString s = .ok a) :
    a.short = some (if s.length < (k.pfx a.object).length + 12 then s
      else s.take ((k.pfx a.object).length + 4) ++ [46, 46, 46] ++ s.drop (s.length - 4)) ∧
    ∃ t, s.take ((k.pfx a.object).length + 4) = k.pfx a.object ++ 49 :: t ∧ t.length = 3 := by
  obtain ⟨h1, -, l, hw, -⟩ := (fromString_ok hk).mp h
  have hi := word_ne (hk.letters _) hw
  obtain ⟨hv, hs, h6, -, -⟩ := hw
  have hlen : s.length = (k.pfx a.object).length + 1 + l.length := by rw [hs]; simp; omega
  constructor
  · unfold Address.short
    rw [h1, hi]
    simp only [Option.getD_some]
    rw [if_neg (by omega), List.length_drop]
    by_cases hc : s.length < (k.pfx a.object).length + 12
    · rw [if_pos (by omega), if_pos hc]
    · rw [if_neg (by omega), if_neg hc, List.drop_drop]
      congr 4
      omega
  · refine ⟨(l.map char).take 3, ?_, by simp; omega⟩
    rw [hs, List.take_append, List.take_of_length_le (by omega)]
    simp

/-! ### Chains and categories -/

theorem prefix_mem {cr : Crypto} {c : ChainType} : ∀ {n : Category} {s : Str}, Accepted cr c n s →
    ∃ p l, p ∈ prefixes c n ∧ Letters p ∧ Word p l s
  | .destination, s, ⟨a, h⟩ => by
    obtain ⟨-, -, l, hw, -⟩ := (fromString_ok (sane_destinations cr c)).mp h
    refine ⟨_, l, ?_, (sane_destinations cr c).letters _, hw⟩
    show destinationPrefix c a.object ∈ _
    cases a.object <;> cases c <;> simp [prefixes, destinationPrefix]
  | .pool, s, ⟨a, h⟩ => by
    obtain ⟨-, -, l, hw, -⟩ := (fromString_ok (sane_pools c)).mp h
    exact ⟨_, l, List.mem_singleton.mpr rfl, (sane_pools c).letters a.object, hw⟩
  | .delegation, s, ⟨a, h⟩ => by
    obtain ⟨-, -, l, hw, -⟩ := (fromString_ok (sane_delegations c)).mp h
    exact ⟨_, l, List.mem_singleton.mpr rfl, (sane_delegations c).letters a.object, hw⟩
  | .token, s, ⟨a, h⟩ => by
    obtain ⟨-, -, l, hw, -⟩ := (fromString_ok (sane_tokens c)).mp h
    exact ⟨_, l, List.mem_singleton.mpr rfl, (sane_tokens c).letters a.object, hw⟩
  | .order, s, ⟨a, h⟩ => by
    obtain ⟨-, -, l, hw, -⟩ := (fromString_ok (sane_orders c)).mp h
    exact ⟨_, l, List.mem_singleton.mpr rfl, (sane_orders c).letters a.object, hw⟩
  | .vrfKey, s, ⟨a, h⟩ => by
    obtain ⟨-, -, l, hw, -⟩ := (fromString_ok (sane_vrfKeys cr c)).mp h
    exact ⟨_, l, List.mem_singleton.mpr rfl, (sane_vrfKeys cr c).letters a.object, hw⟩

def chains : List ChainType := [.mainnet, .testnet, .regtest, .signet]
def categories : List Category := [.destination, .pool, .delegation, .token, .order, .vrfKey]

theorem prefixes_disjoint : (chains.all fun c => categories.all fun n => chains.all fun c' => categories.all fun n' =>
    decide (c = c' ∧ n = n') || (prefixes c n).all fun p => !(prefixes c' n').contains p) = true := by decide +kernel

/-- A string is accepted on one chain only, and as one category of objects only. -/
theorem C83_chains {cr : Crypto} {c c' : ChainType} {n n' : Category} {s : Str} (h : Accepted cr c n s) (h' : Accepted cr c' n' s) :
    c = c' ∧ n = n' := by
  obtain ⟨p, l, hp, hl, hw⟩ := prefix_mem h
  obtain ⟨p', l', hp', hl', hw'⟩ := prefix_mem h'
  have hpp : p = p' := by
    obtain ⟨h1, rfl, -⟩ := hw
    obtain ⟨h1', he, -⟩ := hw'
    have e1 := splitLast_append p (not_sep h1)
    rw [he, splitLast_append p' (not_sep h1')] at e1
    exact (congrArg Prod.fst (Option.some.inj e1)).symm
  subst hpp
  have hd := prefixes_disjoint
  simp only [List.all_eq_true] at hd
  have := hd c (by cases c <;> simp [chains]) n (by cases n <;> simp [categories]) c' (by cases c' <;> simp [chains]) n'
    (by cases n' <;> simp [categories])
  rw [Bool.or_eq_true, decide_eq_true_eq] at this
  rcases this with h | h
  · exact h
  · rw [List.all_eq_true] at h
    have := h p hp
    simp [hp'] at this

/-- The prefix tells the chain and the form of a destination. -/
theorem C83_form {c c' : ChainType} {d d' : Destination} (h : destinationPrefix c d = destinationPrefix c' d') : c = c' ∧ d.tag = d'.tag := by
  cases c <;> cases d <;> cases c' <;> cases d' <;> first | exact ⟨rfl, rfl⟩ | (exfalso; revert h; simp only [destinationPrefix]; decide)

/-- Finding: JSON is read without looking at the prefix, so the address of a pool is accepted as a token, on whatever chain. -/
theorem C83_json {c c' : ChainType} {o : Bytes} (ho : o.length = 32) {a : Address Bytes} (h : (pools c).new o = .ok a) :
    (tokens c').decodeJson a.address = .ok o ∧ ((tokens c').fromString a.address).toOption = none := by
  obtain ⟨b, h1, h2, h3⟩ := C83_roundtrip (sane_pools c) (o := o) ho
  rw [h] at h1
  cases h1
  constructor
  · have hd := decode_encode ((sane_pools c).letters o) ((new_ok (sane_pools c)).mp h).1
    unfold Kind.decodeJson
    rw [hd]
    simp only [bind_eq_ok, okOr_eq_ok]
    exact ⟨_, rfl, (C46_decode_all (sane_tokens c').exact _ _).mpr ⟨ho, rfl⟩⟩
  · cases ht : (tokens c').fromString a.address with
    | error e => rfl
    | ok t =>
      have cr : Crypto := ⟨fun _ => true, fun _ => true, fun _ => true, fun _ => true, fun _ => true⟩
      have := (C83_chains (cr := cr) (n := .pool) (n' := .token) ⟨_, h3⟩ ⟨t, ht⟩).2
      cases this

/-! ### Destinations of different lengths -/

theorem word_length {p s : Str} {l : List Nat} {bs : Bytes} (hw : Word p l s) (hb : toBytes (l.take (l.length - 6)) = bs) :
    ∃ t, t < 8 ∧ s.length = p.length + 1 + l.length ∧ 6 ≤ l.length ∧ 5 * (l.length - 6) = 8 * bs.length + t := by
  obtain ⟨t, ht, h8⟩ := toBytes_iff.mp hb
  obtain ⟨-, hs, h6, -⟩ := hw
  have := congrArg List.length ht
  rw [flatMap_bits_length, List.length_append, bitsOf_length, List.length_take] at this
  refine ⟨t.length, h8, by rw [hs]; simp; omega, h6, by omega⟩

theorem destinationPrefix_length (c : ChainType) (d : Destination) : (destinationPrefix c d).length =
    match d with | .anyoneCanSpend => 16 | .publicKeyHash _ => 3 | _ => 4 := by
  cases c <;> cases d <;> rfl

theorem first_symbols {l : List Nat} {b : UInt8} {bs : Bytes} (hl : ∀ v ∈ l, v < 32) (hb : toBytes l = b :: bs) :
    ∃ x y r, l = x :: y :: r ∧ bits 5 x ++ (bits 5 y).take 3 = bits 8 b.toNat := by
  obtain ⟨t, ht, h8⟩ := toBytes_iff.mp hb
  rw [bitsOf_cons] at ht
  have hlen := congrArg List.length ht
  rw [flatMap_bits_length, List.length_append, List.length_append, bits_length] at hlen
  match l with
  | [] => simp at hlen; omega
  | [x] => simp at hlen; omega
  | x :: y :: r =>
    refine ⟨x, y, r, rfl, ?_⟩
    rw [List.flatMap_cons, List.flatMap_cons, List.append_assoc] at ht
    have h := congrArg (List.take 8) ht
    rw [List.take_left' (bits_length 8 _), List.take_append, List.take_of_length_le (by rw [bits_length]; omega), bits_length,
      List.take_append, bits_length] at h
    simpa using h

theorem symbol_table : ∀ x, x < 32 → ∀ y, y < 32 → (bits 5 x ++ (bits 5 y).take 3 = bits 8 1 → char y ≠ char 0) ∧
    (bits 5 x ++ (bits 5 y).take 3 = bits 8 4 → x = 0) := by decide +kernel

theorem hash_multisig {c : ChainType} {cr : Crypto} {a a' : Bytes} {s s' : Str} {l l' : List Nat}
    (hw : Word (destinationPrefix c (.publicKeyHash a)) l s) (hw' : Word (destinationPrefix c (.classicMultisig a')) l' s')
    (hb : toBytes (l.take (l.length - 6)) = (Destination.codec cr).enc (.publicKeyHash a))
    (hb' : toBytes (l'.take (l'.length - 6)) = (Destination.codec cr).enc (.classicMultisig a')) : 3 ≤ differing s s' ∧ 3 ≤ differing s' s := by
  rw [enc_destination] at hb hb'
  obtain ⟨h1, rfl, -⟩ := hw
  obtain ⟨h1', rfl, -⟩ := hw'
  have hlt : ∀ v ∈ l.take (l.length - 6), v < 32 := fun v hv => h1 v (List.mem_of_mem_take hv)
  have hlt' : ∀ v ∈ l'.take (l'.length - 6), v < 32 := fun v hv => h1' v (List.mem_of_mem_take hv)
  obtain ⟨x, y, r, e, hbits⟩ := first_symbols hlt hb
  obtain ⟨x', y', r', e', hbits'⟩ := first_symbols hlt' hb'
  have hx : x < 32 := hlt x (by simp [e])
  have hy : y < 32 := hlt y (by simp [e])
  have hx' : x' < 32 := hlt' x' (by simp [e'])
  have hy' : y' < 32 := hlt' y' (by simp [e'])
  have hne := (symbol_table x hx y hy).1 hbits
  have h0 := (symbol_table x' hx' y' hy').2 hbits'
  subst h0
  have hsep : char x ≠ 49 := (char_value x hx).2.2
  have el : l = x :: y :: (r ++ l.drop (l.length - 6)) := by
    have := List.take_append_drop (l.length - 6) l
    rw [e] at this; exact this.symm
  have el' : l' = 0 :: y' :: (r' ++ l'.drop (l'.length - 6)) := by
    have := List.take_append_drop (l'.length - 6) l'
    rw [e'] at this; exact this.symm
  generalize l.drop (l.length - 6) = t at el
  generalize l'.drop (l'.length - 6) = t' at el'
  subst el; subst el'
  have hne' : char 0 ≠ char y := fun e => hne e.symm
  have hsep' : 49 ≠ char x := fun e => hsep e.symm
  cases c <;> simp [destinationPrefix, str, differing, hne, hne', hsep, hsep'] <;> omega

/-- For destinations the prefixes need not have the same length. -/
theorem C83_typo_destination (cr : Crypto) (c : ChainType) {s s' : Str} {a a' : Address Destination}
    (h : (destinations cr c).fromString s = .ok a) (h' : (destinations cr c).fromString s' = .ok a') (hs : s.length = s'.length) :
    s = s' ∨ 3 ≤ differing s s' := by
  by_cases hp : (destinationPrefix c a.object).length = (destinationPrefix c a'.object).length
  · exact C83_typo (sane_destinations cr c) h h' hp hs
  · right
    obtain ⟨-, hf, l, hw, hb⟩ := (fromString_ok (sane_destinations cr c)).mp h
    obtain ⟨-, hf', l', hw', hb'⟩ := (fromString_ok (sane_destinations cr c)).mp h'
    obtain ⟨t, ht, e1, e2, e3⟩ := word_length hw hb
    obtain ⟨t', ht', e1', e2', e3'⟩ := word_length hw' hb'
    change toBytes _ = (Destination.codec cr).enc a.object at hb
    change toBytes _ = (Destination.codec cr).enc a'.object at hb'
    change s.length = (destinationPrefix c a.object).length + 1 + l.length at e1
    change s'.length = (destinationPrefix c a'.object).length + 1 + l'.length at e1'
    change _ = 8 * ((Destination.codec cr).enc a.object).length + t at e3
    change _ = 8 * ((Destination.codec cr).enc a'.object).length + t' at e3'
    change Word (destinationPrefix c a.object) l s at hw
    change Word (destinationPrefix c a'.object) l' s' at hw'
    rw [destination_length hf] at e3
    rw [destination_length hf'] at e3'
    rw [destinationPrefix_length] at e1 e1' hp
    rw [destinationPrefix_length] at hp
    cases ho : a.object <;> cases ho' : a'.object <;> simp only [ho, ho', destinationSize] at * <;>
      first
      | exact (hash_multisig hw hw' hb hb').1
      | exact (hash_multisig hw' hw hb' hb).2
      | omega
      | (exfalso; simp at hp)

/-- The other kinds have one prefix per chain. -/
theorem C83_typo_ids {p : Str} {cd : Codec Bytes} {fits : Bytes → Prop} (hk : Sane ⟨fun _ => p, cd⟩ fits) {s s' : Str} {a a' : Address Bytes}
    (h : (⟨fun _ => p, cd⟩ : Kind Bytes).fromString s = .ok a) (h' : (⟨fun _ => p, cd⟩ : Kind Bytes).fromString s' = .ok a')
    (hs : s.length = s'.length) : s = s' ∨ 3 ≤ differing s s' :=
  C83_typo hk h h' rfl hs

/-! ### Examples -/

/-- all keys are good -/
def anyKey : Crypto := ⟨fun _ => true, fun _ => true, fun _ => true, fun _ => true, fun _ => true⟩

def okIs {α β : Type} [DecidableEq β] (x : Except α β) (b : β) : Bool := decide (x.toOption = some b)

/-- strings of bech32_encoding/tests.rs -/
example : okIs (encode (str "xyz") [0xde, 0xad, 0xbe, 0xef]) (str "xyz1m6kmamccq67n2") = true := by decide +kernel
example : okIs (decode (str "xyz1qqwwem8x")) (str "xyz", [0]) = true := by decide +kernel
example : okIs (encode (str "hrp") []) (str "hrp1etsu3g") = true := by decide +kernel
example : (decode (str "A1LQFN3A")).isOk = true ∧ (decode (str "a1lqfn3a")).isOk = true ∧ (decode (str "?1v759aa")).isOk = true ∧
    (decode (str "split1checkupstagehandshakeupstreamerranterredcaperredlc445v")).isOk = true := by decide +kernel
example : [" 1xj0phk", "qyrz8wqd2c9m", "1qyrz8wqd2c9m", "y1b0jsk6g", "lt1igcx5c0", "in1muywd", "mm1crxm3i", "M1VUXWEZ", "16plkw9",
    "bech321qqqsyrhqy2a"].all (fun s => !(decode (str s)).isOk) = true := by decide +kernel

/-- an address of the tests is read as the hash of a key, is refused with a wrong character and on the other chains, and is made again from the
object -/
example :
    let s := str "rmt1qyyra5j3qduhyd43wa50lpn2ddpg9ql0u50ceu68"
    ((destinations anyKey .regtest).fromString s).isOk = true ∧ ((destinations anyKey .testnet).fromString s).isOk = false ∧
    ((destinations anyKey .regtest).fromString (s.set 10 (str "q")[0]!)).isOk = false ∧
    (((destinations anyKey .regtest).fromString s).toOption.bind fun a =>
      ((destinations anyKey .regtest).new a.object).toOption.bind fun b => b.short) = some (str "rmt1qyy...eu68") := by decide +kernel

/-- the shortest address -/
example : (((destinations anyKey .mainnet).new .anyoneCanSpend).toOption.map fun a => a.address.length) = some 25 := by decide +kernel

end Verif.Address
