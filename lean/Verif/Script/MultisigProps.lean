import Verif.Script.AuthLemmas

/-! Property theorems for signature checks against a destination and multisignatures (C45). -/

set_option maxRecDepth 100000

namespace Verif

theorem BMap.length_insertL_of_none {K V : Type} [LinearOrder K] (k : K) (v : V) :
    ∀ l : List (K × V), BMap.lookupL l k = none → (BMap.insertL k v l).length = l.length + 1
  | [], _ => rfl
  | (a, b) :: t, h => by
      simp only [BMap.lookupL] at h
      split at h
      · cases h
      · rename_i hne
        simp only [BMap.insertL]
        by_cases h1 : k < a
        · simp [h1]
        · simp [h1, hne, BMap.length_insertL_of_none k v t h]

theorem BMap.size_insert_of_none {K V : Type} [LinearOrder K] (m : BMap K V) (k : K) (v : V)
    (h : m.get k = none) : (m.insert k v).size = m.size + 1 :=
  BMap.length_insertL_of_none k v m.entries h

end Verif

namespace Verif.Script

/-- C45. A witness passes the check against a destination exactly when it authorises the
destination: nothing but the absence of a signature for "anyone can spend", a valid signature under
the key (or a key with the right hash), a complete multisignature, and nothing at all for a script
hash. -/
theorem C45_destination (cr : Crypto) (sh : Nat → Option Nat) (d : Dest) (w : Witness) :
    verifySignature cr sh d w = .ok () ↔ SigValid cr sh d w :=
  verifySignature_ok_iff cr sh d w

/-- C45. A multisignature is accepted iff its challenge has the committed hash and is usable, and it
carries exactly the required number of signatures, each valid under the key at its index. -/
theorem C45_multisig (cr : Crypto) (h : Nat) (m : MsSpend) (msg : Nat) :
    verifyMultisig cr h m msg = .ok () ↔ cr.hashChallenge m.challenge = h ∧ MultisigOk cr msg m :=
  verifyMultisig_ok_iff cr h m msg

/-- C45. An accepted `m`-of-`n` spend shows valid signatures for `m` different key positions. -/
theorem C45_quorum (cr : Crypto) (h : Nat) (m : MsSpend) (msg : Nat)
    (hok : verifyMultisig cr h m msg = .ok ()) :
    ∃ pos : List Nat, pos.Nodup ∧ pos.length = m.challenge.minRequired ∧ 0 < pos.length ∧
      ∀ i ∈ pos, ∃ k s, m.challenge.keys[i]? = some k ∧ cr.verifyMsg k s msg = true := by
  have hm := (C45_multisig cr h m msg).1 hok
  have hlen : (m.sigs.entries.map (·.1)).length = m.challenge.minRequired := by
    rw [List.length_map]; exact hm.2.count
  refine ⟨m.sigs.entries.map (·.1), ?_, hlen, by rw [hlen]; exact hm.2.positive, ?_⟩
  · refine List.Pairwise.map _ (fun a b (hab : a.1 < b.1) => ne_of_lt hab) m.sigs.sorted
  · intro i hi
    obtain ⟨⟨j, s⟩, hx, rfl⟩ := List.mem_map.1 hi
    obtain ⟨k, hk, hv⟩ := hm.2.valid j s (BMap.mem_entries.1 hx)
    exact ⟨k, s, hk, hv⟩

/-- Signatures produced by a private key verify under its public key. -/
def Signer.Correct (cr : Crypto) (sg : Signer) : Prop :=
  ∀ p msg s, sg.sign p msg = some s → cr.verifyMsg (sg.pubOf p) s msg = true

/-- The state between two signing steps. -/
structure Partial (cr : Crypto) (msg : Nat) (ch : Challenge) (m : MsSpend) : Prop where
  challenge : m.challenge = ch
  usable : ch.isValid cr = .ok ()
  few : m.sigs.size < ch.minRequired
  valid : AllValid cr msg m

theorem Partial.incomplete {cr : Crypto} {msg : Nat} {ch : Challenge} {m : MsSpend}
    (h : Partial cr msg ch m) : verifySignatures cr msg m = .ok .incomplete := by
  have hc := h.challenge
  refine (verifySignatures_eq _ _ _ _).2 ⟨(checkStructure_ok_iff _ _).2 ⟨?_, ?_, ?_⟩,
    .inr (.inl ⟨rfl, h.valid, ?_⟩)⟩
  · rw [hc]; exact h.usable
  · intro i s hs
    obtain ⟨k, hk, _⟩ := h.valid i s hs
    exact (List.getElem?_eq_some_iff.1 hk).1
  · rw [hc]; exact le_of_lt h.few
  · rw [hc]; exact h.few

theorem allValid_insert {cr : Crypto} {msg : Nat} {m : MsSpend} {idx k s : Nat}
    (h : AllValid cr msg m) (hk : m.challenge.keys[idx]? = some k)
    (hv : cr.verifyMsg k s msg = true) :
    AllValid cr msg { m with sigs := m.sigs.insert idx s } := by
  intro i s' hs
  simp only [BMap.get_insert] at hs
  split at hs
  · rename_i he
    cases hs
    subst he
    exact ⟨k, hk, hv⟩
  · exact h i s' hs

/-- One signing step from a partial state. -/
theorem signMultisig_step {cr : Crypto} {sg : Signer} (hsg : sg.Correct cr) {msg : Nat}
    {ch : Challenge} {cur : MsSpend} (h : Partial cr msg ch cur) {idx priv s : Nat}
    (hnew : cur.sigs.get idx = none) (hk : ch.keys[idx]? = some (sg.pubOf priv))
    (hs : sg.sign priv msg = some s) :
    let nxt : MsSpend := { cur with sigs := cur.sigs.insert idx s }
    nxt.sigs.size = cur.sigs.size + 1 ∧ nxt.challenge = ch ∧ AllValid cr msg nxt ∧
    signMultisig cr sg idx priv ch msg cur =
      .ok (if cur.sigs.size + 1 = ch.minRequired then .complete nxt else .incomplete nxt) ∧
    (cur.sigs.size + 1 = ch.minRequired → MultisigOk cr msg nxt) ∧
    (cur.sigs.size + 1 ≠ ch.minRequired → Partial cr msg ch nxt) := by
  intro nxt
  have hsz : nxt.sigs.size = cur.sigs.size + 1 := BMap.size_insert_of_none _ _ _ hnew
  have hch : nxt.challenge = ch := h.challenge
  have hav : AllValid cr msg nxt :=
    allValid_insert h.valid (by rw [h.challenge]; exact hk) (hsg _ _ _ hs)
  have hfew := h.few
  have hus := (isValid_ok_iff _ _).1 h.usable
  have hdone : cur.sigs.size + 1 = ch.minRequired → MultisigOk cr msg nxt := by
    intro he
    exact ⟨by rw [hch]; exact hus.1, by rw [hch]; exact hus.2.1, by rw [hch]; exact hus.2.2,
      by rw [hch, hsz]; exact he, hav⟩
  have hmore : cur.sigs.size + 1 ≠ ch.minRequired → Partial cr msg ch nxt := by
    intro he
    exact ⟨hch, h.usable, by rw [hsz]; omega, hav⟩
  refine ⟨hsz, hch, hav, ?_, hdone, hmore⟩
  have hn : (cur.sigs.get idx).isSome = false := by rw [hnew]; rfl
  simp only [signMultisig, h.usable, hn, h.incomplete, hk, hs, ne_eq, not_true_eq_false, if_false,
    Bool.false_eq_true]
  by_cases he : cur.sigs.size + 1 = ch.minRequired
  · have := (multisigOk_iff cr msg nxt).2 (hdone he)
    simp only [signFinish]
    rw [show verifySignatures cr msg { cur with sigs := cur.sigs.insert idx s } = .ok .complete from this]
    simp [he, nxt]
  · have := (hmore he).incomplete
    simp only [signFinish]
    rw [show verifySignatures cr msg { cur with sigs := cur.sigs.insert idx s } = .ok .incomplete from this]
    simp [he, nxt]

/-- Sign with a list of (key index, private key) pairs, one after another, as wallets pass a
partially signed spend around. -/
def signAll (cr : Crypto) (sg : Signer) (ch : Challenge) (msg : Nat) :
    List (Nat × Nat) → MsSpend → Except (Err SignErr) Completion
  | [], cur => .ok (.incomplete cur)
  | (idx, p) :: r, cur =>
    match signMultisig cr sg idx p ch msg cur with
    | .error e => .error e
    | .ok (.complete m) => .ok (.complete m)
    | .ok (.incomplete m) => signAll cr sg ch msg r m

/-- C45. Any quorum can spend: the owners of any `m` different key positions, signing in any order,
obtain a complete multisignature, and it is accepted. -/
theorem C45_quorum_can_spend (cr : Crypto) (sg : Signer) (hsg : sg.Correct cr) (ch : Challenge)
    (hch : ch.isValid cr = .ok ()) (msg : Nat) (ps : List (Nat × Nat))
    (hnd : (ps.map (·.1)).Nodup) (hlen : ps.length = ch.minRequired)
    (hkeys : ∀ x ∈ ps, ch.keys[x.1]? = some (sg.pubOf x.2) ∧ (sg.sign x.2 msg).isSome) :
    ∃ m, signAll cr sg ch msg ps { sigs := BMap.empty, challenge := ch } = .ok (.complete m) ∧
      m.challenge = ch ∧ verifyMultisig cr (cr.hashChallenge ch) m msg = .ok () := by
  have gen : ∀ (ps : List (Nat × Nat)) (cur : MsSpend), Partial cr msg ch cur →
      (ps.map (·.1)).Nodup → ps.length + cur.sigs.size = ch.minRequired →
      (∀ x ∈ ps, cur.sigs.get x.1 = none) →
      (∀ x ∈ ps, ch.keys[x.1]? = some (sg.pubOf x.2) ∧ (sg.sign x.2 msg).isSome) →
      ∃ m, signAll cr sg ch msg ps cur = .ok (.complete m) ∧ m.challenge = ch ∧
        MultisigOk cr msg m := by
    intro ps
    induction ps with
    | nil =>
      intro cur hp _ hl _ _
      have := hp.few
      simp at hl; omega
    | cons a r ih =>
      obtain ⟨idx, p⟩ := a
      intro cur hp hnd hl hnew hk
      have hk1 := hk (idx, p) List.mem_cons_self
      obtain ⟨s, hs⟩ := Option.isSome_iff_exists.1 hk1.2
      obtain ⟨hsz, hc, hav, hsign, hdone, hmore⟩ := signMultisig_step hsg hp
        (hnew (idx, p) List.mem_cons_self) hk1.1 hs
      simp only [signAll, hsign]
      by_cases he : cur.sigs.size + 1 = ch.minRequired
      · simp only [he, if_true]
        exact ⟨_, rfl, hc, hdone he⟩
      · simp only [he, if_false]
        simp only [List.map_cons, List.nodup_cons] at hnd
        refine ih _ (hmore he) hnd.2 ?_ ?_ (fun x hx => hk x (List.mem_cons_of_mem _ hx))
        · rw [hsz]; simp at hl; omega
        · intro x hx
          have hne : x.1 ≠ idx := fun e => hnd.1 (e ▸ List.mem_map.2 ⟨x, hx, rfl⟩)
          rw [BMap.get_insert_ne _ _ hne]
          exact hnew x (List.mem_cons_of_mem _ hx)
  have hus := (isValid_ok_iff _ _).1 hch
  obtain ⟨m, h1, h2, h3⟩ := gen ps { sigs := BMap.empty, challenge := ch }
    ⟨rfl, hch, hus.1, by intro i s hs; cases hs⟩ hnd (by rw [hlen]; rfl) (by intro x _; rfl) hkeys
  exact ⟨m, h1, h2, (C45_multisig _ _ _ _).2 ⟨by rw [h2], h3⟩⟩

/-- C45. Signing never aborts when the challenge passed in is the one in the partial spend. -/
theorem C45_sign_no_panic (cr : Crypto) (sg : Signer) (hsg : sg.Correct cr) (idx priv msg : Nat)
    (cur : MsSpend) : signMultisig cr sg idx priv cur.challenge msg cur ≠ .error .panic := by
  intro hp
  simp only [signMultisig] at hp
  rcases hv : cur.challenge.isValid cr with e | _
  · rw [hv] at hp; cases hp
  rw [hv] at hp
  simp only [] at hp
  by_cases hn : (cur.sigs.get idx).isSome = true
  · rw [if_pos hn] at hp; cases hp
  rw [if_neg hn] at hp
  rcases hr : verifySignatures cr msg cur with e | r
  · rw [hr] at hp; cases hp
  rw [hr] at hp
  cases r with
  | complete => cases hp
  | invalid => cases hp
  | incomplete =>
    simp only [] at hp
    have hi := (verifySignatures_eq _ _ _ _).1 hr
    have hinc : AllValid cr msg cur ∧ cur.sigs.size < cur.challenge.minRequired := by
      rcases hi.2 with h | h | h
      · cases h.1
      · exact h.2
      · cases h.1
    rcases hk : cur.challenge.keys[idx]? with _ | k
    · rw [hk] at hp; cases hp
    rw [hk] at hp
    simp only [] at hp
    by_cases hkp : k = sg.pubOf priv
    · rw [if_neg (not_not.2 hkp)] at hp
      rcases hs : sg.sign priv msg with _ | s
      · rw [hs] at hp; cases hp
      rw [hs] at hp
      simp only [signFinish] at hp
      have hpart : Partial cr msg cur.challenge cur := ⟨rfl, hv, hinc.2, hinc.1⟩
      have hnone : cur.sigs.get idx = none := by
        cases hg : cur.sigs.get idx with
        | none => rfl
        | some x => rw [hg] at hn; exact absurd rfl hn
      obtain ⟨_, _, _, hsign, _, _⟩ := signMultisig_step hsg hpart hnone (by rw [hk, hkp]) hs
      simp only [signMultisig, hv, hnone, hr, hk, hs, hkp, Option.isSome_none, Bool.false_eq_true,
        if_false, ne_eq, not_true_eq_false, signFinish] at hsign
      rw [hp] at hsign
      cases hsign
    · rw [if_pos hkp] at hp; cases hp

/-- A toy scheme: the public key of `p` is `p`, the signature of `msg` under `p` is `p + msg`. -/
def toyCrypto : Crypto where
  decodePkh := fun r => some (r, r + 7)
  decodePk := fun r => some r
  decodeMs := fun _ => none
  decodeHtlc := fun _ => none
  hashKey := fun k => k + 1000
  hashChallenge := fun c => c.keys.sum + c.minRequired
  verifyMsg := fun k s m => decide (s = k + m)
  hash160 := fun p => p + 1
  maxKeys := 32

def toySigner : Signer where
  pubOf := fun p => p
  sign := fun p m => some (p + m)

/-- C45. With a challenge that differs from the one in the partial spend, signing can reach the
`unreachable!` and abort. -/
theorem C45_sign_mismatch_panics : ∃ (cr : Crypto) (sg : Signer) (idx priv msg : Nat)
    (ch : Challenge) (cur : MsSpend), sg.Correct cr ∧ ch ≠ cur.challenge ∧
    ch.isValid cr = .ok () ∧ cur.challenge.isValid cr = .ok () ∧
    (signMultisig cr sg idx priv ch msg cur matches .error .panic) := by
  refine ⟨toyCrypto, toySigner, 0, 5, 7, ⟨1, [5, 6]⟩, ⟨BMap.empty, ⟨1, [8, 9]⟩⟩, ?_, ?_, ?_, ?_, ?_⟩
  · intro p msg s hs
    simp only [toySigner, Option.some.injEq] at hs
    subst hs; simp [toyCrypto, toySigner]
  · decide
  · decide +kernel
  · decide +kernel
  · decide +kernel

/-- C45. Positions are counted, not keys: when a key is listed twice, its owner alone satisfies a
2-of-2 challenge. -/
theorem C45_duplicate_keys_count_twice : ∃ (cr : Crypto) (m : MsSpend) (msg k s : Nat),
    m.challenge = ⟨2, [k, k]⟩ ∧ (∀ i x, m.sigs.get i = some x → x = s) ∧
    cr.verifyMsg k s msg = true ∧
    verifyMultisig cr (cr.hashChallenge m.challenge) m msg = .ok () := by
  refine ⟨toyCrypto, ⟨(BMap.empty.insert 0 12).insert 1 12, ⟨2, [5, 5]⟩⟩, 7, 5, 12, rfl, ?_,
    by decide, by decide +kernel⟩
  intro i x hx
  simp only [BMap.get_insert] at hx
  split at hx
  · cases hx; rfl
  · split at hx
    · cases hx; rfl
    · cases hx

/-- A 2-of-3 challenge signed by the owners of positions 2 and 0, in that order: complete; with one
signature: incomplete; a single public key destination: accepted with its signature only. -/
example :
    let ch : Challenge := ⟨2, [5, 6, 7]⟩
    (∃ m, signAll toyCrypto toySigner ch 100 [(2, 7), (0, 5)] ⟨BMap.empty, ch⟩ = .ok (.complete m) ∧
      verifyMultisig toyCrypto (toyCrypto.hashChallenge ch) m 100 = .ok ()) ∧
    verifyMultisig toyCrypto 20 ⟨BMap.empty.insert 2 107, ch⟩ 100 =
      .error (.incompleteMultisig 2 1) ∧
    verifySignature toyCrypto (fun _ => some 100) (.publicKey 5) (.standard 1 105) = .ok () ∧
    verifySignature toyCrypto (fun _ => some 100) (.publicKey 5) (.standard 1 106) =
      .error .verificationFailed := by
  refine ⟨?_, by decide +kernel, by decide +kernel, by decide +kernel⟩
  have hc : toySigner.Correct toyCrypto := by
    intro p msg s hs
    simp only [toySigner, Option.some.injEq] at hs
    subst hs; simp [toyCrypto, toySigner]
  obtain ⟨m, h1, _, h3⟩ := C45_quorum_can_spend toyCrypto toySigner hc ⟨2, [5, 6, 7]⟩
    (by decide +kernel) 100 [(2, 7), (0, 5)] (by decide) (by decide)
    (by
      intro x hx
      simp only [List.mem_cons, List.not_mem_nil, or_false] at hx
      rcases hx with rfl | rfl <;> exact ⟨rfl, rfl⟩)
  exact ⟨m, h1, h3⟩

end Verif.Script
