import Verif.Intent.Model
import Verif.Script.AuthLemmas

/-!
# C87: a signed intent binds all owners of a transaction's inputs to one intent
-/

set_option maxRecDepth 100000

namespace Verif.Intent
open Verif.Codec (Bytes InputCommitment)
open Verif.Script

/-! ### Specification -/

/-- the signature speaks for the destination: it is made by the key, or a key with the hash, or the quorum the
destination names -/
def Vouches (cr : Crypto) (ch : Nat) (d : Dest) (raw : Nat) : Prop :=
  match d with
  | .publicKeyHash h => ∃ k s, cr.decodePkh raw = some (k, s) ∧ cr.hashKey k = h ∧ cr.verifyMsg k s ch = true
  | .publicKey k' => ∃ k s, cr.decodePkh raw = some (k, s) ∧ cr.hashKey k = cr.hashKey k' ∧ cr.verifyMsg k s ch = true
  | .classicMultisig h => ∃ m, cr.decodeMs raw = some m ∧ cr.hashChallenge m.challenge = h ∧ MultisigOk cr ch m
  | .anyoneCanSpend | .scriptHash _ => False

/-- destinations of one key -/
def Uniparty : Dest → Prop
  | .publicKeyHash _ | .publicKey _ => True
  | _ => False

/-- the private key belongs to the destination -/
def Owns (cr : Crypto) (sg : Signer) (priv : Nat) : Dest → Prop
  | .publicKeyHash h => cr.hashKey (sg.pubOf priv) = h
  | .publicKey k => sg.pubOf priv = k
  | _ => False

/-- a sighash type a witness can have (sighashtype.rs 64-76) -/
def SighashType (mode : UInt8) : Prop := mode &&& 0x7f = 1 ∨ mode &&& 0x7f = 2 ∨ mode &&& 0x7f = 3

/-! ### Lemmas -/

theorem hexDigit_inj : ∀ a < 16, ∀ b < 16, hexDigit a = hexDigit b → a = b := by decide +kernel

theorem hex_length (bs : Bytes) : (hex bs).length = 2 * bs.length := by
  induction bs with
  | nil => rfl
  | cons b bs ih => simp only [hex, List.length_cons, ih]; omega

theorem hex_inj : ∀ (a b : Bytes), hex a = hex b → a = b
  | [], [], _ => rfl
  | [], _ :: _, h => by cases h
  | _ :: _, [], h => by cases h
  | x :: a, y :: b, h => by
    simp only [hex, List.cons.injEq] at h
    obtain ⟨h1, h2, h3⟩ := h
    have hx := x.toNat_lt
    have hy := y.toNat_lt
    have e1 := hexDigit_inj (x.toNat / 16) (by omega) (y.toNat / 16) (by omega) h1
    have e2 := hexDigit_inj (x.toNat % 16) (by omega) (y.toNat % 16) (by omega) h2
    rw [hex_inj a b h3, UInt8.toNat_inj.1 (show x.toNat = y.toNat by omega)]

theorem verifyStandard_iff (cr : Crypto) (d : Dest) (raw ch : Nat) :
    verifyMessageSignature cr (normalize cr d) raw ch = .ok () ↔ Vouches cr ch d raw := by
  have key := verifySignature_ok_iff cr (fun _ => some ch) (normalize cr d) (.standard 0 raw)
  unfold verifyMessageSignature
  cases d with
  | anyoneCanSpend => simp [normalize, verifyStandard, Vouches]
  | scriptHash h => simp [normalize, verifyStandard, Vouches]
  | publicKeyHash h =>
    simp only [normalize, verifySignature, SigValid] at key ⊢
    rw [key]
    constructor
    · rintro ⟨mode, raw', msg, k, s, hw, hm, h1, h2, h3⟩
      cases hw; cases hm
      exact ⟨k, s, h1, h2, h3⟩
    · rintro ⟨k, s, h1, h2, h3⟩
      exact ⟨0, raw, ch, k, s, rfl, rfl, h1, h2, h3⟩
  | publicKey k' =>
    simp only [normalize, verifySignature, SigValid] at key ⊢
    rw [key]
    constructor
    · rintro ⟨mode, raw', msg, k, s, hw, hm, h1, h2, h3⟩
      cases hw; cases hm
      exact ⟨k, s, h1, h2, h3⟩
    · rintro ⟨k, s, h1, h2, h3⟩
      exact ⟨0, raw, ch, k, s, rfl, rfl, h1, h2, h3⟩
  | classicMultisig h =>
    simp only [normalize, verifySignature, SigValid] at key ⊢
    rw [key]
    constructor
    · rintro ⟨mode, raw', msg, m, hw, hm, h1, h2, h3⟩
      cases hw; cases hm
      exact ⟨m, h1, h2, h3⟩
    · rintro ⟨m, h1, h2, h3⟩
      exact ⟨0, raw, ch, m, rfl, rfl, h1, h2, h3⟩

theorem verifyLoop_iff (cr : Crypto) (ch : Nat) (i : Nat) (l : List (Nat × Dest)) :
    verifyLoop cr ch i l = .ok () ↔ ∀ x ∈ l, Vouches cr ch x.2 x.1 := by
  induction l generalizing i with
  | nil => simp [verifyLoop]
  | cons x l ih =>
    obtain ⟨raw, d⟩ := x
    simp only [verifyLoop, List.mem_cons, forall_eq_or_imp, ← verifyStandard_iff]
    cases h : verifyMessageSignature cr (normalize cr d) raw ch with
    | ok u => simp [ih, verifyStandard_iff]
    | error e => simp

/-! ### Properties -/

/-- **C87 (message).**  The message to sign determines the intent and the transaction. -/
theorem C87_message (i i' t t' : Bytes) (ht : t.length = 32) (ht' : t'.length = 32)
    (h : messageToSign i t = messageToSign i' t') : i = i' ∧ t = t' := by
  unfold messageToSign at h
  simp only [List.append_assoc] at h
  have h1 := List.append_cancel_left h
  obtain ⟨h2, h3⟩ := List.append_inj h1 (by rw [hex_length, hex_length, ht, ht'])
  have h4 := List.append_cancel_left h3
  exact ⟨List.append_cancel_right h4, hex_inj t t' h2⟩

/-- **C87 (verification).**  A signed intent is accepted exactly if it is for the expected message and has, for each of the
destinations in order, a signature of the message that speaks for it. -/
theorem C87_verify (cr : Crypto) (hash : Bytes → Nat) (s : Signed) (dests : List Dest) (expected : Bytes) :
    s.verify cr hash dests expected = .ok () ↔
      s.message = expected ∧ s.sigs.length = dests.length ∧
      ∀ (n : Nat) (raw : Nat) (d : Dest), s.sigs[n]? = some raw → dests[n]? = some d →
        Vouches cr (challenge hash expected) d raw := by
  unfold Signed.verify
  rw [bind_eq_ok]
  constructor
  · rintro ⟨_, h1, h2⟩
    rw [ensure_eq_ok] at h1
    rw [bind_eq_ok] at h2
    obtain ⟨_, h2, h3⟩ := h2
    rw [ensure_eq_ok] at h2
    rw [verifyLoop_iff] at h3
    refine ⟨h1, h2, fun n raw d hr hd => ?_⟩
    rw [← h1]
    exact h3 (raw, d) (List.mem_iff_getElem?.2 ⟨n, by rw [List.getElem?_zip_eq_some]; exact ⟨hr, hd⟩⟩)
  · rintro ⟨h1, h2, h3⟩
    refine ⟨(), ensure_eq_ok.2 h1, ?_⟩
    rw [bind_eq_ok]
    refine ⟨(), ensure_eq_ok.2 h2, ?_⟩
    rw [verifyLoop_iff, h1]
    rintro ⟨raw, d⟩ hx
    obtain ⟨n, hn⟩ := List.mem_iff_getElem?.1 hx
    rw [List.getElem?_zip_eq_some] at hn
    exact h3 n raw d hn.1 hn.2

/-- **C87 (one intent).**  A signed intent is accepted for at most one intent and one transaction. -/
theorem C87_one_intent (cr : Crypto) (hash : Bytes → Nat) (s : Signed) (dests dests' : List Dest) (i i' t t' : Bytes)
    (ht : t.length = 32) (ht' : t'.length = 32) (h : s.verify cr hash dests (messageToSign i t) = .ok ())
    (h' : s.verify cr hash dests' (messageToSign i' t') = .ok ()) : i = i' ∧ t = t' :=
  C87_message i i' t t' ht ht' (((C87_verify ..).1 h).1.symm.trans ((C87_verify ..).1 h').1)

/-- **C87 (separate challenges).**  If the hash has no collisions, messages with different intents or transactions have
different challenges: a signature is over one intent for one transaction. -/
theorem C87_challenge (hash : Bytes → Nat) (hh : Function.Injective hash) (i i' t t' : Bytes)
    (ht : t.length = 32) (ht' : t'.length = 32)
    (h : challenge hash (messageToSign i t) = challenge hash (messageToSign i' t')) : i = i' ∧ t = t' := by
  apply C87_message i i' t t' ht ht'
  have := hh h
  unfold wrapped at this
  rw [List.append_assoc, List.append_assoc] at this
  exact List.append_cancel_right (List.append_cancel_left this)

/-- **C87 (all owners).**  For a destination that nobody or a script owns no intent is accepted. -/
theorem C87_unsigned_inputs (cr : Crypto) (hash : Bytes → Nat) (s : Signed) (dests : List Dest) (expected : Bytes)
    (h : s.verify cr hash dests expected = .ok ()) : ∀ d ∈ dests, d ≠ .anyoneCanSpend ∧ ∀ x, d ≠ .scriptHash x := by
  obtain ⟨-, hl, hv⟩ := (C87_verify ..).1 h
  intro d hd
  obtain ⟨n, hn⟩ := List.mem_iff_getElem?.1 hd
  have hlt : n < dests.length := (List.getElem?_eq_some_iff.1 hn).1
  have hr : s.sigs[n]? = some (s.sigs[n]'(by omega)) := List.getElem?_eq_getElem (by omega)
  have := hv n _ d hr hn
  refine ⟨?_, ?_⟩
  · rintro rfl; exact this
  · rintro x rfl; exact this

/-- **C87 (components).**  A signed intent is put together from a text and signatures exactly if, for each destination in
order, there is a signature of the text that speaks for it. -/
theorem C87_components (cr : Crypto) (hash : Bytes → Nat) (m : Bytes) (sigs : List Nat) (dests : List Dest) (s : Signed) :
    fromComponents cr hash m sigs dests = .ok s ↔
      s = ⟨m, sigs⟩ ∧ sigs.length = dests.length ∧
      ∀ (n : Nat) (raw : Nat) (d : Dest), sigs[n]? = some raw → dests[n]? = some d →
        Vouches cr (challenge hash m) d raw := by
  simp only [fromComponents, bind_eq_ok, pure_eq_ok]
  constructor
  · rintro ⟨⟨⟩, h, h3⟩
    obtain ⟨-, h1, h2⟩ := (C87_verify ..).1 h
    exact ⟨h3.symm, h1, h2⟩
  · rintro ⟨h1, h2, h3⟩
    exact ⟨(), (C87_verify ..).2 ⟨rfl, h2, h3⟩, h1.symm⟩

theorem signAllFor_ok (sg : Signer) (encPkh : Nat × Nat → Nat) (hash : Bytes → Nat) (keyFor : Dest → Option Nat)
    (m : Bytes) (ds : List Dest) (sigs : List Nat) (h : signAllFor sg encPkh hash keyFor m ds = .ok sigs) :
    sigs.length = ds.length ∧ ∀ (n raw : Nat) (d : Dest), sigs[n]? = some raw → ds[n]? = some d →
      signFor sg encPkh hash keyFor m d = .ok raw := by
  induction ds generalizing sigs with
  | nil => cases h; exact ⟨rfl, fun n raw d hr _ => by simp at hr⟩
  | cons d ds ih =>
    simp only [signAllFor, bind_eq_ok] at h
    obtain ⟨s, h1, r, h2, h3⟩ := h
    cases h3
    obtain ⟨i1, i2⟩ := ih r h2
    refine ⟨by simp [i1], fun n raw d' hr hd => ?_⟩
    cases n with
    | zero => simp at hr hd; rw [← hr, ← hd]; exact h1
    | succ n => simp at hr hd; exact i2 n raw d' hr hd

/-- **C87 (round trip).**  An intent that a wallet signs with keys that belong to the destinations is accepted for this
intent and transaction. -/
theorem C87_roundtrip (cr : Crypto) (sg : Signer) (encPkh : Nat × Nat → Nat) (hash : Bytes → Nat)
    (keyFor : Dest → Option Nat) (txId intent : Bytes) (inputs : Nat) (dests : List Dest) (s : Signed)
    (henc : ∀ x, cr.decodePkh (encPkh x) = some x)
    (hsign : ∀ p m x, sg.sign p m = some x → cr.verifyMsg (sg.pubOf p) x m = true)
    (hkeys : ∀ d p, keyFor d = some p → Owns cr sg p d)
    (h : produce sg encPkh hash keyFor txId inputs dests intent = .ok s) :
    inputs = dests.length ∧ s.verify cr hash dests (messageToSign intent txId) = .ok () ∧
      fromComponents cr hash s.message s.sigs dests = .ok s := by
  simp only [produce, bind_eq_ok, ensure_eq_ok] at h
  obtain ⟨_, hin, h⟩ := h
  simp only [produceFromId, bind_eq_ok] at h
  obtain ⟨sigs, hs, h⟩ := h
  cases h
  obtain ⟨hl, hall⟩ := signAllFor_ok _ _ _ _ _ _ _ hs
  have hv : (Signed.mk (messageToSign intent txId) sigs).verify cr hash dests (messageToSign intent txId) = .ok () := by
    rw [C87_verify]
    refine ⟨rfl, hl, fun n raw d hr hd => ?_⟩
    have h1 := hall n raw d hr hd
    unfold signFor at h1
    cases d with
    | anyoneCanSpend => cases h1
    | scriptHash _ => cases h1
    | classicMultisig _ => cases h1
    | publicKeyHash x =>
      simp only at h1
      cases hk : keyFor (.publicKeyHash x) with
      | none => rw [hk] at h1; cases h1
      | some p =>
        rw [hk] at h1
        simp only [signMessage] at h1
        cases hg : sg.sign p (challenge hash (messageToSign intent txId)) with
        | none => rw [hg] at h1; cases h1
        | some x' =>
          rw [hg] at h1
          cases h1
          exact ⟨sg.pubOf p, x', henc _, hkeys _ _ hk, hsign _ _ _ hg⟩
    | publicKey x =>
      simp only at h1
      cases hk : keyFor (.publicKey x) with
      | none => rw [hk] at h1; cases h1
      | some p =>
        rw [hk] at h1
        simp only [signMessage] at h1
        cases hg : sg.sign p (challenge hash (messageToSign intent txId)) with
        | none => rw [hg] at h1; cases h1
        | some x' =>
          rw [hg] at h1
          cases h1
          refine ⟨sg.pubOf p, x', henc _, ?_, hsign _ _ _ hg⟩
          rw [show sg.pubOf p = x from hkeys _ _ hk]
  refine ⟨hin, hv, ?_⟩
  simp only [fromComponents, hv]
  rfl

/-- **C87 (what can be signed).**  Signing succeeds exactly for as many destinations as the transaction has inputs, all of
them of one key, which is at hand and signs. -/
theorem C87_can_sign (sg : Signer) (encPkh : Nat × Nat → Nat) (hash : Bytes → Nat) (keyFor : Dest → Option Nat)
    (txId intent : Bytes) (inputs : Nat) (dests : List Dest) :
    (produce sg encPkh hash keyFor txId inputs dests intent).isOk = true ↔
      inputs = dests.length ∧ ∀ d ∈ dests, Uniparty d ∧ ∃ p x, keyFor d = some p ∧
        sg.sign p (challenge hash (messageToSign intent txId)) = some x := by
  have one : ∀ d, (∃ r, signFor sg encPkh hash keyFor (messageToSign intent txId) d = .ok r) ↔
      (Uniparty d ∧ ∃ p x, keyFor d = some p ∧ sg.sign p (challenge hash (messageToSign intent txId)) = some x) := by
    have uni : ∀ d, (∃ r, (match keyFor d with
        | some priv => signMessage sg encPkh hash priv (messageToSign intent txId)
        | none => .error .noKey) = Except.ok r) ↔
        ∃ p x, keyFor d = some p ∧ sg.sign p (challenge hash (messageToSign intent txId)) = some x := by
      intro d
      cases hk : keyFor d with
      | none => simp
      | some p =>
        simp only [signMessage]
        cases hg : sg.sign p (challenge hash (messageToSign intent txId)) with
        | none => simp [hg]
        | some x => simp [hg]
    intro d
    cases d with
    | publicKeyHash h =>
      simp only [signFor, Uniparty, true_and, ← uni]
      cases keyFor (.publicKeyHash h) <;> rfl
    | publicKey k =>
      simp only [signFor, Uniparty, true_and, ← uni]
      cases keyFor (.publicKey k) <;> rfl
    | _ => simp [signFor, Uniparty]
  have all : ∀ ds, (∃ r, signAllFor sg encPkh hash keyFor (messageToSign intent txId) ds = .ok r) ↔
      ∀ d ∈ ds, ∃ r, signFor sg encPkh hash keyFor (messageToSign intent txId) d = .ok r := by
    intro ds
    induction ds with
    | nil => simp [signAllFor]
    | cons d ds ih =>
      simp only [List.mem_cons, forall_eq_or_imp, ← ih, signAllFor, bind_eq_ok, pure_eq_ok]
      constructor
      · rintro ⟨_, s, h1, r, h2, -⟩
        exact ⟨⟨s, h1⟩, r, h2⟩
      · rintro ⟨⟨s, h1⟩, r, h2⟩
        exact ⟨_, s, h1, r, h2, rfl⟩
  have e : (produce sg encPkh hash keyFor txId inputs dests intent).isOk = true ↔
      ∃ s, produce sg encPkh hash keyFor txId inputs dests intent = .ok s := by
    cases produce sg encPkh hash keyFor txId inputs dests intent with
    | ok s => exact Iff.intro (fun _ => Exists.intro s rfl) (fun _ => rfl)
    | error x => exact Iff.intro (fun h => by cases h) (fun h => by obtain ⟨s, h⟩ := h; cases h)
  rw [e]
  simp only [produce, produceFromId, bind_eq_ok, ensure_eq_ok, pure_eq_ok]
  constructor
  · rintro ⟨_, _, h1, r, h2, -⟩
    refine ⟨h1, fun d hd => (one d).1 ((all dests).1 ⟨r, h2⟩ d hd)⟩
  · rintro ⟨h1, h2⟩
    obtain ⟨r, hr⟩ := (all dests).2 fun d hd => (one d).2 (h2 d hd)
    exact ⟨_, (), h1, r, hr, rfl⟩

/-- **C87 (not a transaction).**  What is hashed for a signed message is never what is hashed to spend an input of a
transaction or block reward: a signature of a message cannot spend anything. -/
theorem C87_not_a_spend (m : Bytes) (k : Verif.Codec.Crypto) (t : Sighash.Signable) (cs : List InputCommitment) (mode : UInt8)
    (i : Nat) (b : Bytes) (hm : SighashType mode) (h : Sighash.stream k t cs mode i = .ok b) : b ≠ wrapped m := by
  simp only [Sighash.stream, bind_eq_ok, pure_eq_ok] at h
  obtain ⟨_, _, _, _, _, _, _, _, _, _, rfl⟩ := h
  intro he
  unfold wrapped magicPrefix at he
  simp only [List.cons_append, List.cons.injEq] at he
  obtain ⟨rfl, -⟩ := he
  unfold SighashType at hm
  revert hm
  decide

/-- **C87 (signed messages).**  A signature that an owner gives for a text in the form of an intent is a signature for the
intent: signed messages and intents are not told apart. -/
theorem C87_message_is_intent (cr : Crypto) (hash : Bytes → Nat) (d : Dest) (raw : Nat) (intent txId : Bytes)
    (h : verifyMessageSignature cr (normalize cr d) raw (challenge hash (messageToSign intent txId)) = .ok ()) :
    (Signed.mk (messageToSign intent txId) [raw]).verify cr hash [d] (messageToSign intent txId) = .ok () := by
  rw [C87_verify]
  refine ⟨rfl, rfl, fun n raw' d' hr hd => ?_⟩
  cases n with
  | zero =>
    simp at hr hd
    rw [← hr, ← hd]
    exact (verifyStandard_iff ..).1 h
  | succ n => simp at hr

/-! ### Concrete cases -/

/-- keys are their own hashes; a signature is key plus message -/
def toy : Crypto where
  decodePkh raw := some (raw / 1000, raw % 1000)
  decodePk raw := some raw
  decodeMs _ := none
  decodeHtlc _ := none
  hashKey k := k
  hashChallenge _ := 0
  verifyMsg k s m := decide (s = (k + m) % 1000)
  hash160 x := x
  maxKeys := 3

def toySigner : Signer := ⟨fun p => p, fun p m => some ((p + m) % 1000)⟩

def toyHash (b : Bytes) : Nat := b.foldl (fun a x => a + x.toNat) 0

def toyEnc (x : Nat × Nat) : Nat := x.1 * 1000 + x.2

def toyKeys : Dest → Option Nat
  | .publicKeyHash h => some h
  | .publicKey k => some k
  | _ => none

def exTx : Bytes := List.replicate 32 0xab

/-- two owners sign for an intent; it is accepted for this intent and these owners only -/
example : (match produce toySigner toyEnc toyHash toyKeys exTx 2 [.publicKeyHash 5, .publicKey 6] [120, 121] with
    | .error _ => false
    | .ok s => (s.verify toy toyHash [.publicKeyHash 5, .publicKey 6] (messageToSign [120, 121] exTx)).isOk &&
        !(s.verify toy toyHash [.publicKeyHash 5, .publicKey 6] (messageToSign [120, 122] exTx)).isOk &&
        !(s.verify toy toyHash [.publicKeyHash 5] (messageToSign [120, 121] exTx)).isOk &&
        !(s.verify toy toyHash [.publicKey 6, .publicKeyHash 5] (messageToSign [120, 121] exTx)).isOk) = true := by
  decide +kernel

/-- destinations that are not of one key are refused -/
example : produce toySigner toyEnc toyHash toyKeys exTx 2 [.publicKeyHash 5, .classicMultisig 6] [120] =
    .error (.unsupported (.classicMultisig 6)) ∧
    produce toySigner toyEnc toyHash toyKeys exTx 3 [.publicKeyHash 5] [120] = .error .destinationsCount := ⟨rfl, rfl⟩

/-- with the key of another owner an intent is signed, but not accepted -/
example : (match produce toySigner toyEnc toyHash (fun _ => some 7) exTx 1 [.publicKeyHash 5] [120] with
    | .error _ => false
    | .ok s => !(s.verify toy toyHash [.publicKeyHash 5] (messageToSign [120] exTx)).isOk) = true := by decide +kernel

/-- the text for an id that ends in `0f` -/
example : messageToSign [104, 105] [0xa0, 0x0f] =
    [60, 116, 120, 95, 105, 100, 58, 97, 48, 48, 102, 59, 105, 110, 116, 101, 110, 116, 58, 104, 105, 62] := by
  decide +kernel

end Verif.Intent
