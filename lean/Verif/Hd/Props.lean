import Verif.Hd.Lemmas
import Mathlib.Algebra.Group.Fin.Basic

/-!
# C88: derivation paths and derived keys
-/

set_option maxRecDepth 100000

namespace Verif.Hd
open Verif Verif.Decimal
open Verif.Codec (Bytes Codec leBytes leNat takeN encMany decMany Lawful leBytes_length leNat_leBytes)

variable {C : Curve}

/-! ### Texts and bytes -/

/-- **C88 (reading).**  Exactly the texts of paths are read, as the path they are the text of. -/
theorem C88_text (s : List Char) (p : List Nat) : parsePath s = .ok p ↔ PathText s p := by
  unfold parsePath PathText
  constructor
  · intro h
    cases hs : split s with
    | nil => exact absurd hs (split_ne s)
    | cons a parts =>
      rw [hs] at h
      simp only at h
      split at h
      · cases h
      · rename_i ha
        push Not at ha
        subst ha
        simp only [bind_eq_ok, collect_ok, toPath_ok] at h
        obtain ⟨q, h1, rfl, h3⟩ := h
        exact ⟨h3, parts, by rw [split_join s hs]; rfl, h1⟩
  · rintro ⟨hl, parts, rfl, hf⟩
    have hs := split_parts (a := ['m']) (by decide) parts (forall₂_no_slash hf)
    rw [List.singleton_append] at hs
    rw [hs]
    simp only [ne_eq, not_true_eq_false, if_false, bind_eq_ok, collect_ok, toPath_ok]
    exact ⟨p, hf, rfl, hl⟩

/-- **C88 (printing).**  What is printed for a path, with either mark, is read as this path. -/
theorem C88_print (alt : Bool) (p : List Nat) (h : ValidPath p) : parsePath (showPath alt p) = .ok p := by
  rw [C88_text]
  refine ⟨h.1, p.map (showChild alt), ?_, ?_⟩
  · simp [showPath, List.flatMap, List.map_map, Function.comp_def]
  · have : ∀ c ∈ p, c < 4294967296 := h.2
    clear h
    induction p with
    | nil => exact .nil
    | cons c p ih =>
      exact .cons (childText_show alt c (this c (by simp))) (ih fun x hx => this x (by simp [hx]))

/-- **C88 (what is read).**  Only valid paths are read. -/
theorem C88_valid (s : List Char) (p : List Nat) (h : parsePath s = .ok p) : ValidPath p := by
  obtain ⟨hl, parts, -, hf⟩ := (C88_text s p).1 h
  refine ⟨hl, ?_⟩
  clear hl h
  induction hf with
  | nil => simp
  | cons h1 _ ih =>
    intro c hc
    rcases List.mem_cons.1 hc with rfl | hc
    · exact childText_lt h1
    · exact ih c hc

/-- **C88 (bytes).**  The binary form of paths is exact. -/
theorem C88_bytes : Lawful pathCodec where
  round p r h := by
    simp only [pathCodec, List.cons_append] at h ⊢
    have e : (UInt8.ofNat (p.length % 256)).toNat = p.length := by
      rw [UInt8.toNat_ofNat']; omega
    rw [e]
    exact Verif.Codec.decMany_encMany lawful_be4 p r h.2
  canon bs p r h := by
    simp only [pathCodec] at h ⊢
    cases bs with
    | nil => cases h
    | cons n bs =>
      obtain ⟨h1, h2, rfl⟩ := Verif.Codec.decMany_canon lawful_be4 _ _ _ _ h
      have := n.toNat_lt
      refine ⟨⟨by omega, h2⟩, ?_⟩
      rw [h1, Nat.mod_eq_of_lt (by omega), UInt8.ofNat_toNat, List.cons_append]

/-- **C88 (next child).**  The next child number is the following one of the same kind; the last one of each kind has none. -/
theorem C88_increment (c c' : Nat) (h : c < 4294967296) :
    increment c = .ok c' ↔ c' = c + 1 ∧ (isHardened c' = isHardened c) ∧ c' < 4294967296 := by
  have hm : msb = 2147483648 := rfl
  simp only [increment, bind_eq_ok, pure_eq_ok, toU31_ok, splitMsb, encodeMsb, isHardened, hm, decide_eq_true_eq,
    decide_eq_decide]
  constructor
  · rintro ⟨i, ⟨h1, rfl⟩, h3⟩
    split at h3 <;> omega
  · rintro ⟨rfl, h1, h2⟩
    refine ⟨c % 2147483648 + 1, ⟨by omega, rfl⟩, ?_⟩
    split <;> omega

/-! ### Derivation -/

/-- **C88 (where one can derive to).**  Deriving a key succeeds only for paths below the key's own, and gives a key with this
path, which has at most 255 steps; for other paths, the key's own among them, it is refused as such. -/
theorem C88_path (k : Priv) (p : List Nat) :
    (∀ k', k.derive C p = .ok k' → Below k.path p ∧ k'.path = p ∧ p.length ≤ 255 ∧ 0 < k'.key ∧ k'.key = k'.key % C.n) ∧
    (k.derive C p = .error (.cannotDerivePath p) ↔ ¬ Below k.path p) := by
  constructor
  · intro k' h
    unfold Priv.derive deriveAbs at h
    cases hd : superPathDiff p k.path with
    | none => rw [hd] at h; cases h
    | some d =>
      rw [hd] at h
      obtain ⟨h1, h2⟩ := superPathDiff_some.1 hd
      obtain ⟨s1, s2⟩ := steps_path h
      obtain ⟨s2, s3, s4⟩ := s2 h1
      rw [← h2] at s1
      exact ⟨⟨d, h1, h2⟩, s1, by rw [← s1]; exact s2, s3, s4⟩
  · unfold Priv.derive deriveAbs
    cases hd : superPathDiff p k.path with
    | none =>
      simp only [true_iff]
      rintro ⟨d, h1, h2⟩
      rw [superPathDiff_some.2 ⟨h1, h2⟩] at hd
      cases hd
    | some d =>
      have hb : Below k.path p := ⟨d, superPathDiff_some.1 hd⟩
      simp only [hb, not_true_eq_false, iff_false]
      intro h
      clear hd hb
      have noPath : ∀ (d : List Nat) (k : Priv), deriveSteps (Priv.deriveChild C) k d ≠ .error (.cannotDerivePath p) := by
        intro d
        induction d with
        | nil => intro k h; cases h
        | cons c d ih =>
          intro k h
          simp only [deriveSteps] at h
          cases hc : k.deriveChild C c with
          | ok k' => rw [hc] at h; exact ih k' h
          | error e =>
            rw [hc] at h
            have he : e = .cannotDerivePath p := by cases h; rfl
            subst he
            rcases priv_child_err hc with h | h <;> cases h
      exact noPath d k h

/-- **C88 (stepwise).**  A key can be derived in one go or by way of any key in between. -/
theorem C88_stepwise (k : Priv) (p q : List Nat) (hp : Below k.path p) (hq : Below p q) :
    k.derive C q = (k.derive C p).bind fun k' => k'.derive C q := by
  obtain ⟨d, hd, rfl⟩ := hp
  obtain ⟨e, he, rfl⟩ := hq
  unfold Priv.derive deriveAbs
  rw [superPathDiff_some.2 ⟨by simp [hd], List.append_assoc ..⟩, superPathDiff_some.2 ⟨hd, rfl⟩]
  simp only [deriveSteps_append]
  cases h : deriveSteps (Priv.deriveChild C) k d with
  | error x => rfl
  | ok k' =>
    show deriveSteps _ k' e = (match superPathDiff (k.path ++ d ++ e) k'.path with
      | none => _
      | some d => _)
    rw [(steps_path h).1, superPathDiff_some.2 ⟨he, rfl⟩]

/-- **C88 (public keys).**  The public key of a derived key is what is derived from the public key, as long as no step is
hardened; either both derivations fail, for the same reason, or none. -/
theorem C88_public (hC : Sound C) (k : Priv) (d : List Nat) (hd : ∀ c ∈ d, c < 2147483648) :
    (k.derive C (k.path ++ d)).map (Priv.toPublic C) = (k.toPublic C).derive (k.path ++ d) := by
  unfold Priv.derive Pub.derive deriveAbs
  show Except.map _ _ = (match superPathDiff (k.path ++ d) k.path with
    | none => _
    | some d => _)
  cases h : superPathDiff (k.path ++ d) k.path with
  | none => rfl
  | some d' =>
    obtain ⟨-, h2⟩ := superPathDiff_some.1 h
    have := List.append_cancel_left h2
    subst this
    refine steps_public hC k d fun c hc => ?_
    have := hd c hc
    have hm : msb = 2147483648 := rfl
    simp [isHardened, splitMsb, hm]
    omega

/-- **C88 (hardened steps).**  From a public key nothing beyond a hardened step is derived; what is derived has the path asked
for. -/
theorem C88_public_only_normal (k k' : Pub C) (p : List Nat) (h : k.derive p = .ok k') :
    ∃ d, d ≠ [] ∧ p = k.path ++ d ∧ k'.path = p ∧ p.length ≤ 255 ∧ ∀ c ∈ d, c < 2147483648 := by
  unfold Pub.derive deriveAbs at h
  cases hd : superPathDiff p k.path with
  | none => rw [hd] at h; cases h
  | some d =>
    rw [hd] at h
    obtain ⟨h1, h2⟩ := superPathDiff_some.1 hd
    obtain ⟨s1, s2, s3⟩ := pub_steps_path h
    rw [← h2] at s1
    refine ⟨d, h1, h2, s1, by rw [← s1]; exact s3 h1, fun c hc => ?_⟩
    have := s2 c hc
    have hm : msb = 2147483648 := rfl
    simp [isHardened, splitMsb, hm] at this
    exact this

/-- **C88 (separation).**  What is authenticated to derive a child determines the child number and, if hardened, the parent's
private key, otherwise its public key. -/
theorem C88_inputs (hC : Sound C) (k k' c c' : Nat) (hk : k < C.n) (hk' : k' < C.n) (hc : c < 4294967296)
    (hc' : c' < 4294967296) (h : privInput C k c = privInput C k' c') :
    c = c' ∧ pointOf C k = pointOf C k' ∧ (2147483648 ≤ c → k = k') := by
  have hlen : ∀ x, (be4.enc x).length = 4 := fun x => by simp [be4, leBytes_length]
  unfold privInput at h
  obtain ⟨h1, h2⟩ := List.append_inj' h (by rw [hlen, hlen])
  have hcc : c = c' := by
    have r1 := lawful_be4.round c [] (by show c < 256 ^ 4; omega)
    have r2 := lawful_be4.round c' [] (by show c' < 256 ^ 4; omega)
    rw [h2, r2] at r1
    simp only [Option.some.injEq, Prod.mk.injEq] at r1
    exact r1.1.symm
  subst hcc
  refine ⟨rfl, ?_⟩
  have hm : msb = 2147483648 := rfl
  by_cases hh : 2147483648 ≤ c
  · have hb : isHardened c = true := by simp [isHardened, splitMsb, hm, hh]
    rw [hb] at h1
    simp only [if_true, List.cons.injEq, true_and, List.reverse_inj] at h1
    have e := congrArg leNat h1
    rw [leNat_leBytes, leNat_leBytes] at e
    have hb' := hC.bound
    have p256 : (256 : Nat) ^ 32 = 2 ^ 256 := by norm_num
    rw [p256, Nat.mod_eq_of_lt (by omega), Nat.mod_eq_of_lt (by omega)] at e
    exact ⟨by rw [e], fun _ => e⟩
  · have hb : isHardened c = false := by simp [isHardened, splitMsb, hm]; omega
    rw [hb] at h1
    simp only [Bool.false_eq_true, if_false] at h1
    exact ⟨hC.ser_inj h1, fun x => absurd x hh⟩

/-- **C88 (kinds).**  What is authenticated for a hardened child is never what is authenticated for a normal one, whatever the
parents. -/
theorem C88_kinds (hC : Sound C) (k k' c c' : Nat) (hc : isHardened c = true) (hc' : isHardened c' = false) :
    privInput C k c ≠ privInput C k' c' := by
  unfold privInput
  rw [hc, hc']
  obtain ⟨b, t, hs, hb, -⟩ := hC.ser_shape (pointOf C k')
  simp only [if_true, Bool.false_eq_true, if_false, hs, List.cons_append]
  intro h
  simp only [List.cons.injEq] at h
  obtain ⟨rfl, -⟩ := h
  rcases hb with hb | hb <;> exact absurd hb (by decide)

/-! ### The wallet -/

/-- **C88 (addresses).**  For every address a wallet derives from the public key of an account, the private key is found with
the private key of the account, and it is the one of this public key. -/
theorem C88_address_key (hC : Sound C) (account : Priv) (change : Bool) (index : Nat) (hi : index < 2147483648) (a : Pub C)
    (h : addressKey (account.toPublic C) change index = .ok a) :
    ∃ k, getPrivateKey account a = .ok k ∧ k.toPublic C = a ∧
      a.path = account.path ++ [if change then 1 else 0, index] := by
  have hpi : purposeIndex change = if change then 1 else 0 := by cases change <;> rfl
  have hsteps : deriveSteps Pub.deriveChild (account.toPublic C) [if change then 1 else 0, index] = .ok a := by
    unfold addressKey at h
    rw [hpi] at h
    simp only [bind_eq_ok] at h
    obtain ⟨x, h1, h2⟩ := h
    show Except.bind _ _ = _
    rw [h1]
    show Except.bind (Pub.deriveChild x index) _ = _
    rw [show normal index = index from rfl] at h2
    rw [h2]
    rfl
  have hpath := (pub_steps_path hsteps).1
  have hd : ∀ c ∈ [if change then 1 else 0, index], c < 2147483648 := by
    intro c hc
    simp only [List.mem_cons, List.not_mem_nil, or_false] at hc
    rcases hc with rfl | rfl
    · cases change <;> decide
    · exact hi
  have hder : (account.toPublic C).derive (account.path ++ [if change then 1 else 0, index]) = .ok a := by
    unfold Pub.derive deriveAbs
    rw [show (account.toPublic C).path = account.path from rfl, superPathDiff_some.2 ⟨by simp, rfl⟩]
    exact hsteps
  rw [← C88_public hC account _ hd] at hder
  cases hk : account.derive C (account.path ++ [if change then 1 else 0, index]) with
  | error e => rw [hk] at hder; cases hder
  | ok k =>
    rw [hk] at hder
    have hka : k.toPublic C = a := by cases hder; rfl
    refine ⟨k, ?_, hka, hpath⟩
    unfold getPrivateKey
    rw [hpath]
    show (match account.derive C (account.path ++ [if change then 1 else 0, index]) with
      | .error e => _
      | .ok k => _) = _
    rw [hk]
    simp only [hka, hpath]
    exact if_pos ⟨trivial, trivial, trivial⟩

/-- **C88 (no other key).**  A private key that is found for a public key is the private key of this public key, derived
along its path. -/
theorem C88_found_key (parent k : Priv) (a : Pub C) (h : getPrivateKey parent a = .ok k) :
    k.toPublic C = a ∧ parent.derive C a.path = .ok k := by
  unfold getPrivateKey at h
  cases hk : parent.derive C a.path with
  | error e => rw [hk] at h; cases h
  | ok k' =>
    rw [hk] at h
    simp only at h
    split at h
    · rename_i he
      cases h
      refine ⟨?_, rfl⟩
      obtain ⟨h1, h2, h3⟩ := he
      cases a
      cases k
      simp only [Priv.toPublic] at h1 h2 h3 ⊢
      rw [h1, h2, h3]
    · cases h

/-- **C88 (from the root).**  Accounts of a root key are at `m/44'/coin'/account'`, addresses two normal steps below; different
accounts, kinds and indices have different paths. -/
theorem C88_wallet_paths (root : Priv) (hr : root.path = []) (coin account account' : Nat) (change change' : Bool)
    (index index' : Nat) (k k' : Priv) (a a' : Pub C)
    (hk : accountKey C root coin account = .ok k) (hk' : accountKey C root coin account' = .ok k')
    (ha : addressKey (k.toPublic C) change index = .ok a) (ha' : addressKey (k'.toPublic C) change' index' = .ok a')
    (he : a.path = a'.path) : account = account' ∧ change = change' ∧ index = index' := by
  have hpath : ∀ (k : Priv) (account : Nat), accountKey C root coin account = .ok k →
      k.path = [2147483692, coin, account + 2147483648] := by
    intro k account hk
    exact ((C88_path root _).1 k hk).2.1
  have hadd : ∀ (k : Priv) (change : Bool) (index : Nat) (a : Pub C), addressKey (k.toPublic C) change index = .ok a →
      a.path = k.path ++ [if change then 1 else 0, index] := by
    intro k change index a h
    unfold addressKey at h
    simp only [bind_eq_ok] at h
    obtain ⟨x, h1, h2⟩ := h
    rw [(pub_child_ok h2).2.1, (pub_child_ok h1).2.1]
    show k.path ++ [purposeIndex change] ++ [index] = _
    cases change <;> simp [purposeIndex, normal, encodeMsb]
  rw [hadd _ _ _ _ ha, hadd _ _ _ _ ha', hpath _ _ hk, hpath _ _ hk'] at he
  simp at he
  obtain ⟨h1, h2, h3⟩ := he
  refine ⟨h1, ?_, h3⟩
  cases change <;> cases change' <;> simp_all

/-! ### Concrete cases -/

/-- a curve with seven points; the code sums up bytes -/
def toy : Curve where
  G := Fin 7
  grp := inferInstance
  deq := inferInstance
  g := 1
  n := 7
  ser q := 2 :: (List.replicate 31 0 ++ [UInt8.ofNat q.val])
  hmac k m := ([UInt8.ofNat (((k ++ m).map (·.toNat)).sum % 6 + 1)], [UInt8.ofNat (((k ++ m).map (·.toNat)).sum % 251)])

theorem toy_sound : Sound toy where
  order k := by
    have e : ∀ k : Nat, (k • (1 : Fin 7)) = Fin.ofNat 7 k := by
      intro k
      induction k with
      | zero => rfl
      | succ k ih =>
        rw [succ_nsmul, ih]
        apply Fin.ext
        simp [Fin.val_add, Fin.ofNat]
    show k • (1 : Fin 7) = 0 ↔ 7 ∣ k
    rw [e, Nat.dvd_iff_mod_eq_zero, Fin.ext_iff]
    rfl
  bound := by decide
  ser_shape q := ⟨2, _, rfl, .inl rfl, by simp⟩
  ser_inj := by
    intro a b h
    have h' : UInt8.ofNat a.val = UInt8.ofNat b.val := by simpa [toy] using h
    have h'' := congrArg UInt8.toNat h'
    rw [UInt8.toNat_ofNat', UInt8.toNat_ofNat'] at h''
    have ha : a.val < 7 := a.isLt
    have hb : b.val < 7 := b.isLt
    exact Fin.ext (by omega)

def toyRoot : Priv := ⟨[], [9], 3⟩

/-- an account and an address of it whose private key is found; the account itself has no private key below itself -/
example : (match accountKey toy toyRoot (hardened 1) 0 with
    | .error _ => false
    | .ok k => (match addressKey (k.toPublic toy) true 5 with
      | .error _ => false
      | .ok a => (match getPrivateKey k a with
        | .ok k' => decide (k'.path = [2147483692, 2147483649, 2147483648, 1, 5])
        | .error _ => false))) = true := by decide +kernel

example : (toyRoot.derive toy []).isOk = false ∧ ((toyRoot.toPublic toy).derive [2147483648]).isOk = false ∧
    ((toyRoot.toPublic toy).derive [2]).isOk = true := by decide +kernel

example : parsePath "m/44'/0h/7".toList = .ok [2147483692, 2147483648, 7] ∧
    parsePath "m/".toList = .error .childNumberFormat ∧ parsePath "m/01".toList = .error .childNumberFormat ∧
    parsePath "m/2147483648".toList = .error (.invalidChildNumber 2147483648) ∧
    parsePath "m/+1".toList = .error .childNumberFormat ∧ parsePath "".toList = .error .pathFormat ∧
    showPath true [2147483692, 7] = "m/44h/7".toList := by
  decide +kernel

end Verif.Hd
