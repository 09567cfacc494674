import Verif.Codec.Base
import Mathlib.Tactic.NormNum

/-!
Every building block of the binary format is lawful.
-/
namespace Verif.Codec

/-! ### Integers -/

theorem leBytes_length (n v : Nat) : (leBytes n v).length = n := by
  induction n generalizing v with
  | zero => rfl
  | succ n ih => simp [leBytes, ih]

theorem leNat_leBytes (n v : Nat) : leNat (leBytes n v) = v % 256 ^ n := by
  induction n generalizing v with
  | zero => simp [leBytes, leNat, Nat.mod_one]
  | succ n ih =>
    simp only [leBytes, leNat, ih]
    have h : (UInt8.ofNat (v % 256)).toNat = v % 256 := by
      simp
    rw [h, Nat.pow_succ, Nat.mul_comm (256 ^ n) 256, Nat.mod_mul]

theorem leNat_lt (bs : Bytes) : leNat bs < 256 ^ bs.length := by
  induction bs with
  | nil => simp [leNat]
  | cons b bs ih =>
    simp only [leNat, List.length_cons, Nat.pow_succ]
    have := b.toNat_lt
    omega

theorem leBytes_leNat (bs : Bytes) : leBytes bs.length (leNat bs) = bs := by
  induction bs with
  | nil => rfl
  | cons b bs ih =>
    simp only [leNat, List.length_cons, leBytes]
    have := b.toNat_lt
    have h1 : (b.toNat + 256 * leNat bs) % 256 = b.toNat := by omega
    have h2 : (b.toNat + 256 * leNat bs) / 256 = leNat bs := by omega
    rw [h1, h2, ih]
    simp

theorem leBytes_of_leNat {bs : Bytes} {n v : Nat} (hl : bs.length = n) (hv : leNat bs = v) :
    leBytes n v = bs := by
  subst hl hv; exact leBytes_leNat bs

theorem takeN_append {n : Nat} {x : Bytes} (r : Bytes) (h : x.length = n) :
    takeN n (x ++ r) = some (x, r) := by
  subst h
  simp [takeN]

theorem takeN_eq_some {n : Nat} {bs x r : Bytes} (h : takeN n bs = some (x, r)) :
    x.length = n ∧ bs = x ++ r := by
  unfold takeN at h
  split at h
  · rename_i hn
    simp only [Option.some.injEq, Prod.mk.injEq] at h
    obtain ⟨rfl, rfl⟩ := h
    exact ⟨by simp [hn], (List.take_append_drop n bs).symm⟩
  · simp at h

instance lawful_uint (n : Nat) : Lawful (uint n) where
  round a r h := by
    simp only [uint] at h ⊢
    rw [takeN_append r (leBytes_length n a)]
    simp [leNat_leBytes, Nat.mod_eq_of_lt h]
  canon bs a r h := by
    simp only [uint, Option.map_eq_some_iff, Prod.exists, Prod.mk.injEq] at h ⊢
    obtain ⟨x, r', h, rfl, rfl⟩ := h
    obtain ⟨hl, rfl⟩ := takeN_eq_some h
    refine ⟨by subst hl; exact leNat_lt x, ?_⟩
    rw [leBytes_of_leNat hl rfl]

theorem byteLen_bounds {v : Nat} (h : v ≠ 0) :
    256 ^ (byteLen v - 1) ≤ v ∧ v < 256 ^ byteLen v := by
  unfold byteLen
  have h1 : 2 ^ v.log2 ≤ v := Nat.log2_self_le h
  have h2 : v < 2 ^ (v.log2 + 1) := Nat.lt_log2_self
  have e : (256 : Nat) = 2 ^ 8 := by norm_num
  rw [e, ← Nat.pow_mul, ← Nat.pow_mul]
  constructor
  · exact le_trans (Nat.pow_le_pow_right (by norm_num) (by omega)) h1
  · exact lt_of_lt_of_le h2 (Nat.pow_le_pow_right (by norm_num) (by omega))

theorem byteLen_eq {v n : Nat} (h1 : 256 ^ n ≤ v) (h2 : v < 256 ^ (n + 1)) : byteLen v = n + 1 := by
  have h0 : v ≠ 0 := by
    have := Nat.pow_pos (n := n) (show 0 < 256 by norm_num)
    omega
  obtain ⟨h3, h4⟩ := byteLen_bounds h0
  have a1 : n < byteLen v := by
    by_contra hc
    have := Nat.pow_le_pow_right (n := 256) (by norm_num) (show byteLen v ≤ n by omega)
    omega
  have a2 : byteLen v - 1 < n + 1 := by
    by_contra hc
    have := Nat.pow_le_pow_right (n := 256) (by norm_num) (show n + 1 ≤ byteLen v - 1 by omega)
    omega
  omega

theorem ofNat_toNat' {b : UInt8} {n : Nat} (h : n = b.toNat) : UInt8.ofNat n = b := by
  subst h; simp

theorem compact_round {w : Nat} (hw : 4 ≤ w) (hw' : w ≤ 16) (v : Nat) (r : Bytes) (h : v < 256 ^ w) :
    compactDec w (compactEnc v ++ r) = some (v, r) := by
  unfold compactEnc
  split
  · rename_i h1
    simp only [leBytes, List.cons_append, List.nil_append, compactDec]
    have e : (UInt8.ofNat (4 * v % 256)).toNat = 4 * v := by
      rw [UInt8.toNat_ofNat']; omega
    rw [e]
    have : 4 * v % 4 = 0 := by omega
    rw [this]
    simp
  split
  · rename_i h0 h1
    simp only [leBytes, List.cons_append, List.nil_append, compactDec]
    have e : (UInt8.ofNat ((4 * v + 1) % 256)).toNat = (4 * v + 1) % 256 := by simp
    rw [e]
    have : (4 * v + 1) % 256 % 4 = 1 := by omega
    rw [this]
    have t := takeN_append (n := 1) (x := [UInt8.ofNat ((4 * v + 1) / 256 % 256)]) r rfl
    simp only [List.cons_append, List.nil_append] at t
    have e2 : (UInt8.ofNat ((4 * v + 1) / 256 % 256)).toNat = (4 * v + 1) / 256 := by
      rw [UInt8.toNat_ofNat']; omega
    have hv : leNat [UInt8.ofNat ((4 * v + 1) % 256), UInt8.ofNat ((4 * v + 1) / 256 % 256)] / 4 = v := by
      simp only [leNat, e, e2]
      omega
    simp only [t, hv]
    rw [if_pos (by omega)]
  split
  · rename_i h00 h0 h1
    have hb : leBytes 4 (4 * v + 2)
        = UInt8.ofNat ((4 * v + 2) % 256) :: leBytes 3 ((4 * v + 2) / 256) := rfl
    simp only [hb, List.cons_append, compactDec]
    have e : (UInt8.ofNat ((4 * v + 2) % 256)).toNat = (4 * v + 2) % 256 := by simp
    rw [e]
    have : (4 * v + 2) % 256 % 4 = 2 := by omega
    rw [this]
    have hv : leNat (UInt8.ofNat ((4 * v + 2) % 256) :: leBytes 3 ((4 * v + 2) / 256)) / 4 = v := by
      simp only [leNat, e, leNat_leBytes]
      omega
    simp only [takeN_append r (leBytes_length 3 ((4 * v + 2) / 256)), hv]
    rw [if_pos (by omega)]
  · rename_i h00 h0 h1
    have hv0 : v ≠ 0 := by omega
    obtain ⟨b1, b2⟩ := byteLen_bounds hv0
    have l1 : 4 ≤ byteLen v := by
      by_contra hc
      have : byteLen v ≤ 3 := by omega
      have := Nat.pow_le_pow_right (n := 256) (by norm_num) this
      omega
    have l2 : byteLen v ≤ w := by
      by_contra hc
      have := Nat.pow_le_pow_right (n := 256) (by norm_num) (show w ≤ byteLen v - 1 by omega)
      omega
    generalize byteLen v = n at *
    simp only [List.cons_append, compactDec]
    have e : (UInt8.ofNat (4 * (n - 4) + 3)).toNat = 4 * (n - 4) + 3 := by
      rw [UInt8.toNat_ofNat']; omega
    rw [e]
    have : (4 * (n - 4) + 3) % 4 = 3 := by omega
    rw [this]
    have : (4 * (n - 4) + 3) / 4 + 4 = n := by omega
    simp only [this, compactBig]
    rw [if_pos l2]
    simp only [takeN_append r (leBytes_length n v), leNat_leBytes, Nat.mod_eq_of_lt b2]
    rw [if_pos]
    unfold bigMin
    split
    · omega
    · exact b1

theorem compact_canon {w : Nat} (hw : 4 ≤ w) (bs : Bytes) (v : Nat) (r : Bytes)
    (h : compactDec w bs = some (v, r)) : v < 256 ^ w ∧ bs = compactEnc v ++ r := by
  have hwp : 256 ^ 4 ≤ 256 ^ w := Nat.pow_le_pow_right (by norm_num) hw
  match bs with
  | [] => simp [compactDec] at h
  | b :: bs =>
    have hb := b.toNat_lt
    simp only [compactDec] at h
    split at h
    · rename_i hm
      simp only [Option.some.injEq, Prod.mk.injEq] at h
      obtain ⟨rfl, rfl⟩ := h
      refine ⟨by omega, ?_⟩
      unfold compactEnc
      rw [if_pos (by omega)]
      simp only [leBytes, List.cons_append, List.nil_append, List.cons.injEq, and_true]
      exact (ofNat_toNat' (by omega)).symm
    · rename_i hm
      split at h
      · rename_i x r' ht
        obtain ⟨hl, rfl⟩ := takeN_eq_some ht
        split at h
        · rename_i hge
          simp only [Option.some.injEq, Prod.mk.injEq] at h
          obtain ⟨rfl, rfl⟩ := h
          have hlt := leNat_lt (b :: x)
          have hmod : leNat (b :: x) % 4 = 1 := by simp only [leNat]; omega
          have hl' : (b :: x).length = 2 := by simp [hl]
          rw [hl'] at hlt
          refine ⟨by omega, ?_⟩
          unfold compactEnc
          rw [if_neg (by omega), if_pos (by omega),
            leBytes_of_leNat (bs := b :: x) hl' (by omega)]
          rfl
        · simp at h
      · simp at h
    · rename_i hm
      split at h
      · rename_i x r' ht
        obtain ⟨hl, rfl⟩ := takeN_eq_some ht
        split at h
        · rename_i hge
          simp only [Option.some.injEq, Prod.mk.injEq] at h
          obtain ⟨rfl, rfl⟩ := h
          have hlt := leNat_lt (b :: x)
          have hmod : leNat (b :: x) % 4 = 2 := by simp only [leNat]; omega
          have hl' : (b :: x).length = 4 := by simp [hl]
          rw [hl'] at hlt
          refine ⟨by omega, ?_⟩
          unfold compactEnc
          rw [if_neg (by omega), if_neg (by omega), if_pos (by omega),
            leBytes_of_leNat (bs := b :: x) hl' (by omega)]
          rfl
        · simp at h
      · simp at h
    · rename_i h0 h1 h2
      have hm : b.toNat % 4 = 3 := by
        have : b.toNat % 4 < 4 := Nat.mod_lt _ (by norm_num)
        have a0 : b.toNat % 4 ≠ 0 := fun e => h0 e
        have a1 : b.toNat % 4 ≠ 1 := fun e => h1 e
        have a2 : b.toNat % 4 ≠ 2 := fun e => h2 e
        omega
      unfold compactBig at h
      split at h
      · rename_i hn
        split at h
        · rename_i x r' ht
          obtain ⟨hl, rfl⟩ := takeN_eq_some ht
          split at h
          · rename_i hge
            simp only [Option.some.injEq, Prod.mk.injEq] at h
            obtain ⟨rfl, rfl⟩ := h
            have hlt := leNat_lt x
            rw [hl] at hlt
            have hwv : leNat x < 256 ^ w :=
              lt_of_lt_of_le hlt (Nat.pow_le_pow_right (by norm_num) hn)
            refine ⟨hwv, ?_⟩
            obtain ⟨k, hk⟩ : ∃ k, b.toNat / 4 = k := ⟨_, rfl⟩
            rw [hk] at hge hlt hl hn
            unfold bigMin at hge
            have hbl : 2 ^ 30 ≤ leNat x ∧ byteLen (leNat x) = k + 4 := by
              by_cases hk0 : k = 0
              · subst hk0
                rw [if_pos rfl] at hge
                exact ⟨hge, byteLen_eq (n := 3) (by omega) hlt⟩
              · rw [if_neg (by omega)] at hge
                have : 256 ^ 4 ≤ 256 ^ (k + 4 - 1) :=
                  Nat.pow_le_pow_right (by norm_num) (by omega)
                refine ⟨by omega, byteLen_eq (n := k + 3) ?_ hlt⟩
                exact hge
            obtain ⟨g1, g2⟩ := hbl
            unfold compactEnc
            rw [if_neg (by omega), if_neg (by omega), if_neg (by omega), g2,
              leBytes_of_leNat hl rfl, ofNat_toNat' (b := b) (by omega)]
            rfl
          · simp at h
        · simp at h
      · simp at h

theorem lawful_compact {w : Nat} (hw : 4 ≤ w) (hw' : w ≤ 16) : Lawful (compact w) where
  round a r h := compact_round hw hw' a r h
  canon bs a r h := compact_canon hw bs a r h

instance : Lawful (compact 4) := lawful_compact (by norm_num) (by norm_num)
instance : Lawful (compact 8) := lawful_compact (by norm_num) (by norm_num)
instance : Lawful (compact 16) := lawful_compact (by norm_num) (by norm_num)

/-! ### Composite types -/

instance lawful_bytesN (n : Nat) : Lawful (bytesN n) where
  round _ r h := takeN_append r h
  canon _ _ _ h := takeN_eq_some h

instance lawful_nothing : Lawful nothing where
  round _ _ _ := rfl
  canon bs a r h := by simp_all [nothing]

instance lawful_byte : Lawful byte where
  round _ _ _ := rfl
  canon bs a r h := by
    match bs with
    | [] => simp [byte] at h
    | b :: bs => simp_all [byte]

instance lawful_pair {α β : Type} {c : Codec α} {d : Codec β} [hc : Lawful c] [hd : Lawful d] :
    Lawful (pair c d) where
  round a r h := by
    simp only [pair] at h ⊢
    rw [List.append_assoc, hc.round _ _ h.1]
    simp only [hd.round _ _ h.2]
  canon bs a r h := by
    simp only [pair] at h ⊢
    split at h
    · rename_i x r1 h1
      split at h
      · rename_i y r2 h2
        simp only [Option.some.injEq, Prod.mk.injEq] at h
        obtain ⟨rfl, rfl⟩ := h
        obtain ⟨o1, rfl⟩ := hc.canon _ _ _ h1
        obtain ⟨o2, rfl⟩ := hd.canon _ _ _ h2
        exact ⟨⟨o1, o2⟩, by simp⟩
      · simp at h
    · simp at h

theorem lawful_iso {α β : Type} {f : α → β} {g : β → α} {c : Codec β} (hc : Lawful c)
    (h1 : ∀ a, g (f a) = a) (h2 : ∀ b, f (g b) = b) : Lawful (iso f g c) where
  round a r h := by
    simp only [iso] at h ⊢
    rw [hc.round _ _ h]
    simp [h1]
  canon bs a r h := by
    simp only [iso, Option.map_eq_some_iff, Prod.exists, Prod.mk.injEq] at h ⊢
    obtain ⟨b, r', h, rfl, rfl⟩ := h
    rw [h2]
    exact hc.canon _ _ _ h

instance lawful_checked {α : Type} {p : α → Bool} {c : Codec α} [hc : Lawful c] :
    Lawful (checked p c) where
  round a r h := by
    simp only [checked] at h ⊢
    rw [hc.round _ _ h.1]
    simp [h.2]
  canon bs a r h := by
    simp only [checked] at h ⊢
    split at h
    · rename_i x r1 h1
      split at h
      · rename_i hp
        simp only [Option.some.injEq, Prod.mk.injEq] at h
        obtain ⟨rfl, rfl⟩ := h
        obtain ⟨o1, rfl⟩ := hc.canon _ _ _ h1
        exact ⟨⟨o1, hp⟩, rfl⟩
      · simp at h
    · simp at h

instance lawful_tagged {α : Type} {t : UInt8} {c : Codec α} [hc : Lawful c] :
    Lawful (tagged t c) where
  round a r h := by
    simp only [tagged] at h ⊢
    simp [hc.round _ _ h]
  canon bs a r h := by
    match bs with
    | [] => simp [tagged] at h
    | b :: bs =>
      simp only [tagged] at h ⊢
      split at h
      · rename_i hb
        subst hb
        obtain ⟨o1, rfl⟩ := hc.canon _ _ _ h
        exact ⟨o1, rfl⟩
      · simp at h

theorem decMany_encMany {α : Type} {c : Codec α} (hc : Lawful c) (l : List α) (r : Bytes)
    (h : ∀ a ∈ l, c.ok a) : decMany c l.length (encMany c l ++ r) = some (l, r) := by
  induction l with
  | nil => rfl
  | cons a l ih =>
    simp only [encMany, List.length_cons, decMany, List.append_assoc]
    rw [hc.round _ _ (h a (by simp))]
    simp only [ih (fun x hx => h x (by simp [hx]))]

theorem decMany_canon {α : Type} {c : Codec α} (hc : Lawful c) (n : Nat) (bs : Bytes) (l : List α)
    (r : Bytes) (h : decMany c n bs = some (l, r)) :
    l.length = n ∧ (∀ a ∈ l, c.ok a) ∧ bs = encMany c l ++ r := by
  induction n generalizing bs l with
  | zero =>
    simp only [decMany, Option.some.injEq, Prod.mk.injEq] at h
    obtain ⟨rfl, rfl⟩ := h
    simp [encMany]
  | succ n ih =>
    simp only [decMany] at h
    split at h
    · rename_i x r1 h1
      split at h
      · rename_i y r2 h2
        simp only [Option.some.injEq, Prod.mk.injEq] at h
        obtain ⟨rfl, rfl⟩ := h
        obtain ⟨o1, rfl⟩ := hc.canon _ _ _ h1
        obtain ⟨e1, e2, rfl⟩ := ih _ _ h2
        refine ⟨by simp [e1], ?_, by simp [encMany]⟩
        intro a ha
        rcases List.mem_cons.1 ha with rfl | ha
        · exact o1
        · exact e2 a ha
      · simp at h
    · simp at h

instance lawful_vec {α : Type} {c : Codec α} [hc : Lawful c] :
    Lawful (vec c) where
  round l r h := by
    simp only [vec] at h ⊢
    rw [List.append_assoc, compact_round (by norm_num) (by norm_num) _ _ h.1]
    exact decMany_encMany hc l r h.2
  canon bs l r h := by
    simp only [vec] at h ⊢
    split at h
    · rename_i n r1 h1
      obtain ⟨o1, rfl⟩ := compact_canon (by norm_num) _ _ _ h1
      obtain ⟨rfl, e2, rfl⟩ := decMany_canon hc _ _ _ _ h
      exact ⟨⟨o1, e2⟩, by simp⟩
    · simp at h

instance lawful_blob : Lawful blob := lawful_vec

instance lawful_option {α : Type} {c : Codec α} [hc : Lawful c] :
    Lawful (option c) where
  round o r h := by
    cases o with
    | none => rfl
    | some a =>
      have := hc.round a r (h a rfl)
      simp [option, this]
  canon bs o r h := by
    match bs with
    | [] => simp [option] at h
    | b :: bs =>
      simp only [option] at h ⊢
      split at h
      · rename_i hb
        simp only [Option.some.injEq, Prod.mk.injEq] at h
        obtain ⟨rfl, rfl⟩ := h
        simp [hb]
      · split at h
        · rename_i hb
          split at h
          · rename_i a r' h1
            simp only [Option.some.injEq, Prod.mk.injEq] at h
            obtain ⟨rfl, rfl⟩ := h
            obtain ⟨o1, rfl⟩ := hc.canon _ _ _ h1
            simp [hb, o1]
          · simp at h
        · simp at h

theorem lawful_direct {α : Type} {t : UInt8} {c : Codec α} (hc : Lawful c)
    (ht : ∀ a, ∃ e, c.enc a = t :: e) : Lawful (direct t c) where
  round a r h := by
    obtain ⟨e, he⟩ := ht a
    have := hc.round a r h
    simp only [direct]
    rw [he] at this ⊢
    simpa using this
  canon bs a r h := by
    match bs with
    | [] => simp [direct] at h
    | b :: bs =>
      simp only [direct] at h ⊢
      split at h
      · exact hc.canon _ _ _ h
      · simp at h

instance lawful_noVec : Lawful noVec where
  round o r h := by
    cases o with
    | none => rfl
    | some l =>
      obtain ⟨h1, h2⟩ := h l rfl
      cases l with
      | nil => exact absurd rfl h1
      | cons b l => simp only [noVec, Option.getD_some, lawful_blob.round _ r h2]
  canon bs o r h := by
    simp only [noVec] at h ⊢
    split at h
    · rename_i r' h1
      simp only [Option.some.injEq, Prod.mk.injEq] at h
      obtain ⟨rfl, rfl⟩ := h
      exact ⟨by simp, (lawful_blob.canon _ _ _ h1).2⟩
    · rename_i l r' hne h1
      simp only [Option.some.injEq, Prod.mk.injEq] at h
      obtain ⟨rfl, rfl⟩ := h
      obtain ⟨o1, rfl⟩ := lawful_blob.canon _ _ _ h1
      refine ⟨?_, rfl⟩
      rintro l' ⟨rfl⟩
      refine ⟨?_, o1⟩
      rintro rfl
      exact hne rfl
    · simp at h

/-! ### Enums -/

/-- A variant reads back what it wrote and reads only values of its own; `tag` tells the variant of a
value. -/
structure LawfulV {α : Type} (tag : α → UInt8) (v : Variant α) : Prop where
  round : ∀ a e r, v.ok a → v.enc a = some e → v.dec (e ++ r) = some (a, r)
  canon : ∀ bs a r, v.dec bs = some (a, r) → v.ok a ∧ ∃ e, v.enc a = some e ∧ bs = e ++ r
  okOther : ∀ a, v.enc a = none → v.ok a
  tag : ∀ a, v.enc a ≠ none ↔ tag a = v.idx

theorem lawfulV_variant {α β : Type} {tag : α → UInt8} {i : UInt8} {c : Codec β} {mk : β → α}
    {get : α → Option β} (hc : Lawful c) (h1 : ∀ a b, get a = some b → mk b = a)
    (h2 : ∀ b, get (mk b) = some b) (h3 : ∀ a, get a ≠ none ↔ tag a = i) :
    LawfulV tag (variant i c mk get) where
  round a e r ho he := by
    simp only [variant, Option.map_eq_some_iff] at ho he ⊢
    obtain ⟨b, hb, rfl⟩ := he
    rw [hc.round _ _ (ho b hb)]
    simp [h1 a b hb]
  canon bs a r h := by
    simp only [variant, Option.map_eq_some_iff, Prod.exists, Prod.mk.injEq] at h ⊢
    obtain ⟨b, r', h, rfl, rfl⟩ := h
    obtain ⟨o1, rfl⟩ := hc.canon _ _ _ h
    simp [h2, o1]
  okOther a h b hb := by
    simp [variant, hb] at h
  tag a := by
    refine Iff.trans ?_ (h3 a)
    simp [variant]

theorem decEnum_idx {α : Type} {vs : List (Variant α)} (hn : (vs.map (·.idx)).Nodup)
    {v : Variant α} (hv : v ∈ vs) (bs : Bytes) : decEnum vs v.idx bs = v.dec bs := by
  induction vs with
  | nil => simp at hv
  | cons w ws ih =>
    simp only [List.map_cons, List.nodup_cons, List.mem_map, not_exists, not_and] at hn
    simp only [decEnum]
    rcases List.mem_cons.1 hv with rfl | hv
    · simp
    · rw [if_neg (fun e => hn.1 v hv e.symm)]
      exact ih hn.2 hv

theorem decEnum_mem {α : Type} {vs : List (Variant α)} {i : UInt8} {bs : Bytes} {x : α × Bytes}
    (h : decEnum vs i bs = some x) : ∃ v ∈ vs, v.idx = i ∧ v.dec bs = some x := by
  induction vs with
  | nil => simp [decEnum] at h
  | cons w ws ih =>
    simp only [decEnum] at h
    split at h
    · rename_i he
      exact ⟨w, by simp, he, h⟩
    · obtain ⟨v, hv, h1, h2⟩ := ih h
      exact ⟨v, by simp [hv], h1, h2⟩

theorem eq_of_nodup_map {α : Type} {vs : List (Variant α)} (hn : (vs.map (·.idx)).Nodup)
    {v w : Variant α} (hv : v ∈ vs) (hw : w ∈ vs) (h : v.idx = w.idx) : v = w := by
  induction vs with
  | nil => simp at hv
  | cons u us ih =>
    simp only [List.map_cons, List.nodup_cons, List.mem_map, not_exists, not_and] at hn
    rcases List.mem_cons.1 hv with h1 | h1 <;> rcases List.mem_cons.1 hw with h2 | h2
    · rw [h1, h2]
    · exact absurd (h1 ▸ h.symm) (hn.1 w h2)
    · exact absurd (h2 ▸ h) (hn.1 v h1)
    · exact ih hn.2 h1 h2

theorem encEnum_mem {α : Type} {vs : List (Variant α)} {a : α} (h : ∃ v ∈ vs, v.enc a ≠ none) :
    ∃ v ∈ vs, ∃ e, v.enc a = some e ∧ encEnum vs a = v.idx :: e := by
  induction vs with
  | nil => simp at h
  | cons w ws ih =>
    simp only [encEnum]
    cases hw : w.enc a with
    | some e => exact ⟨w, by simp, e, hw, rfl⟩
    | none =>
      obtain ⟨v, hv, hne⟩ := h
      rcases List.mem_cons.1 hv with rfl | hv
      · exact absurd hw hne
      · obtain ⟨u, hu, e, h1, h2⟩ := ih ⟨v, hv, hne⟩
        exact ⟨u, by simp [hu], e, h1, h2⟩

/-- An enum is lawful when its variants are, their indices are different and every value belongs to a
variant. -/
theorem lawful_enum {α : Type} {vs : List (Variant α)} (tag : α → UInt8)
    (each : ∀ v ∈ vs, LawfulV tag v) (idx : (vs.map (·.idx)).Nodup)
    (total : ∀ a, tag a ∈ vs.map (·.idx)) : Lawful (enum vs) := by
  have total' : ∀ a, ∃ v ∈ vs, v.enc a ≠ none := by
    intro a
    obtain ⟨v, hv, h⟩ := List.mem_map.1 (total a)
    exact ⟨v, hv, ((each v hv).tag a).2 h.symm⟩
  have only : ∀ a, ∀ v ∈ vs, ∀ w ∈ vs, v.enc a ≠ none → w.enc a ≠ none → v = w := by
    intro a v hv w hw h1 h2
    exact eq_of_nodup_map idx hv hw
      ((((each v hv).tag a).1 h1).symm.trans (((each w hw).tag a).1 h2))
  constructor
  · intro a r ho
    obtain ⟨v, hv, e, h1, h2⟩ := encEnum_mem (total' a)
    simp only [enum] at ho ⊢
    rw [h2]
    simp only [List.cons_append]
    rw [decEnum_idx idx hv]
    exact (each v hv).round a e r (ho v hv) h1
  · intro bs a r hd
    match bs with
    | [] => simp [enum] at hd
    | i :: bs =>
      simp only [enum] at hd ⊢
      obtain ⟨v, hv, rfl, hd'⟩ := decEnum_mem hd
      obtain ⟨o1, e, h1, rfl⟩ := (each v hv).canon _ _ _ hd'
      obtain ⟨w, hw, e', g1, g2⟩ := encEnum_mem (total' a)
      have hvw := only a v hv w hw (by simp [h1]) (by simp [g1])
      subst hvw
      rw [h1] at g1
      obtain rfl := Option.some.inj g1
      refine ⟨fun u hu => ?_, by simp [g2]⟩
      cases hue : u.enc a with
      | none => exact (each u hu).okOther a hue
      | some e' =>
        have := only a v hv u hu (by simp [h1]) (by simp [hue])
        subst this
        exact o1

theorem encEnum_head {α : Type} {vs : List (Variant α)} (tag : α → UInt8)
    (each : ∀ v ∈ vs, LawfulV tag v) (total : ∀ a, tag a ∈ vs.map (·.idx)) (a : α) :
    ∃ e, (enum vs).enc a = tag a :: e := by
  obtain ⟨v, hv, h⟩ := List.mem_map.1 (total a)
  obtain ⟨w, hw, e, g1, g2⟩ := encEnum_mem ⟨v, hv, ((each v hv).tag a).2 h.symm⟩
  refine ⟨e, ?_⟩
  have := ((each w hw).tag a).1 (by simp [g1])
  simp only [enum, g2, this]

end Verif.Codec
