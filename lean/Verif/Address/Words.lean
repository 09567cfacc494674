import Verif.Address.Text

/-! The strings that are read and written. -/

namespace Verif.Address
open Verif Codec

/-- a prefix of small letters -/
def Letters (h : Str) : Prop := 1 ≤ h.length ∧ h.length ≤ 83 ∧ ∀ c ∈ h, isLower c = true

/-- `s` consists of the prefix, the separator and the given symbols, and has a good checksum -/
def Word (hrp : Str) (l : List Nat) (s : Str) : Prop :=
  (∀ v ∈ l, v < 32) ∧ s = hrp ++ 49 :: l.map char ∧ 6 ≤ l.length ∧ s.length ≤ 1023 ∧ (expand hrp ++ l).foldl step 1 = target

theorem isLower_iff {c : Nat} : isLower c = true ↔ 97 ≤ c ∧ c ≤ 122 := by simp [isLower]

theorem not_upper_of_lower {c : Nat} (h : isLower c = true) : isUpper c = false := by
  rw [isLower_iff] at h
  simp only [isUpper, decide_eq_false_iff_not]; omega

theorem Letters.not_upper {h : Str} (hl : Letters h) : ∀ c ∈ h, isUpper c = false :=
  fun c hc => not_upper_of_lower (hl.2.2 c hc)

theorem Letters.hrpOk {h : Str} (hl : Letters h) : hrpOk h = true := by
  have hm : mixedCase h = false := by
    unfold mixedCase
    rw [Bool.and_eq_false_iff]; left
    rw [List.any_eq_false]
    intro c hc; simp [hl.not_upper c hc]
  simp only [Address.hrpOk, hm, Bool.not_false, Bool.and_true, Bool.and_eq_true, decide_eq_true_eq, List.all_eq_true]
  refine ⟨⟨hl.1, hl.2.1⟩, fun c hc => ?_⟩
  have := isLower_iff.mp (hl.2.2 c hc)
  omega

theorem mixedCase_letters {h : Str} (hl : Letters h) (r : Str) : mixedCase (h ++ 49 :: r) = false ↔ ∀ c ∈ r, isUpper c = false := by
  obtain ⟨c, t, rfl⟩ : ∃ c t, h = c :: t := by
    match h, hl.1 with
    | c :: t, _ => exact ⟨c, t, rfl⟩
  have hlow : ((c :: t) ++ 49 :: r).any isLower = true := by
    rw [List.any_eq_true]; exact ⟨c, by simp, hl.2.2 c (by simp)⟩
  unfold mixedCase
  rw [hlow, Bool.and_true, List.any_eq_false]
  constructor
  · intro h x hx
    have := h x (by simp [hx])
    simpa using this
  · intro h x hx
    rw [List.mem_append] at hx
    rcases hx with hx | hx
    · simp [hl.not_upper x hx]
    · rw [List.mem_cons] at hx
      rcases hx with rfl | hx
      · decide
      · simp [h x hx]

theorem not_sep {l : List Nat} (h : ∀ v ∈ l, v < 32) : 49 ∉ l.map char := by
  intro hm
  rw [List.mem_map] at hm
  obtain ⟨v, hv, e⟩ := hm
  exact (char_value v (h v hv)).2.2 e

theorem parse_ok {s hrp : Str} {l : List Nat} (h : parse s = .ok (hrp, l)) :
    ∃ r, s = hrp ++ 49 :: r ∧ r.mapM value = some l ∧ mixedCase s = false ∧ hrpOk hrp = true := by
  unfold parse at h
  simp only [bind_eq_ok, okOr_eq_ok, ensure_eq_ok, pure_eq_ok] at h
  obtain ⟨⟨a, b⟩, hs, l', hl, -, hm, -, hh, he⟩ := h
  simp only [Prod.mk.injEq] at he
  obtain ⟨rfl, rfl⟩ := he
  exact ⟨b, (splitLast_spec hs).1, hl, hm, hh⟩

theorem decode_ok {s hrp : Str} {data : Bytes} : decode s = .ok (hrp, data) ↔ ∃ l, parse s = .ok (hrp, l) ∧ 6 ≤ l.length ∧
    s.length ≤ 1023 ∧ (expand hrp ++ l).foldl step 1 = target ∧ data = toBytes (l.take (l.length - 6)) := by
  unfold decode
  simp only [bind_eq_ok, ensure_eq_ok, pure_eq_ok]
  constructor
  · rintro ⟨⟨a, l⟩, hp, -, h6, -, h1023, -, hr, he⟩
    simp only [Prod.mk.injEq] at he
    obtain ⟨rfl, rfl⟩ := he
    exact ⟨l, hp, h6, h1023, hr, rfl⟩
  · rintro ⟨l, hp, h6, h1023, hr, rfl⟩
    exact ⟨(hrp, l), hp, (), h6, (), h1023, (), hr, rfl⟩

theorem parse_letters {s hrp : Str} {l : List Nat} (hl : Letters hrp) :
    parse s = .ok (hrp, l) ↔ (∀ v ∈ l, v < 32) ∧ s = hrp ++ 49 :: l.map char := by
  constructor
  · intro h
    obtain ⟨r, rfl, hr, hm, -⟩ := parse_ok h
    obtain ⟨h1, h2⟩ := mapM_value_spec hr
    rw [map_lower_eq ((mixedCase_letters hl r).mp hm)] at h2
    exact ⟨h1, by rw [h2]⟩
  · rintro ⟨h1, rfl⟩
    unfold parse
    simp only [bind_eq_ok, okOr_eq_ok, ensure_eq_ok, pure_eq_ok]
    refine ⟨_, splitLast_append hrp (not_sep h1), l, mapM_value_map h1, (), ?_, (), hl.hrpOk, rfl⟩
    rw [mixedCase_letters hl]
    intro c hc
    rw [List.mem_map] at hc
    obtain ⟨v, hv, rfl⟩ := hc
    exact (char_value v (h1 v hv)).2.1

theorem decode_letters {s hrp : Str} {data : Bytes} (hl : Letters hrp) :
    decode s = .ok (hrp, data) ↔ ∃ l, Word hrp l s ∧ data = toBytes (l.take (l.length - 6)) := by
  rw [decode_ok]
  constructor
  · rintro ⟨l, hp, h6, h1023, hr, hd⟩
    obtain ⟨h1, h2⟩ := (parse_letters hl).mp hp
    exact ⟨l, ⟨h1, h2, h6, h1023, hr⟩, hd⟩
  · rintro ⟨l, ⟨h1, h2, h6, h1023, hr⟩, hd⟩
    exact ⟨l, (parse_letters hl).mpr ⟨h1, h2⟩, h6, h1023, hr, hd⟩

theorem expand_lt {h : Str} (hl : Letters h) : ∀ v ∈ expand h, v < 32 := by
  intro v hv
  unfold expand at hv
  rw [List.mem_append, List.mem_cons, List.mem_map, List.mem_map] at hv
  rcases hv with ⟨c, hc, rfl⟩ | rfl | ⟨c, hc, rfl⟩
  · have := isLower_iff.mp (hl.2.2 c hc)
    rw [lower_of_not_upper (hl.not_upper c hc), Nat.shiftRight_eq_div_pow]
    omega
  · decide
  · rw [and31]; exact Nat.mod_lt _ (by decide)

/-- the symbols of an address that was made here -/
def symbolsOf (hrp : Str) (data : Bytes) : List Nat := toSymbols data ++ checksum (expand hrp ++ toSymbols data)

theorem encode_letters {s hrp : Str} {data : Bytes} (hl : Letters hrp) :
    encode hrp data = .ok s ↔ hrp.length + 1 + (8 * data.length + 4) / 5 + 6 ≤ 1023 ∧ s = hrp ++ 49 :: (symbolsOf hrp data).map char := by
  unfold encode
  simp only [bind_eq_ok, ensure_eq_ok, pure_eq_ok, toSymbols_length, map_lower_eq hl.not_upper]
  constructor
  · rintro ⟨-, -, -, h, rfl⟩
    exact ⟨h, rfl⟩
  · rintro ⟨h, rfl⟩
    exact ⟨(), hl.hrpOk, (), h, rfl⟩

theorem symbolsOf_length (hrp : Str) (data : Bytes) : (symbolsOf hrp data).length = (8 * data.length + 4) / 5 + 6 := by
  rw [symbolsOf, List.length_append, toSymbols_length, checksum_length]

theorem symbolsOf_take (hrp : Str) (data : Bytes) :
    (symbolsOf hrp data).take ((symbolsOf hrp data).length - 6) = toSymbols data := by
  rw [symbolsOf, List.length_append, checksum_length, Nat.add_sub_cancel, List.take_left']
  rfl

theorem word_of_encode {s hrp : Str} {data : Bytes} (hl : Letters hrp) (h : encode hrp data = .ok s) :
    Word hrp (symbolsOf hrp data) s := by
  obtain ⟨h1, rfl⟩ := (encode_letters hl).mp h
  have hlt : ∀ v ∈ symbolsOf hrp data, v < 32 := by
    intro v hv
    rw [symbolsOf, List.mem_append] at hv
    rcases hv with hv | hv
    · exact toSymbols_lt data v hv
    · exact checksum_lt _ v hv
  refine ⟨hlt, rfl, ?_, ?_, ?_⟩
  · rw [symbolsOf_length]; omega
  · rw [List.length_append, List.length_cons, List.length_map, symbolsOf_length]; omega
  · rw [symbolsOf, ← List.append_assoc]
    apply checksum_residue
    intro v hv
    rw [List.mem_append] at hv
    rcases hv with hv | hv
    · exact expand_lt hl v hv
    · exact toSymbols_lt data v hv

theorem decode_encode {s hrp : Str} {data : Bytes} (hl : Letters hrp) (h : encode hrp data = .ok s) :
    decode s = .ok (hrp, data) := by
  rw [decode_letters hl]
  exact ⟨_, word_of_encode hl h, by rw [symbolsOf_take, toBytes_toSymbols]⟩

/-! ### Mistakes -/

theorem expand_letters {h : Str} (hl : Letters h) : expand h = (List.replicate h.length 3 ++ [0]) ++ h.map (fun c => c &&& 31) := by
  have h1 : h.map (fun c => lower c >>> 5) = List.replicate h.length 3 := by
    rw [List.eq_replicate_iff]
    refine ⟨by simp, fun b hb => ?_⟩
    rw [List.mem_map] at hb
    obtain ⟨c, hc, rfl⟩ := hb
    have := isLower_iff.mp (hl.2.2 c hc)
    rw [lower_of_not_upper (hl.not_upper c hc), Nat.shiftRight_eq_div_pow]
    omega
  have h2 : h.map (fun c => lower c &&& 31) = h.map (fun c => c &&& 31) := by
    apply List.map_congr_left
    intro c hc
    rw [lower_of_not_upper (hl.not_upper c hc)]
  rw [expand, h1, h2]
  simp

/-- two good strings with prefixes of the same length are equal or differ in three places -/
theorem words_differ {hrp hrp' s s' : Str} {l l' : List Nat} (hl : Letters hrp) (hl' : Letters hrp') (hw : Word hrp l s)
    (hw' : Word hrp' l' s') (hh : hrp.length = hrp'.length) (hs : s.length = s'.length) : s = s' ∨ 3 ≤ differing s s' := by
  obtain ⟨h1, rfl, -, h3, h4⟩ := hw
  obtain ⟨h1', rfl, -, -, h4'⟩ := hw'
  have hlen : l.length = l'.length := by simp at hs; omega
  have hm : ∀ h : Str, ∀ v ∈ h.map (fun c => c &&& 31), v < 32 := by
    intro h v hv
    rw [List.mem_map] at hv
    obtain ⟨c, -, rfl⟩ := hv
    rw [and31]; exact Nat.mod_lt _ (by decide)
  have hd : differing (hrp ++ 49 :: l.map char) (hrp' ++ 49 :: l'.map char) =
      differing (hrp.map (fun c => c &&& 31) ++ l) (hrp'.map (fun c => c &&& 31) ++ l') := by
    rw [differing_append _ _ hh, differing_append _ _ (by simpa using hh), differing, if_pos rfl, Nat.zero_add,
      differing_map_inj char l l' (fun a ha b hb => char_inj a (h1 a ha) b (h1' b hb)),
      differing_map_inj (fun c => c &&& 31) hrp hrp']
    intro a ha b hb e
    have ha' := isLower_iff.mp (hl.2.2 a ha)
    have hb' := isLower_iff.mp (hl'.2.2 b hb)
    simp only [and31] at e
    omega
  have hlt : ∀ (h : Str) (l : List Nat), (∀ v ∈ l, v < 32) → ∀ v ∈ h.map (fun c => c &&& 31) ++ l, v < 32 := by
    intro h l hl v hv
    rw [List.mem_append] at hv
    rcases hv with hv | hv
    · exact hm h v hv
    · exact hl v hv
  rw [expand_letters hl, List.append_assoc] at h4
  rw [expand_letters hl', ← hh, List.append_assoc] at h4'
  rcases words_far (p := List.replicate hrp.length 3 ++ [0]) (l := hrp.map (fun c => c &&& 31) ++ l)
    (l' := hrp'.map (fun c => c &&& 31) ++ l') (by simp; omega) (by simp at h3 ⊢; omega) (hlt _ _ h1) (hlt _ _ h1')
    (h4.trans h4'.symm) with he | he
  · left
    apply differing_zero hs
    rw [hd, he]
    have : ∀ x : List Nat, differing x x = 0 := by
      intro x; induction x with
      | nil => rfl
      | cons a x ih => rw [differing, if_pos rfl, ih]
    exact this _
  · right; rw [hd]; exact he

end Verif.Address
