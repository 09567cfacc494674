import Verif.Bootstrap.Spec
import Verif.Codec.Props

/-!
# Reading and writing bootstrap files
-/

namespace Verif.Bootstrap
open Verif Codec Codec.Spec Bootstrap.Spec
variable {σ B : Type}

theorem fill_reads (want : Nat) : ∀ (r : Reader) (buf bs : Bytes), Reads r bs →
    ∃ r', fill want buf r = .ok (buf ++ bs.take (want - buf.length), r') ∧ Reads r' (bs.drop (want - buf.length)) := by
  intro r
  induction r with
  | nil =>
    rintro buf bs ⟨ps, h0, h1, h2⟩
    have : ps = [] := by cases ps with | nil => rfl | cons => cases h1
    subst this
    simp only [List.flatten_nil] at h2
    subst h2
    exact ⟨[], by simp [fill], [], by simp, rfl, by simp⟩
  | cons x r ih =>
    rintro buf bs ⟨ps, h0, h1, h2⟩
    cases ps with
    | nil => cases h1
    | cons d ps =>
      simp only [List.map_cons, List.cons.injEq] at h1
      obtain ⟨rfl, rfl⟩ := h1
      have hd : d ≠ [] := fun h => h0 (h ▸ List.mem_cons_self ..)
      have h0' : [] ∉ ps := fun h => h0 (List.mem_cons_of_mem _ h)
      simp only [List.flatten_cons] at h2
      rw [fill]
      by_cases hlt : buf.length < want
      · rw [if_pos hlt, if_neg hd]
        by_cases hl : want - buf.length < d.length
        · rw [if_pos hl]
          refine ⟨_, by rw [← h2, List.take_append_of_le_length (by omega)]; rfl, d.drop (want - buf.length) :: ps, ?_, rfl, ?_⟩
          · intro hm
            rcases List.mem_cons.1 hm with hm | hm
            · have := congrArg List.length hm
              simp only [List.length_nil, List.length_drop] at this
              omega
            · exact h0' hm
          · rw [← h2, List.drop_append_of_le_length (by omega)]; rfl
        · rw [if_neg hl]
          obtain ⟨r', e1, e2⟩ := ih (buf ++ d) ps.flatten ⟨ps, h0', rfl, rfl⟩
          have hw : want - (buf ++ d).length = want - buf.length - d.length := by simp only [List.length_append]; omega
          rw [hw] at e1 e2
          refine ⟨r', ?_, ?_⟩
          · rw [e1, ← h2, List.take_append, List.take_of_length_le (l := d) (by omega), List.append_assoc]
          · rw [← h2, List.drop_append, List.drop_eq_nil_of_le (as := d) (by omega), List.nil_append]; exact e2
      · rw [if_neg hlt]
        have hz : want - buf.length = 0 := by omega
        rw [hz]
        refine ⟨_, by simp, d :: ps, h0, rfl, by simpa using h2⟩

theorem fill_reads0 {want : Nat} {r : Reader} {bs : Bytes} (h : Reads r bs) :
    ∃ r', fill want [] r = .ok (bs.take want, r') ∧ Reads r' (bs.drop want) := by
  obtain ⟨r', e1, e2⟩ := fill_reads want r [] bs h
  exact ⟨r', by simpa using e1, by simpa using e2⟩

/-! ### blocks -/

variable {c : Codec B} {fits : B → Prop}

theorem readBlock_reads {r : Reader} {bs : Bytes} (h : Reads r bs) :
    ∃ r1 r2, Reads r1 (bs.drop 4) ∧ Reads r2 ((bs.drop 4).drop (leNat (bs.take 4))) ∧
      readBlock c r = (do
        ensure ((bs.take 4).length = 4) Err.badFormat
        ensure (leNat (bs.take 4) ≤ maxBlockSize) (Err.tooBig (leNat (bs.take 4)))
        ensure (((bs.drop 4).take (leNat (bs.take 4))).length = leNat (bs.take 4)) Err.badFormat
        let b ← okOr (c.decodeAll ((bs.drop 4).take (leNat (bs.take 4)))) Err.deserialization
        pure (b, r2)) := by
  obtain ⟨r1, e1, h1⟩ := fill_reads0 (want := 4) h
  obtain ⟨r2, e2, h2⟩ := fill_reads0 (want := leNat (bs.take 4)) h1
  refine ⟨r1, r2, h1, h2, ?_⟩
  unfold readBlock
  rw [e1]
  simp only [bind, Except.bind]
  rw [e2]

theorem readBlock_frame (hx : Exact c fits) {r : Reader} {b : B} {rest : Bytes} (hb : fits b) (hs : (c.enc b).length ≤ maxBlockSize)
    (h : Reads r (frames [c.enc b] ++ rest)) : ∃ r', readBlock c r = .ok (b, r') ∧ Reads r' rest := by
  obtain ⟨r1, r2, h1, h2, e⟩ := readBlock_reads (c := c) h
  have hf : frames [c.enc b] ++ rest = leBytes 4 (c.enc b).length ++ (c.enc b ++ rest) := by simp [frames]
  have ht : (frames [c.enc b] ++ rest).take 4 = leBytes 4 (c.enc b).length := by
    rw [hf, List.take_append_of_le_length (by rw [leBytes_length]), List.take_of_length_le (by rw [leBytes_length])]
  have hd : (frames [c.enc b] ++ rest).drop 4 = c.enc b ++ rest := by
    rw [hf, List.drop_append, List.drop_eq_nil_of_le (by rw [leBytes_length]), leBytes_length]; rfl
  have hm : (c.enc b).length < 256 ^ 4 := Nat.lt_of_le_of_lt hs (by decide)
  rw [ht, hd, leNat_leBytes, Nat.mod_eq_of_lt hm, List.take_left] at e
  rw [ht, hd, leNat_leBytes, Nat.mod_eq_of_lt hm, List.drop_left] at h2
  refine ⟨r2, ?_, h2⟩
  rw [e, leBytes_length, (C46_decode_all hx (c.enc b) b).2 ⟨hb, rfl⟩]
  simp only [ensure, if_true, decide_true, bind, Except.bind, okOr, pure, Except.pure, if_pos hs]

theorem readBlock_inv (hx : Exact c fits) {r : Reader} {bs : Bytes} (h : Reads r bs) {b : B} {r' : Reader} (he : readBlock c r = .ok (b, r')) :
    ∃ rest, fits b ∧ bs = frames [c.enc b] ++ rest ∧ (c.enc b).length ≤ maxBlockSize ∧ Reads r' rest := by
  obtain ⟨r1, r2, h1, h2, e⟩ := readBlock_reads (c := c) h
  rw [e] at he
  obtain ⟨u1, c1, he⟩ := bind_eq_ok.1 he
  obtain ⟨u2, c2, he⟩ := bind_eq_ok.1 he
  obtain ⟨u3, c3, he⟩ := bind_eq_ok.1 he
  obtain ⟨b', c4, he⟩ := bind_eq_ok.1 he
  simp only [pure, Except.pure, Except.ok.injEq, Prod.mk.injEq] at he
  obtain ⟨rfl, rfl⟩ := he
  have c1 := ensure_eq_ok.1 c1
  have c2 := ensure_eq_ok.1 c2
  have c3 := ensure_eq_ok.1 c3
  have c4 := (C46_decode_all hx _ _).1 (okOr_eq_ok.1 c4)
  refine ⟨(bs.drop 4).drop (leNat (bs.take 4)), c4.1, ?_, ?_, h2⟩
  · have hlen : (c.enc b').length = leNat (bs.take 4) := by rw [← c4.2]; exact c3
    have h4 : leBytes 4 (leNat (bs.take 4)) = bs.take 4 := leBytes_of_leNat c1 rfl
    simp only [frames, List.flatMap_cons, List.flatMap_nil, List.append_nil]
    rw [hlen, h4, ← c4.2, List.append_assoc, List.take_append_drop, List.take_append_drop]
  · rw [← c4.2, c3]; exact c2

theorem readBlock_short {r : Reader} {b p q : Bytes} (hs : b.length ≤ maxBlockSize) (hq : q ≠ []) (hf : p ++ q = frames [b])
    (h : Reads r p) : readBlock c r = .error .badFormat := by
  obtain ⟨r1, r2, h1, h2, e⟩ := readBlock_reads (c := c) h
  rw [e]
  have hf' : p ++ q = leBytes 4 b.length ++ b := by simpa [frames] using hf
  have hl := congrArg List.length hf'
  simp only [List.length_append, leBytes_length] at hl
  have hq' : 0 < q.length := List.length_pos_iff.2 hq
  have hm : b.length < 256 ^ 4 := Nat.lt_of_le_of_lt hs (by decide)
  by_cases h4 : 4 ≤ p.length
  · have ht : p.take 4 = leBytes 4 b.length := by
      have := congrArg (List.take 4) hf'
      rw [List.take_append_of_le_length h4, List.take_append_of_le_length (by rw [leBytes_length]),
        List.take_of_length_le (l := leBytes 4 b.length) (by rw [leBytes_length])] at this
      exact this
    rw [ht, leNat_leBytes, Nat.mod_eq_of_lt hm, leBytes_length]
    have hne : ((p.drop 4).take b.length).length ≠ b.length := by
      simp only [List.length_take, List.length_drop]
      omega
    simp only [ensure, if_true, bind, Except.bind, if_pos hs, if_neg hne]
  · have hne : (p.take 4).length ≠ 4 := by simp only [List.length_take]; omega
    simp only [ensure, if_neg hne, bind, Except.bind]

/-! ### the loop -/

theorem frames_cons (b : Bytes) (bs : List Bytes) : frames (b :: bs) = frames [b] ++ frames bs := by simp [frames]

theorem frames_append (a b : List Bytes) : frames (a ++ b) = frames a ++ frames b := by simp [frames]

theorem importBlocks_frames (hx : Exact c fits) (f : Handler σ B) : ∀ (bl : List B) {r : Reader} {rest : Bytes} (s : σ),
    (∀ b ∈ bl, fits b ∧ (c.enc b).length ≤ maxBlockSize) → Reads r (frames (bl.map c.enc) ++ rest) →
    importBlocks c f bl.length r s = feed f bl s
  | [], _, _, s, _, _ => rfl
  | b :: bl, r, rest, s, hb, h => by
    rw [List.map_cons, frames_cons, List.append_assoc] at h
    obtain ⟨r', e, h'⟩ := readBlock_frame hx (hb b (List.mem_cons_self ..)).1 (hb b (List.mem_cons_self ..)).2 h
    rw [List.length_cons, importBlocks, e, feed]
    simp only
    rcases hfb : f s b with ⟨s', x | x⟩
    · rfl
    · cases x
      · rfl
      · exact importBlocks_frames hx f bl s' (fun b hb' => hb b (List.mem_cons_of_mem _ hb')) h'

theorem importBlocks_inv (hx : Exact c fits) {f : Handler σ B} (hf : GoesOn f) : ∀ (n : Nat) {r : Reader} {bs : Bytes} {s s' : σ} {res},
    Reads r bs → importBlocks c f n r s = (s', res) →
    ∃ bl r2 rest, (∀ b ∈ bl, fits b) ∧ feed f bl s = (s', r2) ∧ bs = frames (bl.map c.enc) ++ rest ∧ bl.length ≤ n ∧
      (r2 = res ∨ r2 = .ok () ∧ ∃ e, res = .error e) ∧ (res = .ok () → bl.length = n)
  | 0, r, bs, s, s', res, h, e => by
    simp only [importBlocks, Prod.mk.injEq] at e
    obtain ⟨rfl, rfl⟩ := e
    exact ⟨[], .ok (), bs, by simp, rfl, by simp [frames], Nat.le_refl _, .inl rfl, fun _ => rfl⟩
  | n + 1, r, bs, s, s', res, h, e => by
    rw [importBlocks] at e
    cases hr : readBlock c r with
    | error x =>
      rw [hr] at e
      simp only [Prod.mk.injEq] at e
      obtain ⟨rfl, rfl⟩ := e
      exact ⟨[], .ok (), bs, by simp, rfl, by simp [frames], Nat.zero_le _, .inr ⟨rfl, x, rfl⟩, fun h => by cases h⟩
    | ok p =>
      obtain ⟨b, r1⟩ := p
      rw [hr] at e
      obtain ⟨rest, hb, rfl, -, h1⟩ := readBlock_inv hx h hr
      simp only at e
      rcases hfb : f s b with ⟨s1, x | x⟩
      · rw [hfb] at e
        simp only [Prod.mk.injEq] at e
        obtain ⟨rfl, rfl⟩ := e
        exact ⟨[b], .error x, rest, by simpa using hb, by simp [feed, hfb], by simp, by simp, .inl rfl, fun h => by cases h⟩
      · cases x with
        | false => exact absurd (by rw [hfb]) (hf s b)
        | true =>
          rw [hfb] at e
          obtain ⟨bl, r2, rest', g1, g2, g3, g4, g5, g6⟩ := importBlocks_inv hx hf n h1 e
          refine ⟨b :: bl, r2, rest', ?_, ?_, ?_, ?_, g5, fun h => by rw [List.length_cons, g6 h]⟩
          · intro y hy
            rcases List.mem_cons.1 hy with rfl | hy
            · exact hb
            · exact g1 y hy
          · rw [feed, hfb]; exact g2
          · rw [List.map_cons, frames_cons _ (bl.map c.enc), List.append_assoc, ← g3]
          · rw [List.length_cons]; omega

/-- a cut file: the blocks wholly contained in it are processed, then an error is reported -/
theorem importBlocks_cut (hx : Exact c fits) {f : Handler σ B} (hf : GoesOn f) : ∀ (bl : List B) {r : Reader} {p q : Bytes} (s : σ),
    (∀ b ∈ bl, fits b ∧ (c.enc b).length ≤ maxBlockSize) → q ≠ [] → p ++ q = frames (bl.map c.enc) → Reads r p →
    ∃ k, k < bl.length ∧ (frames ((bl.take k).map c.enc)).length ≤ p.length ∧ p.length < (frames ((bl.take (k + 1)).map c.enc)).length ∧
      importBlocks c f bl.length r s = match feed f (bl.take k) s with
        | (s', .error e) => (s', .error e)
        | (s', .ok ()) => (s', .error .badFormat)
  | [], r, p, q, s, _, hq, h, _ => by
    simp only [List.map_nil, frames, List.flatMap_nil, List.append_eq_nil_iff] at h
    exact absurd h.2 hq
  | b :: bl, r, p, q, s, hb, hq, h, hr => by
    have hb0 := hb b (List.mem_cons_self ..)
    rw [List.map_cons, frames_cons] at h
    by_cases hl : p.length < (frames [c.enc b]).length
    · refine ⟨0, by simp, by simp [frames], ?_, ?_⟩
      · simpa using hl
      · rcases List.append_eq_append_iff.1 h with ⟨a, ha, hq'⟩ | ⟨a, ha, _⟩
        · have hane : a ≠ [] := by
            rintro rfl
            rw [List.append_nil] at ha
            rw [ha] at hl
            exact Nat.lt_irrefl _ hl
          rw [List.length_cons, importBlocks, readBlock_short hb0.2 hane ha.symm hr]
          rfl
        · have := congrArg List.length ha
          simp only [List.length_append] at this
          omega
    · rcases List.append_eq_append_iff.1 h with ⟨a, ha, hq'⟩ | ⟨a, ha, ha'⟩
      · have := congrArg List.length ha
        simp only [List.length_append] at this
        have ha0 : a = [] := List.length_eq_zero_iff.1 (by omega)
        subst ha0
        rw [List.nil_append] at hq'
        rw [List.append_nil] at ha
        have hpe : p = frames [c.enc b] ++ [] := by rw [List.append_nil]; exact ha.symm
        obtain ⟨r', e, h'⟩ := readBlock_frame hx hb0.1 hb0.2 (hpe ▸ hr)
        exact step hx hf bl s hb hq hb0 e h' (by simpa using hq') hpe
      · obtain ⟨r', e, h'⟩ := readBlock_frame hx hb0.1 hb0.2 (ha ▸ hr)
        exact step hx hf bl s hb hq hb0 e h' ha'.symm ha
where
  step (hx : Exact c fits) {f : Handler σ B} (hf : GoesOn f) (bl : List B) {b : B} {r r' : Reader} {p q a : Bytes} (s : σ)
    (hb : ∀ x ∈ b :: bl, fits x ∧ (c.enc x).length ≤ maxBlockSize) (hq : q ≠ []) (hb0 : fits b ∧ (c.enc b).length ≤ maxBlockSize)
    (e : readBlock c r = .ok (b, r')) (h' : Reads r' a) (ha : a ++ q = frames (bl.map c.enc)) (hp : p = frames [c.enc b] ++ a) :
    ∃ k, k < (b :: bl).length ∧ (frames (((b :: bl).take k).map c.enc)).length ≤ p.length ∧ p.length < (frames (((b :: bl).take (k + 1)).map c.enc)).length ∧
      importBlocks c f (b :: bl).length r s = match feed f ((b :: bl).take k) s with
        | (s', .error e) => (s', .error e)
        | (s', .ok ()) => (s', .error .badFormat) := by
    rcases hfb : f s b with ⟨s1, x⟩
    obtain ⟨k, k1, k2, k3, k4⟩ := importBlocks_cut hx hf bl s1 (fun x hx => hb x (List.mem_cons_of_mem _ hx)) hq ha h'
    refine ⟨k + 1, by simp only [List.length_cons]; omega, ?_, ?_, ?_⟩
    · rw [List.take_succ_cons, List.map_cons, frames_cons, hp, List.length_append, List.length_append]; omega
    · rw [List.take_succ_cons, List.map_cons, frames_cons, hp, List.length_append, List.length_append]; omega
    · rw [List.length_cons, importBlocks, e, List.take_succ_cons, feed]
      simp only [hfb]
      cases x with
      | error x => rfl
      | ok x =>
        cases x with
        | false => exact absurd (by rw [hfb]) (hf s b)
        | true => exact k4

/-! ### the header -/

theorem start_length {chain : Bytes} {n : Nat} (hc : chain.length = 4) : (start chain n).length = 24 := by
  simp only [start, List.length_append, leBytes_length, hc, List.length_cons, List.length_nil]

theorem header_enc {chain : Bytes} {n : Nat} : Header.codec.enc ⟨fileMagic, chain, 0, n⟩ = start chain n := by
  simp only [Header.codec, iso, pair, bytesN, uint, start, fileMagic, List.append_assoc]
  rfl

theorem header_lawful : Lawful Header.codec := by
  unfold Header.codec
  exact lawful_iso inferInstance (fun _ => rfl) (fun _ => rfl)

theorem checkLegacy_start {chain : Bytes} {n : Nat} : checkLegacy (start chain n) = .ok () := by
  simp only [checkLegacy, ensure, start, chainMagics, List.any_cons, List.any_nil, List.cons_append]
  rfl

theorem readHeader_start {chain : Bytes} {n : Nat} {rest : Bytes} {r : Reader} (hc : chain.length = 4) (hn : n < 2 ^ 64)
    (h : Reads r (start chain n ++ rest)) : ∃ r', readHeader chain r = .ok (n, r') ∧ Reads r' rest := by
  obtain ⟨r', e, h'⟩ := fill_reads0 (want := headerSize) h
  have hl : (start chain n).length = headerSize := start_length hc
  rw [List.take_append_of_le_length (by rw [hl]), List.take_of_length_le (by rw [hl])] at e
  rw [List.drop_append, List.drop_eq_nil_of_le (by rw [hl]), hl, Nat.sub_self, List.drop_zero, List.nil_append] at h'
  refine ⟨r', ?_, h'⟩
  unfold readHeader
  have hd : Header.codec.decodeAll (start chain n) = some ⟨fileMagic, chain, 0, n⟩ := by
    have := header_lawful.round ⟨fileMagic, chain, 0, n⟩ [] ⟨rfl, hc, by show 0 < 256 ^ 4; decide, hn⟩
    rw [header_enc, List.append_nil] at this
    simp only [Codec.decodeAll, this]
  rw [e]
  simp only [bind, Except.bind, ensure, hl, checkLegacy_start, hd, okOr, if_true, decide_true, pure, Except.pure]

theorem readHeader_other {chain chain' : Bytes} {n : Nat} {rest : Bytes} {r : Reader} (hc : chain'.length = 4) (hne : chain' ≠ chain) (hn : n < 2 ^ 64)
    (h : Reads r (start chain' n ++ rest)) : readHeader chain r = .error .wrongChain := by
  obtain ⟨r', e, h'⟩ := fill_reads0 (want := headerSize) h
  have hl : (start chain' n).length = headerSize := start_length hc
  rw [List.take_append_of_le_length (by rw [hl]), List.take_of_length_le (by rw [hl])] at e
  unfold readHeader
  have hd : Header.codec.decodeAll (start chain' n) = some ⟨fileMagic, chain', 0, n⟩ := by
    have := header_lawful.round ⟨fileMagic, chain', 0, n⟩ [] ⟨rfl, hc, by show 0 < 256 ^ 4; decide, hn⟩
    rw [header_enc, List.append_nil] at this
    simp only [Codec.decodeAll, this]
  rw [e]
  simp only [bind, Except.bind, ensure, hl, checkLegacy_start, hd, okOr, if_true, decide_true]
  rw [if_neg hne]

theorem readHeader_short {chain : Bytes} {bs : Bytes} {r : Reader} (h : Reads r bs) (hl : bs.length < 24) : readHeader chain r = .error .tooSmall := by
  obtain ⟨r', e, -⟩ := fill_reads0 (want := headerSize) h
  rw [List.take_of_length_le (i := headerSize) (Nat.le_of_lt hl)] at e
  unfold readHeader
  rw [e]
  simp only [bind, Except.bind, ensure]
  rw [if_neg (by show ¬ bs.length = 24; omega)]

theorem readHeader_inv {chain : Bytes} {n : Nat} {bs : Bytes} {r r' : Reader} (h : Reads r bs) (he : readHeader chain r = .ok (n, r')) :
    ∃ rest, bs = start chain n ++ rest ∧ Reads r' rest ∧ n < 2 ^ 64 ∧ chain.length = 4 := by
  obtain ⟨r1, e, h1⟩ := fill_reads0 (want := headerSize) h
  unfold readHeader at he
  rw [e] at he
  obtain ⟨p, c0, he⟩ := bind_eq_ok.1 he
  cases c0
  obtain ⟨u1, c1, he⟩ := bind_eq_ok.1 he
  obtain ⟨u2, c2, he⟩ := bind_eq_ok.1 he
  obtain ⟨hd, c3, he⟩ := bind_eq_ok.1 he
  obtain ⟨u4, c4, he⟩ := bind_eq_ok.1 he
  obtain ⟨u5, c5, he⟩ := bind_eq_ok.1 he
  obtain ⟨u6, c6, he⟩ := bind_eq_ok.1 he
  simp only [pure, Except.pure, Except.ok.injEq, Prod.mk.injEq] at he
  obtain ⟨rfl, rfl⟩ := he
  have c3 := (C46_decode_all (exact_of header_lawful (fun _ => Iff.rfl)) _ _).1 (okOr_eq_ok.1 c3)
  have d4 := ensure_eq_ok.1 c4
  have d5 := ensure_eq_ok.1 c5
  have d6 := ensure_eq_ok.1 c6
  obtain ⟨hf, hch, hv, hn⟩ := hd
  simp only at d4 d5 d6
  subst d4
  subst d5
  subst d6
  rw [header_enc] at c3
  refine ⟨bs.drop headerSize, ?_, h1, c3.1.2.2.2, c3.1.2.1⟩
  rw [← c3.2, List.take_append_drop]

end Verif.Bootstrap
