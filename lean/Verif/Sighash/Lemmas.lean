import Verif.Sighash.Spec
import Verif.Codec.Fits
import Verif.Codec.TypeLaws

/-!
Lemmas about the signed message and the commitments.
-/
namespace Verif.Sighash

open Verif Verif.Codec Verif.Sighash.Spec

theorem and_7f (m : UInt8) : (m &&& 0x7f).toNat = m.toNat % 128 := by
  rw [UInt8.toNat_and]
  exact Nat.and_two_pow_sub_one_eq_mod m.toNat 7

theorem outputsMode_eq (m : UInt8) : outputsMode m =
    if m.toNat % 128 = 2 then .none else if m.toNat % 128 = 3 then .single else .all := by
  have h2 : m &&& 0x7f = 2 ↔ m.toNat % 128 = 2 := by
    rw [← UInt8.toNat_inj, and_7f]; rfl
  have h3 : m &&& 0x7f = 3 ↔ m.toNat % 128 = 3 := by
    rw [← UInt8.toNat_inj, and_7f]; rfl
  unfold outputsMode
  simp only [h2, h3]

theorem anyone_fin : ∀ n : Fin 256, (UInt8.ofNat n.val &&& 0x80 == 0x80) = decide (128 ≤ n.val) := by
  decide +kernel

theorem anyone_eq (m : UInt8) : anyoneCanPay m = decide (128 ≤ m.toNat) := by
  have h := anyone_fin ⟨m.toNat, m.toNat_lt⟩
  simpa [anyoneCanPay] using h

theorem enc_inj {α : Type} {c : Codec α} (hc : Lawful c) {a b : α} {r s : Bytes} (ha : c.ok a)
    (hb : c.ok b) : c.enc a ++ r = c.enc b ++ s ↔ a = b ∧ r = s := by
  constructor
  · intro he
    have h1 := hc.round a r ha
    rw [he, hc.round b s hb] at h1
    simp only [Option.some.injEq, Prod.mk.injEq] at h1
    exact ⟨h1.1.symm, h1.2.symm⟩
  · rintro ⟨rfl, rfl⟩; rfl

theorem many_inj {α : Type} {c : Codec α} (hc : Lawful c) {l m : List α} {r s : Bytes}
    (hl : ∀ a ∈ l, c.ok a) (hm : ∀ a ∈ m, c.ok a) (hn : l.length = m.length) :
    encMany c l ++ r = encMany c m ++ s ↔ l = m ∧ r = s := by
  constructor
  · intro he
    have h1 := decMany_encMany hc l r hl
    rw [he, hn, decMany_encMany hc m s hm] at h1
    simp only [Option.some.injEq, Prod.mk.injEq] at h1
    exact ⟨h1.1.symm, h1.2.symm⟩
  · rintro ⟨rfl, rfl⟩; rfl

/-- The bytes of the inputs, in terms of the view. -/
def paidBytes (k : Crypto) (mode : UInt8) (l : List (TxInput × InputCommitment)) : Bytes :=
  if mode.toNat < 128 then
    (uint 4).enc (l.length % 2 ^ 32) ++ (encMany (TxInput.codec k) (l.map Prod.fst) ++
      ((uint 4).enc (l.length % 2 ^ 32) ++ encMany (InputCommitment.codec k) (l.map Prod.snd)))
  else encMany (TxInput.codec k) (l.map Prod.fst) ++ encMany (InputCommitment.codec k) (l.map Prod.snd)

/-- The bytes of the outputs, in terms of the view. -/
def outBytes (k : Crypto) (mode : UInt8) (l : List TxOutput) : Bytes :=
  if mode.toNat % 128 = 2 ∨ mode.toNat % 128 = 3 then encMany (TxOutput.codec k) l
  else (vec (TxOutput.codec k)).enc l

/-- The whole message, in terms of the view. -/
def message (k : Crypto) (t : Signable) (w : View) : Bytes :=
  w.mode :: (streamHead t ++ (paidBytes k w.mode w.paid ++ outBytes k w.mode w.outputs))

theorem streamInputs_ok {k : Crypto} {ins : List TxInput} {cs : List InputCommitment} {mode : UInt8}
    {i : Nat} (hi : i < ins.length) (hc : cs.length = ins.length) :
    streamInputs k ins cs mode ins[i] i = .ok (paidBytes k mode
      (if mode.toNat < 128 then ins.zip cs else ((ins.zip cs)[i]?).toList)) := by
  have hic : i < cs.length := by omega
  have hz : i < (ins.zip cs).length := by simp [List.length_zip]; omega
  unfold streamInputs paidBytes
  rw [anyone_eq]
  by_cases hm : mode.toNat < 128
  · have hm' : ¬ 128 ≤ mode.toNat := by omega
    have e1 : (ins.zip cs).map Prod.fst = ins := List.map_fst_zip (by omega)
    have e2 : (ins.zip cs).map Prod.snd = cs := List.map_snd_zip (by omega)
    have e3 : (ins.zip cs).length = ins.length := by simp [List.length_zip]; omega
    simp only [hm, hm', if_true, decide_false, Bool.false_eq_true, if_false, e1, e2, e3, hc]
    simp [ensure, hi, bind, Except.bind, pure, Except.pure]
  · have hm' : 128 ≤ mode.toNat := by omega
    rw [List.getElem?_eq_getElem hz, List.getElem?_eq_getElem hic]
    simp [hm, hm', ensure, hi, okOr, bind, Except.bind, pure, Except.pure, encMany]

theorem streamOutputs_ok {k : Crypto} {outs : List TxOutput} {mode : UInt8} {i : Nat}
    (h : mode.toNat % 128 = 3 → i < outs.length) :
    streamOutputs k outs mode i = .ok (outBytes k mode
      (if mode.toNat % 128 = 2 then [] else if mode.toNat % 128 = 3 then (outs[i]?).toList else outs)) := by
  unfold streamOutputs outBytes
  rw [outputsMode_eq]
  by_cases h2 : mode.toNat % 128 = 2
  · simp [h2, encMany, pure, Except.pure]
  · by_cases h3 : mode.toNat % 128 = 3
    · have := h h3
      simp [h3, this, okOr, bind, Except.bind, pure, Except.pure, encMany]
    · simp [h2, h3, pure, Except.pure]

theorem streamOutputs_err {k : Crypto} {outs : List TxOutput} {mode : UInt8} {i : Nat}
    (h3 : mode.toNat % 128 = 3) (h : outs.length ≤ i) :
    streamOutputs k outs mode i = .error (.invalidIndex i outs.length) := by
  unfold streamOutputs
  rw [outputsMode_eq]
  have : outs[i]? = none := by simp [h]
  simp [h3, this, okOr, bind, Except.bind]

/-- All outcomes. -/
theorem stream_eq (k : Crypto) (t : Signable) (cs : List InputCommitment) (mode : UInt8) (i : Nat) :
    stream k t cs mode i =
      match t.inputs with
      | none => .error .withoutInputs
      | some ins =>
        if ins.length ≤ i then .error (.invalidIndex i ins.length)
        else if cs.length ≠ ins.length then .error (.commitmentsCount cs.length ins.length)
        else if mode.toNat % 128 = 3 ∧ (t.outputs.getD []).length ≤ i then
          .error (.invalidIndex i (t.outputs.getD []).length)
        else .ok (message k t (view t cs mode i)) := by
  obtain ⟨ins, outs, v, f⟩ := t
  unfold stream
  cases ins with
  | none => rfl
  | some ins =>
    simp only [okOr, bind, Except.bind]
    by_cases h1 : ins.length ≤ i
    · rw [if_pos h1]
      have : ins[i]? = none := by simp [h1]
      simp only [this]
    · rw [if_neg h1]
      have h1' : i < ins.length := by omega
      simp only [List.getElem?_eq_getElem h1']
      by_cases h2 : cs.length = ins.length
      · rw [if_neg (by simp [h2])]
        simp only [ensure, h2, if_true]
        rw [streamInputs_ok h1' h2]
        by_cases h3 : mode.toNat % 128 = 3 ∧ (outs.getD []).length ≤ i
        · rw [if_pos h3]
          simp only [streamOutputs_err h3.1 h3.2]
        · rw [if_neg h3]
          simp only [streamOutputs_ok (k := k) (outs := outs.getD []) (mode := mode) (i := i)
            (fun h => by by_contra hh; exact h3 ⟨h, by omega⟩)]
          rfl
      · rw [if_pos h2]
        simp [ensure, h2]

theorem stream_ok_iff {k : Crypto} {t : Signable} {cs : List InputCommitment} {mode : UInt8} {i : Nat}
    {bs : Bytes} : stream k t cs mode i = .ok bs ↔
      (∃ ins, t.inputs = some ins ∧ i < ins.length ∧ cs.length = ins.length) ∧
      (mode.toNat % 128 = 3 → i < (t.outputs.getD []).length) ∧
      bs = message k t (view t cs mode i) := by
  rw [stream_eq]
  cases t.inputs with
  | none => simp
  | some ins =>
    simp only
    by_cases h1 : ins.length ≤ i
    · rw [if_pos h1]; simp; omega
    · rw [if_neg h1]
      by_cases h2 : cs.length = ins.length
      · rw [if_neg (by simp [h2])]
        by_cases h3 : mode.toNat % 128 = 3 ∧ (t.outputs.getD []).length ≤ i
        · rw [if_pos h3]; simp; omega
        · rw [if_neg h3]
          simp only [Except.ok.injEq, Option.some.injEq, exists_eq_left']
          constructor
          · rintro rfl; exact ⟨⟨by omega, h2⟩, by omega, rfl⟩
          · rintro ⟨_, _, rfl⟩; rfl
      · rw [if_pos h2]; simp [h2]

theorem zip_inj {α β : Type} {a b : List α} {c d : List β} (h1 : a.length = c.length)
    (h2 : b.length = d.length) : a.zip c = b.zip d ↔ a = b ∧ c = d := by
  constructor
  · intro h
    have e1 := congrArg (List.map Prod.fst) h
    have e2 := congrArg (List.map Prod.snd) h
    rw [List.map_fst_zip (by omega), List.map_fst_zip (by omega)] at e1
    rw [List.map_snd_zip (by omega), List.map_snd_zip (by omega)] at e2
    exact ⟨e1, e2⟩
  · rintro ⟨rfl, rfl⟩; rfl

theorem pairs_inj {α β : Type} {l m : List (α × β)} :
    l = m ↔ l.map Prod.fst = m.map Prod.fst ∧ l.map Prod.snd = m.map Prod.snd := by
  constructor
  · rintro rfl; simp
  · rintro ⟨h1, h2⟩
    rw [← List.zip_unzip l, ← List.zip_unzip m]
    simp [List.unzip_eq_map, h1, h2]

/-- The pairs of the view have a binary form. -/
structure PaidOk (k : Crypto) (mode : UInt8) (l : List (TxInput × InputCommitment)) : Prop where
  fst : ∀ x ∈ l.map Prod.fst, (TxInput.codec k).ok x
  snd : ∀ x ∈ l.map Prod.snd, (InputCommitment.codec k).ok x
  count : l.length < 2 ^ 32
  one : 128 ≤ mode.toNat → l.length = 1

theorem paid_inj {k : Crypto} {mode : UInt8} {l m : List (TxInput × InputCommitment)} {r s : Bytes}
    (hl : PaidOk k mode l) (hm : PaidOk k mode m) :
    paidBytes k mode l ++ r = paidBytes k mode m ++ s ↔ l = m ∧ r = s := by
  constructor
  · intro h
    unfold paidBytes at h
    by_cases hmode : mode.toNat < 128
    · simp only [hmode, if_true, List.append_assoc] at h
      have o1 : (uint 4).ok (l.length % 2 ^ 32) := by
        show _ < 256 ^ 4
        have := hl.count
        omega
      have o2 : (uint 4).ok (m.length % 2 ^ 32) := by
        show _ < 256 ^ 4
        have := hm.count
        omega
      obtain ⟨e1, h⟩ := (enc_inj (lawful_uint 4) o1 o2).1 h
      rw [Nat.mod_eq_of_lt hl.count, Nat.mod_eq_of_lt hm.count] at e1
      obtain ⟨e2, h⟩ := (many_inj (TxInput.lawful k) hl.fst hm.fst (by simpa using e1)).1 h
      obtain ⟨_, h⟩ := (enc_inj (lawful_uint 4) o1 o2).1 h
      obtain ⟨e3, h⟩ := (many_inj (InputCommitment.lawful k) hl.snd hm.snd (by simpa using e1)).1 h
      exact ⟨pairs_inj.2 ⟨e2, e3⟩, h⟩
    · simp only [hmode, if_false, List.append_assoc] at h
      have e1 : l.length = m.length := by rw [hl.one (by omega), hm.one (by omega)]
      obtain ⟨e2, h⟩ := (many_inj (TxInput.lawful k) hl.fst hm.fst (by simpa using e1)).1 h
      obtain ⟨e3, h⟩ := (many_inj (InputCommitment.lawful k) hl.snd hm.snd (by simpa using e1)).1 h
      exact ⟨pairs_inj.2 ⟨e2, e3⟩, h⟩
  · rintro ⟨rfl, rfl⟩; rfl

theorem out_inj {k : Crypto} {mode : UInt8} {l m : List TxOutput} (hl : (vec (TxOutput.codec k)).ok l)
    (hm : (vec (TxOutput.codec k)).ok m)
    (hlen : mode.toNat % 128 = 2 ∨ mode.toNat % 128 = 3 → l.length = m.length) :
    outBytes k mode l = outBytes k mode m ↔ l = m := by
  constructor
  · intro h
    unfold outBytes at h
    split at h
    · rename_i hc
      have := (many_inj (r := []) (s := []) (TxOutput.lawful k) hl.2 hm.2 (hlen hc)).1 (by rw [h])
      exact this.1
    · have := (enc_inj (r := []) (s := []) (lawful_vec (hc := TxOutput.lawful k)) hl hm).1 (by rw [h])
      exact this.1
  · rintro rfl; rfl

theorem head_inj {t u : Signable} {r s : Bytes} (hk : SameKind t u)
    (ht : ∀ f, t.flags = some f → f < 2 ^ 128) (hu : ∀ f, u.flags = some f → f < 2 ^ 128) :
    streamHead t ++ r = streamHead u ++ s ↔ (t.version = u.version ∧ t.flags = u.flags) ∧ r = s := by
  obtain ⟨ti, to', tv, tf⟩ := t
  obtain ⟨ui, uo, uv, uf⟩ := u
  obtain ⟨hv, hf⟩ := hk
  simp only at hv hf ht hu
  have flagsInj : ∀ r s : Bytes,
      encIfSome (uint 16).enc tf ++ r = encIfSome (uint 16).enc uf ++ s ↔ tf = uf ∧ r = s := by
    intro r s
    cases tf <;> cases uf
    · simp [encIfSome]
    · simp at hf
    · simp at hf
    · rename_i a b
      have oa : (uint 16).ok a := by
        show a < 256 ^ 16
        have := ht a rfl
        norm_num at this ⊢; exact this
      have ob : (uint 16).ok b := by
        show b < 256 ^ 16
        have := hu b rfl
        norm_num at this ⊢; exact this
      simp only [encIfSome, enc_inj (lawful_uint 16) oa ob, Option.some.injEq]
  unfold streamHead
  simp only [List.append_assoc]
  cases tv <;> cases uv
  · show encIfSome (uint 16).enc tf ++ r = encIfSome (uint 16).enc uf ++ s ↔ _
    rw [flagsInj]; simp
  · simp at hv
  · simp at hv
  · rename_i a b
    show a :: (encIfSome (uint 16).enc tf ++ r) = b :: (encIfSome (uint 16).enc uf ++ s) ↔ _
    simp only [List.cons.injEq, flagsInj, Option.some.injEq, and_assoc]

theorem mem_zip_toList {α β : Type} {a : List α} {b : List β} {i : Nat} {x : α × β}
    (h : x ∈ ((a.zip b)[i]?).toList) : x ∈ a.zip b := by
  simp only [Option.mem_toList] at h
  exact List.mem_of_getElem? h

theorem view_paidOk {k : Crypto} {t : Signable} {cs : List InputCommitment} {mode : UInt8} {i : Nat}
    (hf : Fits k t cs) {ins : List TxInput} (hi : t.inputs = some ins) (hlt : i < ins.length)
    (hc : cs.length = ins.length) : PaidOk k mode (view t cs mode i).paid := by
  have hmem : ∀ x ∈ (view t cs mode i).paid, x ∈ ins.zip cs := by
    intro x hx
    unfold view at hx
    simp only [hi, Option.getD_some] at hx
    split at hx
    · exact hx
    · exact mem_zip_toList hx
  obtain ⟨hn, hx⟩ := hf.inputs ins hi
  refine ⟨?_, ?_, ?_, ?_⟩
  · intro x h
    obtain ⟨y, hy, rfl⟩ := List.mem_map.1 h
    exact (TxInput.ok_iff k _).2 (hx _ (List.of_mem_zip (hmem y hy)).1)
  · intro x h
    obtain ⟨y, hy, rfl⟩ := List.mem_map.1 h
    exact (InputCommitment.ok_iff k _).2 (hf.commitments _ (List.of_mem_zip (hmem y hy)).2)
  · unfold view
    simp only [hi, Option.getD_some]
    split
    · simp [List.length_zip, -Nat.reducePow]; omega
    · have hz : i < (ins.zip cs).length := by simp [List.length_zip]; omega
      rw [List.getElem?_eq_getElem hz]; simp
  · intro hm
    unfold view
    have hz : i < (ins.zip cs).length := by simp [List.length_zip]; omega
    simp only [hi, Option.getD_some]
    rw [if_neg (by omega), List.getElem?_eq_getElem hz]; rfl

theorem view_outOk {k : Crypto} {t : Signable} {cs : List InputCommitment} {mode : UInt8} {i : Nat}
    (hf : Fits k t cs) : (vec (TxOutput.codec k)).ok (view t cs mode i).outputs := by
  rw [ok_vec]
  have h : (t.outputs.getD []).length < 2 ^ 32 ∧ ∀ x ∈ t.outputs.getD [], (TxOutput.codec k).ok x := by
    cases h : t.outputs with
    | none => simp
    | some l =>
      obtain ⟨h1, h2⟩ := hf.outputs l h
      exact ⟨h1, fun x hx => (TxOutput.ok_iff k x).2 (h2 x hx)⟩
  unfold view
  simp only
  split
  · simp
  · split
    · constructor
      · cases (t.outputs.getD [])[i]? <;> simp
      · intro x hx
        simp only [Option.mem_toList] at hx
        exact h.2 x (List.mem_of_getElem? hx)
    · exact h

theorem view_outLen {t : Signable} {cs : List InputCommitment} {mode : UInt8} {i : Nat}
    (h : mode.toNat % 128 = 3 → i < (t.outputs.getD []).length) :
    mode.toNat % 128 = 2 ∨ mode.toNat % 128 = 3 →
      (view t cs mode i).outputs.length = if mode.toNat % 128 = 2 then 0 else 1 := by
  intro hm
  unfold view
  simp only
  split
  · rfl
  · have h3 : mode.toNat % 128 = 3 := by omega
    rw [if_pos h3, List.getElem?_eq_getElem (h h3)]; rfl

theorem message_inj {k : Crypto} {t u : Signable} {cs ds : List InputCommitment} {m n : UInt8}
    {i j : Nat} {a b : Bytes} (hk : SameKind t u) (ht : Fits k t cs) (hu : Fits k u ds)
    (ha : stream k t cs m i = .ok a) (hb : stream k u ds n j = .ok b) :
    a = b ↔ view t cs m i = view u ds n j := by
  obtain ⟨⟨ins, hi, hlt, hc⟩, ho, rfl⟩ := stream_ok_iff.1 ha
  obtain ⟨⟨jns, hj, hlt', hd⟩, ho', rfl⟩ := stream_ok_iff.1 hb
  have p1 := view_paidOk (mode := m) ht hi hlt hc
  have p2 := view_paidOk (mode := n) hu hj hlt' hd
  have q1 := view_outOk (mode := m) (i := i) ht
  have q2 := view_outOk (mode := n) (i := j) hu
  have l1 := view_outLen (cs := cs) ho
  have l2 := view_outLen (cs := ds) ho'
  have hm1 : (view t cs m i).mode = m := rfl
  have hm2 : (view u ds n j).mode = n := rfl
  have hv1 : (view t cs m i).version = t.version := rfl
  have hv2 : (view u ds n j).version = u.version := rfl
  have hf1 : (view t cs m i).flags = t.flags := rfl
  have hf2 : (view u ds n j).flags = u.flags := rfl
  generalize view t cs m i = x at *
  generalize view u ds n j = y at *
  obtain ⟨xm, xv, xf, xp, xo⟩ := x
  obtain ⟨ym, yv, yf, yp, yo⟩ := y
  simp only at hm1 hm2 hv1 hv2 hf1 hf2 p1 p2 q1 q2 l1 l2
  subst hm1 hm2 hv1 hv2 hf1 hf2
  unfold message
  simp only [List.cons.injEq, View.mk.injEq]
  constructor
  · rintro ⟨rfl, h⟩
    obtain ⟨⟨e1, e2⟩, h⟩ := (head_inj hk ht.flags hu.flags).1 h
    obtain ⟨e3, h⟩ := (paid_inj p1 p2).1 h
    have e4 := (out_inj q1 q2 (fun hc => by rw [l1 hc, l2 hc])).1 h
    exact ⟨rfl, e1, e2, e3, e4⟩
  · rintro ⟨rfl, e1, e2, rfl, rfl⟩
    refine ⟨rfl, ?_⟩
    exact (head_inj hk ht.flags hu.flags).2 ⟨⟨e1, e2⟩, rfl⟩

/-! ### Commitments -/

theorem commitAll_get {f : TxInput → Nat → Except CErr InputCommitment} {xs : List TxInput} {n : Nat}
    {cs : List InputCommitment} : commitAll f n xs = .ok cs ↔
      cs.length = xs.length ∧ ∀ i (h : i < xs.length) (h' : i < cs.length),
        f xs[i] (n + i) = .ok cs[i] := by
  induction xs generalizing n cs with
  | nil => cases cs <;> simp [commitAll, pure, Except.pure]
  | cons x xs ih =>
    simp only [commitAll, bind_eq_ok, pure, Except.pure, Except.ok.injEq]
    constructor
    · rintro ⟨c, hc, ds, hd, rfl⟩
      obtain ⟨h1, h2⟩ := ih.1 hd
      refine ⟨by simp [h1], ?_⟩
      intro i h h'
      cases i with
      | zero => exact hc
      | succ i =>
        have := h2 i (by simpa using h) (by simpa using h')
        simp only [List.getElem_cons_succ]
        rw [show n + (i + 1) = n + 1 + i by omega]
        exact this
    · rintro ⟨hl, h⟩
      cases cs with
      | nil => simp at hl
      | cons c cs =>
        refine ⟨c, h 0 (by simp) (by simp), cs, ih.2 ⟨by simpa using hl, ?_⟩, rfl⟩
        intro i hi hi'
        have := h (i + 1) (by simpa using hi) (by simpa using hi')
        simp only [List.getElem_cons_succ] at this
        rw [show n + 1 + i = n + (i + 1) by omega]
        exact this

theorem commitAll_isOk {f : TxInput → Nat → Except CErr InputCommitment} {xs : List TxInput} {n : Nat} :
    (∃ cs, commitAll f n xs = .ok cs) ↔ ∀ i (h : i < xs.length), ∃ c, f xs[i] (n + i) = .ok c := by
  induction xs generalizing n with
  | nil => simp [commitAll, pure, Except.pure]
  | cons x xs ih =>
    constructor
    · rintro ⟨cs, h⟩ i hi
      obtain ⟨hl, h⟩ := commitAll_get.1 h
      exact ⟨_, h i hi (by omega)⟩
    · intro h
      obtain ⟨c, hc⟩ := h 0 (by simp)
      obtain ⟨cs, hcs⟩ := ih.2 (fun i hi => by
        obtain ⟨d, hd⟩ := h (i + 1) (by simpa using hi)
        simp only [List.getElem_cons_succ] at hd
        rw [show n + (i + 1) = n + 1 + i by omega] at hd
        exact ⟨d, hd⟩)
      refine ⟨c :: cs, ?_⟩
      simp only [commitAll, bind_eq_ok]
      exact ⟨c, hc, cs, hcs, rfl⟩

theorem commitAll_eq {f g : TxInput → Nat → Except CErr InputCommitment} {P : TxInput → Prop}
    {xs : List TxInput} {cs ds : List InputCommitment} (hf : commitAll f 0 xs = .ok cs)
    (hg : commitAll g 0 xs = .ok ds)
    (h : ∀ x i c d, x ∈ xs → f x i = .ok c → g x i = .ok d → (c = d ↔ P x)) :
    cs = ds ↔ ∀ x ∈ xs, P x := by
  obtain ⟨l1, h1⟩ := commitAll_get.1 hf
  obtain ⟨l2, h2⟩ := commitAll_get.1 hg
  constructor
  · rintro rfl x hx
    obtain ⟨i, hi, rfl⟩ := List.getElem_of_mem hx
    exact (h _ _ _ _ hx (h1 i hi (by omega)) (h2 i hi (by omega))).1 rfl
  · intro hp
    apply List.ext_getElem (by omega)
    intro i hi hi'
    have hx : i < xs.length := by omega
    exact (h _ _ _ _ (List.getElem_mem hx) (h1 i hx hi) (h2 i hx hi')).2 (hp _ (List.getElem_mem hx))

theorem commitFill_ok {v : Info} {o : Bytes} {i : Nat} {c : InputCommitment} :
    commitFill v o i = .ok c ↔
      ∃ q, v.order o = some q ∧ c = .fillOrder q.initiallyAsked q.initiallyGiven := by
  unfold commitFill
  simp only [bind_eq_ok, okOr_eq_ok, pure, Except.pure, Except.ok.injEq]
  exact ⟨fun ⟨q, h, e⟩ => ⟨q, h, e.symm⟩, fun ⟨q, h, e⟩ => ⟨q, h, e.symm⟩⟩

theorem commitConclude_ok {v : Info} {o : Bytes} {i : Nat} {c : InputCommitment} :
    commitConclude v o i = .ok c ↔ ∃ q, v.order o = some q ∧
      c = .concludeOrder q.initiallyAsked q.initiallyGiven q.askBalance q.giveBalance := by
  unfold commitConclude
  simp only [bind_eq_ok, okOr_eq_ok, pure, Except.pure, Except.ok.injEq]
  exact ⟨fun ⟨q, h, e⟩ => ⟨q, h, e.symm⟩, fun ⟨q, h, e⟩ => ⟨q, h, e.symm⟩⟩

/-- The commitment to an output, as a relation. -/
def UtxoCommitment (v : Info) (u : TxOutput) (c : InputCommitment) : Prop :=
  (∃ d p b, u = .produceBlockFromStake d p ∧ v.stakerBalance p = some b ∧
    c = .produceBlockFromStakeUtxo u b) ∨
  ((∀ d p, u ≠ .produceBlockFromStake d p) ∧ c = .utxo u)

theorem commitUtxo_ok {v : Info} {u : TxOutput} {i : Nat} {c : InputCommitment} :
    commitUtxo v u i = .ok c ↔ UtxoCommitment v u c := by
  unfold commitUtxo UtxoCommitment
  split
  · rename_i d p
    simp only [bind_eq_ok, okOr_eq_ok, pure, Except.pure, Except.ok.injEq]
    constructor
    · rintro ⟨b, h, rfl⟩; exact .inl ⟨d, p, b, rfl, h, rfl⟩
    · rintro (⟨d', p', b, e, h, rfl⟩ | ⟨h, _⟩)
      · cases e; exact ⟨b, h, rfl⟩
      · exact absurd rfl (h d p)
  · rename_i h
    simp only [pure, Except.pure, Except.ok.injEq]
    constructor
    · rintro rfl; exact .inr ⟨fun d p e => h d p e, rfl⟩
    · rintro (⟨d', p', b, e, _⟩ | ⟨_, rfl⟩)
      · exact absurd e (h d' p')
      · rfl

theorem commitV1_utxo {v : Info} {o : UtxoOutPoint} {i : Nat} {c : InputCommitment} :
    commitV1 v (.utxo o) i = .ok c ↔ ∃ u, v.utxo o = some u ∧ UtxoCommitment v u c := by
  simp only [commitV1, bind_eq_ok, okOr_eq_ok, commitUtxo_ok]

theorem commitV0_ok {v : Info} {x : TxInput} {i : Nat} {c : InputCommitment} :
    commitV0 v x i = .ok c ↔ (∃ d, commitV1 v x i = .ok d) ∧
      ((∃ o u, x = .utxo o ∧ v.utxo o = some u ∧ c = .utxo u) ∨ ((∀ o, x ≠ .utxo o) ∧ c = .none)) := by
  unfold commitV0
  simp only [bind_eq_ok]
  cases x with
  | utxo o =>
    simp only [bind_eq_ok, okOr_eq_ok, pure, Except.pure, Except.ok.injEq, TxInput.utxo.injEq]
    constructor
    · rintro ⟨d, hd, u, hu, rfl⟩
      exact ⟨⟨d, hd⟩, .inl ⟨o, u, rfl, hu, rfl⟩⟩
    · rintro ⟨⟨d, hd⟩, (⟨o', u, rfl, hu, rfl⟩ | ⟨h, _⟩)⟩
      · exact ⟨d, hd, u, hu, rfl⟩
      · exact absurd rfl (h o)
  | account a => simp [pure, Except.pure, eq_comm]
  | accountCommand n a => simp [pure, Except.pure, eq_comm]
  | orderAccountCommand a => simp [pure, Except.pure, eq_comm]

theorem commitV1_known {v : Info} {x : TxInput} {i : Nat} : (∃ c, commitV1 v x i = .ok c) ↔ Known v x := by
  cases x with
  | utxo o =>
    simp only [commitV1_utxo, Known]
    constructor
    · rintro ⟨c, u, hu, h⟩
      refine ⟨u, hu, ?_⟩
      rintro d p rfl
      rcases h with ⟨d', p', b, e, h, _⟩ | ⟨h, _⟩
      · cases e; simp [h]
      · exact absurd rfl (h d p)
    · rintro ⟨u, hu, h⟩
      by_cases hp : ∃ d p, u = .produceBlockFromStake d p
      · obtain ⟨d, p, rfl⟩ := hp
        obtain ⟨b, hb⟩ := Option.isSome_iff_exists.1 (h d p rfl)
        exact ⟨_, _, hu, .inl ⟨d, p, b, rfl, hb, rfl⟩⟩
      · exact ⟨_, u, hu, .inr ⟨fun d p e => hp ⟨d, p, e⟩, rfl⟩⟩
  | account a => simp [commitV1, Known, pure, Except.pure]
  | accountCommand n c =>
    cases c <;> simp [commitV1, Known, pure, Except.pure, commitFill_ok, commitConclude_ok,
      Option.isSome_iff_exists]
  | orderAccountCommand c =>
    cases c <;> simp [commitV1, Known, pure, Except.pure, commitFill_ok, commitConclude_ok,
      Option.isSome_iff_exists]

theorem commitV1_agree {v w : Info} {x : TxInput} {i j : Nat} {c d : InputCommitment}
    (hc : commitV1 v x i = .ok c) (hd : commitV1 w x j = .ok d) : c = d ↔ Agree v w x := by
  cases x with
  | utxo o =>
    obtain ⟨u, hu, h1⟩ := commitV1_utxo.1 hc
    obtain ⟨u', hu', h2⟩ := commitV1_utxo.1 hd
    simp only [Agree, hu, hu', Option.some.injEq]
    rcases h1 with ⟨d1, p1, b1, rfl, hb1, rfl⟩ | ⟨n1, rfl⟩
    · rcases h2 with ⟨d2, p2, b2, rfl, hb2, rfl⟩ | ⟨n2, rfl⟩
      · simp only [InputCommitment.produceBlockFromStakeUtxo.injEq]
        constructor
        · rintro ⟨e, rfl⟩
          refine ⟨e, ?_⟩
          rintro d p e'
          cases e; cases e'
          rw [hb1, hb2]
        · rintro ⟨e, h⟩
          refine ⟨e, ?_⟩
          have h := h _ _ rfl
          cases e
          rw [hb1, hb2] at h
          simpa using h
      · simp only [reduceCtorEq, false_iff, not_and]
        rintro rfl
        exact absurd rfl (n2 _ _)
    · rcases h2 with ⟨d2, p2, b2, rfl, hb2, rfl⟩ | ⟨n2, rfl⟩
      · simp only [reduceCtorEq, false_iff, not_and]
        intro e
        exact absurd e (n1 _ _)
      · simp only [InputCommitment.utxo.injEq]
        constructor
        · rintro rfl; exact ⟨rfl, fun d p e => absurd e (n1 d p)⟩
        · exact fun h => h.1
  | account a =>
    simp only [commitV1, pure, Except.pure, Except.ok.injEq] at hc hd
    subst hc hd; simp [Agree]
  | accountCommand n a =>
    cases a
    case concludeOrder o =>
      obtain ⟨q, hq, rfl⟩ := commitConclude_ok.1 hc
      obtain ⟨q', hq', rfl⟩ := commitConclude_ok.1 hd
      obtain ⟨_, _, _, _⟩ := q
      obtain ⟨_, _, _, _⟩ := q'
      simp [Agree, hq, hq']
    case fillOrder o _ _ =>
      obtain ⟨q, hq, rfl⟩ := commitFill_ok.1 hc
      obtain ⟨q', hq', rfl⟩ := commitFill_ok.1 hd
      simp [Agree, hq, hq']
    all_goals
      simp only [commitV1, pure, Except.pure, Except.ok.injEq] at hc hd
      subst hc hd; simp [Agree]
  | orderAccountCommand a =>
    cases a
    case concludeOrder o =>
      obtain ⟨q, hq, rfl⟩ := commitConclude_ok.1 hc
      obtain ⟨q', hq', rfl⟩ := commitConclude_ok.1 hd
      obtain ⟨_, _, _, _⟩ := q
      obtain ⟨_, _, _, _⟩ := q'
      simp [Agree, hq, hq']
    case fillOrder o _ =>
      obtain ⟨q, hq, rfl⟩ := commitFill_ok.1 hc
      obtain ⟨q', hq', rfl⟩ := commitFill_ok.1 hd
      simp [Agree, hq, hq']
    all_goals
      simp only [commitV1, pure, Except.pure, Except.ok.injEq] at hc hd
      subst hc hd; simp [Agree]

theorem commitV0_agree {v w : Info} {x : TxInput} {i j : Nat} {c d : InputCommitment}
    (hc : commitV0 v x i = .ok c) (hd : commitV0 w x j = .ok d) : c = d ↔ AgreeUtxo v w x := by
  obtain ⟨_, h1⟩ := commitV0_ok.1 hc
  obtain ⟨_, h2⟩ := commitV0_ok.1 hd
  rcases h1 with ⟨o, u, rfl, hu, rfl⟩ | ⟨n1, rfl⟩
  · rcases h2 with ⟨o', u', e, hu', rfl⟩ | ⟨n2, _⟩
    · cases e
      simp [AgreeUtxo, hu, hu']
    · exact absurd rfl (n2 o)
  · rcases h2 with ⟨o', u', e, _⟩ | ⟨n2, rfl⟩
    · exact absurd e (n1 o')
    · simp only [true_iff]
      cases x with
      | utxo o => exact absurd rfl (n1 o)
      | account a => trivial
      | accountCommand n a => trivial
      | orderAccountCommand a => trivial

theorem commit_simple {v : Info} {x : TxInput} {i j : Nat} {c d : InputCommitment}
    (hc : commitV0 v x i = .ok c) (hd : commitV1 v x j = .ok d) : c = d ↔ Simple v x := by
  obtain ⟨_, h1⟩ := commitV0_ok.1 hc
  cases x with
  | utxo o =>
    obtain ⟨u, hu, h2⟩ := commitV1_utxo.1 hd
    rcases h1 with ⟨o', u', e, hu', rfl⟩ | ⟨n1, _⟩
    · cases e
      rw [hu] at hu'; cases hu'
      simp only [Simple, hu, ne_eq, Option.some.injEq]
      rcases h2 with ⟨d2, p2, b2, rfl, hb2, rfl⟩ | ⟨n2, rfl⟩
      · simp
      · simpa using n2
    · exact absurd rfl (n1 o)
  | account a =>
    simp only [commitV1, pure, Except.pure, Except.ok.injEq] at hd
    subst hd
    simpa [Simple] using h1
  | accountCommand n a =>
    have h1 : c = .none := by simpa using h1
    subst h1
    cases a
    case concludeOrder o =>
      obtain ⟨q, hq, rfl⟩ := commitConclude_ok.1 hd
      simp [Simple]
    case fillOrder o _ _ =>
      obtain ⟨q, hq, rfl⟩ := commitFill_ok.1 hd
      simp [Simple]
    all_goals
      simp only [commitV1, pure, Except.pure, Except.ok.injEq] at hd
      subst hd; simp [Simple]
  | orderAccountCommand a =>
    have h1 : c = .none := by simpa using h1
    subst h1
    cases a
    case concludeOrder o =>
      obtain ⟨q, hq, rfl⟩ := commitConclude_ok.1 hd
      simp [Simple]
    case fillOrder o _ =>
      obtain ⟨q, hq, rfl⟩ := commitFill_ok.1 hd
      simp [Simple]
    all_goals
      simp only [commitV1, pure, Except.pure, Except.ok.injEq] at hd
      subst hd; simp [Simple]

theorem commitV1_fits {k : Crypto} {v : Info} (hv : InfoFits k v) {x : TxInput} {i : Nat}
    {c : InputCommitment} (hc : commitV1 v x i = .ok c) : c.Fits k := by
  cases x with
  | utxo o =>
    obtain ⟨u, hu, h1⟩ := commitV1_utxo.1 hc
    rcases h1 with ⟨d1, p1, b1, rfl, hb1, rfl⟩ | ⟨n1, rfl⟩
    · exact ⟨hv.utxo _ _ hu, hv.stakerBalance _ _ hb1⟩
    · exact hv.utxo _ _ hu
  | account a =>
    simp only [commitV1, pure, Except.pure, Except.ok.injEq] at hc
    subst hc; trivial
  | accountCommand n a =>
    cases a
    case concludeOrder o =>
      obtain ⟨q, hq, rfl⟩ := commitConclude_ok.1 hc
      exact hv.order _ _ hq
    case fillOrder o _ _ =>
      obtain ⟨q, hq, rfl⟩ := commitFill_ok.1 hc
      exact ⟨(hv.order _ _ hq).1, (hv.order _ _ hq).2.1⟩
    all_goals
      simp only [commitV1, pure, Except.pure, Except.ok.injEq] at hc
      subst hc; trivial
  | orderAccountCommand a =>
    cases a
    case concludeOrder o =>
      obtain ⟨q, hq, rfl⟩ := commitConclude_ok.1 hc
      exact hv.order _ _ hq
    case fillOrder o _ =>
      obtain ⟨q, hq, rfl⟩ := commitFill_ok.1 hc
      exact ⟨(hv.order _ _ hq).1, (hv.order _ _ hq).2.1⟩
    all_goals
      simp only [commitV1, pure, Except.pure, Except.ok.injEq] at hc
      subst hc; trivial

theorem commitments_v1_fits {k : Crypto} {v : Info} (hv : InfoFits k v) {xs : List TxInput}
    {cs : List InputCommitment} (h : commitments v .v1 xs = .ok cs) : ∀ c ∈ cs, c.Fits k := by
  obtain ⟨hl, h⟩ := commitAll_get.1 h
  intro c hc
  obtain ⟨i, hi, rfl⟩ := List.getElem_of_mem hc
  exact commitV1_fits hv (h i (by omega) hi)

end Verif.Sighash
