import Verif.Store.Lemmas
import Verif.Codec.Laws

/-!
# Transactions and typed maps: lemmas
-/

namespace Verif.Store
open Verif Verif.Codec

/-! ### Reading and committing -/

theorem maps_get_put (db : Maps) (i : Nat) (k v : Data) (j : Nat) (k' : Data) :
    (db.put i k v).get j k' = if j = i ∧ k' = k then some v else db.get j k' := by
  unfold Maps.put Maps.get
  by_cases hj : j = i
  · subst hj
    rw [Function.update_self, BMap.get_insert]
    simp
  · rw [Function.update_of_ne hj]
    simp [hj]

theorem maps_get_del (db : Maps) (i : Nat) (k : Data) (j : Nat) (k' : Data) :
    (db.del i k).get j k' = if j = i ∧ k' = k then none else db.get j k' := by
  unfold Maps.del Maps.get
  by_cases hj : j = i
  · subst hj
    rw [Function.update_self, BMap.get_erase]
    simp
  · rw [Function.update_of_ne hj]
    simp [hj]

theorem tx_get_update (t : TxRw) (i : Nat) (k : Data) (o : Option Data) (j : Nat) (k' : Data) :
    (t.update i k o).get j k' = if j = i ∧ k' = k then o else t.get j k' := by
  unfold TxRw.update TxRw.get
  by_cases hj : j = i
  · subst hj
    simp only [Function.update_self, BMap.get_insert]
    by_cases hk : k' = k <;> simp [hk]
  · simp [hj]

theorem commitEntry_get (i : Nat) (db : Maps) (e : Data × Option Data) (j : Nat) (k : Data) :
    (commitEntry i db e).get j k = if j = i ∧ k = e.1 then e.2 else db.get j k := by
  obtain ⟨k', o⟩ := e
  cases o with
  | none => exact maps_get_del ..
  | some v => exact maps_get_put ..

theorem commitEntries_other (i : Nat) (l : List (Data × Option Data)) (db : Maps) (j : Nat) (k : Data)
    (h : j = i → ∀ o, (k, o) ∉ l) : (l.foldl (commitEntry i) db).get j k = db.get j k := by
  induction l generalizing db with
  | nil => rfl
  | cons e l ih =>
    rw [List.foldl_cons, ih _ fun hj o ho => h hj o (List.mem_cons_of_mem _ ho), commitEntry_get, if_neg]
    rintro ⟨hj, hk⟩
    exact h hj e.2 (by rw [hk]; simp)

theorem commitEntries_mem (i : Nat) (l : List (Data × Option Data)) (hs : l.Pairwise (fun a b => a.1 < b.1))
    (db : Maps) (k : Data) (o : Option Data) (h : (k, o) ∈ l) : (l.foldl (commitEntry i) db).get i k = o := by
  induction l generalizing db with
  | nil => cases h
  | cons e l ih =>
    rw [List.pairwise_cons] at hs
    rw [List.foldl_cons]
    rcases List.mem_cons.1 h with h | h
    · subst h
      rw [commitEntries_other, commitEntry_get, if_pos ⟨rfl, rfl⟩]
      intro _ o' ho'
      exact lt_irrefl k (hs.1 (k, o') ho')
    · exact ih hs.2 _ h

theorem commit_get (n : Nat) (t : TxRw) (i : Nat) (k : Data) :
    (t.commit n).get i k = if i < n then t.get i k else t.db.get i k := by
  unfold TxRw.commit
  induction n with
  | zero => rfl
  | succ n ih =>
    rw [List.range_succ, List.foldl_append, List.foldl_cons, List.foldl_nil]
    by_cases hi : i = n
    · subst hi
      rw [if_pos (Nat.lt_succ_self _)]
      rw [if_neg (lt_irrefl _)] at ih
      cases hg : (t.deltas i).get k with
      | none =>
        rw [commitEntries_other, ih]
        · simp only [TxRw.get, hg]
        · intro _ o ho
          rw [BMap.mem_entries, hg] at ho
          cases ho
      | some o =>
        rw [commitEntries_mem i _ (t.deltas i).sorted _ k o (BMap.mem_entries.2 hg)]
        simp only [TxRw.get, hg]
    · rw [commitEntries_other _ _ _ _ _ fun h => absurd h hi, ih]
      by_cases h : i < n
      · rw [if_pos h, if_pos (Nat.lt_succ_of_lt h)]
      · rw [if_neg h, if_neg (by omega)]

/-! ### Listings -/

theorem Lists.congr {A : Type} {es : List (Data × A)} {f g : Data → Option A} {p : Data → Prop} (h : Lists es f p)
    (e : ∀ k, f k = g k) : Lists es g p :=
  ⟨h.1, fun k v => by rw [h.2, e]⟩

theorem tx_prefixIter_lists (t : TxRw) (i : Nat) (pre : Data) : Lists (t.prefixIter i pre) (t.get i) (pre <+: ·) :=
  (mergeIterators_lists (prefixIter_lists (t.db i) pre) (prefixIter_lists (t.deltas i) pre)).congr fun k => by
    simp only [TxRw.get, Maps.get]
    cases (t.deltas i).get k <;> rfl

theorem tx_geIter_lists (t : TxRw) (i : Nat) (key : Data) : Lists (t.geIter i key) (t.get i) (key ≤ ·) :=
  (mergeIterators_lists (rangeFrom_lists (t.db i) key) (rangeFrom_lists (t.deltas i) key)).congr fun k => by
    simp only [TxRw.get, Maps.get]
    cases (t.deltas i).get k <;> rfl

theorem showsRw_of {n : Nat} {t : TxRw} {w : Plain} (h : ∀ i < n, ∀ k, t.get i k = w i k) : ShowsRw n t w :=
  fun i hi => ⟨h i hi, fun pre => (tx_prefixIter_lists t i pre).congr (h i hi),
    fun key => (tx_geIter_lists t i key).congr (h i hi)⟩

theorem showsRo_of {n : Nat} {db : Maps} {w : Plain} (h : ∀ i < n, ∀ k, db.get i k = w i k) : ShowsRo n db w :=
  fun i hi => ⟨h i hi, fun pre => (prefixIter_lists (db i) pre).congr (h i hi),
    fun key => (rangeFrom_lists (db i) key).congr (h i hi)⟩

/-- one call keeps the agreement -/
theorem call_agree {n : Nat} {s : Shared} {p : Ideal} (h : Agree n s p) (c : Call) :
    match s.call n c, p.call c with
    | some s', some p' => Agree n s' p'
    | none, none => True
    | _, _ => False := by
  obtain ⟨db, rd, w⟩ := s
  obtain ⟨cm, rd', w'⟩ := p
  obtain ⟨hr, hd, hw⟩ := h
  simp only at hr hd hw
  subst hr
  cases w with
  | none =>
    cases w' with
    | some _ => exact absurd hw (by simp)
    | none =>
      cases c with
      | openRo => exact ⟨rfl, hd, trivial⟩
      | closeRo =>
        cases rd with
        | zero => trivial
        | succ m => exact ⟨rfl, hd, trivial⟩
      | openRw =>
        cases rd with
        | zero =>
          refine ⟨rfl, hd, showsRw_of fun i hi k => ?_⟩
          simpa [TxRw.get, TxRw.start] using (hd i hi).1 k
        | succ m => simp [Shared.call, Ideal.call]
      | put i k v => trivial
      | del i k => trivial
      | commit => trivial
      | abort => trivial
  | some t =>
    cases w' with
    | none => exact absurd hw (by simp)
    | some w' =>
      simp only at hw
      cases c with
      | openRo => trivial
      | closeRo =>
        cases rd with
        | zero => trivial
        | succ m => exact ⟨rfl, hd, hw⟩
      | openRw => simp [Shared.call, Ideal.call]
      | put i k v =>
        refine ⟨rfl, hd, showsRw_of fun j hj k' => ?_⟩
        rw [TxRw.put, tx_get_update, Plain.set, (hw j hj).1]
      | del i k =>
        refine ⟨rfl, hd, showsRw_of fun j hj k' => ?_⟩
        rw [TxRw.del, tx_get_update, Plain.set, (hw j hj).1]
      | commit =>
        refine ⟨rfl, showsRo_of fun j hj k' => ?_, trivial⟩
        rw [commit_get, if_pos hj, (hw j hj).1]
      | abort => exact ⟨rfl, hd, trivial⟩

theorem run_agree {n : Nat} (cs : List Call) {s : Shared} {p : Ideal} (h : Agree n s p) :
    match s.run n cs, p.run cs with
    | some s', some p' => Agree n s' p'
    | none, none => True
    | _, _ => False := by
  induction cs generalizing s p with
  | nil => exact h
  | cons c cs ih =>
    have hc := call_agree h c
    simp only [Shared.run, Ideal.run]
    cases h1 : s.call n c with
    | none =>
      cases h2 : p.call c with
      | none => trivial
      | some p' => rw [h1, h2] at hc; exact hc.elim
    | some s' =>
      cases h2 : p.call c with
      | none => rw [h1, h2] at hc; exact hc.elim
      | some p' => rw [h1, h2] at hc; exact ih hc

/-- a writer excludes readers -/
def Excl (s : Shared) : Prop := s.writer = none ∨ s.readers = 0

theorem call_excl {n : Nat} {s s' : Shared} {c : Call} (h : Excl s) (hc : s.call n c = some s') : Excl s' := by
  obtain ⟨db, rd, w⟩ := s
  cases w with
  | none =>
    cases c <;> simp [Shared.call] at hc
    · subst hc; exact .inl rfl
    · obtain ⟨-, rfl⟩ := hc; exact .inl rfl
    · obtain ⟨h0, rfl⟩ := hc; exact .inr h0
  | some t =>
    have h0 : rd = 0 := by rcases h with h | h; cases h; exact h
    subst h0
    cases c <;> simp [Shared.call] at hc <;> subst hc <;> exact .inr rfl

theorem run_excl {n : Nat} (cs : List Call) {s s' : Shared} (h : Excl s) (hc : s.run n cs = some s') : Excl s' := by
  induction cs generalizing s with
  | nil => cases hc; exact h
  | cons c cs ih =>
    simp only [Shared.run, Option.bind_eq_some_iff] at hc
    obtain ⟨s1, h1, h2⟩ := hc
    exact ih (call_excl h h1) h2

/-! ### Typed maps -/

theorem enc_inj {A : Type} {c : Codec A} [hc : Lawful c] {a b : A} (ha : c.ok a) (hb : c.ok b) (h : c.enc a = c.enc b) :
    a = b := by
  have h1 := hc.round a [] ha
  rw [h, hc.round b [] hb] at h1
  exact (Prod.mk.inj (Option.some.inj h1)).1.symm

theorem enc_prefix {A : Type} {c : Codec A} [hc : Lawful c] {a b : A} {r : Bytes} (ha : c.ok a) (hb : c.ok b)
    (h : c.enc a <+: c.enc b ++ r) : a = b := by
  obtain ⟨t, ht⟩ := h
  have h1 := hc.round a t ha
  rw [ht, hc.round b r hb] at h1
  exact (Prod.mk.inj (Option.some.inj h1)).1.symm

theorem decodeAll_enc {A : Type} {c : Codec A} [hc : Lawful c] {a : A} (ha : c.ok a) :
    decodeAll c (c.enc a) = some a := by
  have h1 := hc.round a [] ha
  rw [List.append_nil] at h1
  simp [decodeAll, Codec.decodeAll, h1]

/-- entries that encode something are decoded -/
theorem typedIter_ok {K A : Type} {ck : Codec K} {cv : Codec A} [Lawful ck] [Lawful cv] (es : List (Data × Data))
    (h : ∀ e ∈ es, ∃ k v, ck.ok k ∧ cv.ok v ∧ e = (ck.enc k, cv.enc v)) :
    ∃ l, typedIter ck cv es = some l ∧ es = l.map (fun p => (ck.enc p.1, cv.enc p.2)) ∧
      ∀ p ∈ l, ck.ok p.1 ∧ cv.ok p.2 := by
  induction es with
  | nil => exact ⟨[], rfl, rfl, fun _ h => by cases h⟩
  | cons e es ih =>
    obtain ⟨l, h1, h2, h3⟩ := ih fun e he => h e (List.mem_cons_of_mem _ he)
    obtain ⟨k, v, hk, hv, rfl⟩ := h e (by simp)
    refine ⟨(k, v) :: l, ?_, by rw [List.map_cons, ← h2], ?_⟩
    · unfold typedIter at h1 ⊢
      rw [List.mapM_cons, h1]
      simp [decodeAll_enc hk, decodeAll_enc hv]
    · intro p hp
      rcases List.mem_cons.1 hp with rfl | hp
      · exact ⟨hk, hv⟩
      · exact h3 p hp

/-- a typed listing -/
theorem typedIter_lists {K A : Type} {ck : Codec K} {cv : Codec A} [Lawful ck] [Lawful cv] {es : List (Data × Data)}
    {f : Data → Option Data} {q : Data → Prop} (hl : Lists es f q)
    (h : ∀ kb vb, f kb = some vb → ∃ k v, ck.ok k ∧ cv.ok v ∧ kb = ck.enc k ∧ vb = cv.enc v) :
    ∃ l, typedIter ck cv es = some l ∧ l.Pairwise (fun a b => ck.enc a.1 < ck.enc b.1) ∧
      ∀ k v, (k, v) ∈ l ↔ ck.ok k ∧ cv.ok v ∧ f (ck.enc k) = some (cv.enc v) ∧ q (ck.enc k) := by
  obtain ⟨l, h1, h2, h3⟩ := typedIter_ok (ck := ck) (cv := cv) es (by
    rintro ⟨kb, vb⟩ he
    obtain ⟨k, v, hk, hv, rfl, rfl⟩ := h kb vb ((hl.2 kb vb).1 he).1
    exact ⟨k, v, hk, hv, rfl⟩)
  refine ⟨l, h1, ?_, fun k v => ⟨fun hm => ?_, ?_⟩⟩
  · have := hl.1
    rw [h2, List.pairwise_map] at this
    exact this
  · have hm' : (ck.enc k, cv.enc v) ∈ es := by
      rw [h2]; exact List.mem_map.2 ⟨(k, v), hm, rfl⟩
    exact ⟨(h3 _ hm).1, (h3 _ hm).2, (hl.2 _ _).1 hm'⟩
  · rintro ⟨hk, hv, hf⟩
    have hm := (hl.2 _ _).2 hf
    rw [h2] at hm
    obtain ⟨⟨k', v'⟩, hp, he⟩ := List.mem_map.1 hm
    obtain ⟨e1, e2⟩ := Prod.mk.inj he
    rw [enc_inj hk (h3 _ hp).1 e1.symm, enc_inj hv (h3 _ hp).2 e2.symm]
    exact hp

/-! ### Order-preserving numbers -/

theorem beBytes_length (n v : Nat) : (beBytes n v).length = n := by
  rw [beBytes, List.length_reverse, leBytes_length]

theorem leBytes_last (n v : Nat) : leBytes (n + 1) v = leBytes n v ++ [UInt8.ofNat (v / 256 ^ n % 256)] := by
  induction n generalizing v with
  | zero => simp [leBytes]
  | succ n ih =>
    rw [leBytes, ih, leBytes, List.cons_append, Nat.div_div_eq_div_mul, Nat.pow_succ, Nat.mul_comm 256]

theorem beBytes_succ (n v : Nat) : beBytes (n + 1) v = UInt8.ofNat (v / 256 ^ n % 256) :: beBytes n v := by
  rw [beBytes, leBytes_last, List.reverse_append]
  rfl

theorem leBytes_mod (n v : Nat) : leBytes n (v % 256 ^ n) = leBytes n v := by
  apply leBytes_of_leNat (leBytes_length n v)
  rw [leNat_leBytes]

theorem beBytes_mod (n v : Nat) : beBytes n (v % 256 ^ n) = beBytes n v := by
  rw [beBytes, leBytes_mod, beBytes]

theorem beBytes_lt (n a b : Nat) (ha : a < 256 ^ n) (hb : b < 256 ^ n) : beBytes n a < beBytes n b ↔ a < b := by
  induction n generalizing a b with
  | zero =>
    simp at ha hb
    subst ha hb
    simp
  | succ n ih =>
    rw [beBytes_succ, beBytes_succ, List.cons_lt_cons_iff]
    have hp : 0 < 256 ^ n := Nat.pow_pos (by decide)
    have ha' : a / 256 ^ n < 256 := (Nat.div_lt_iff_lt_mul hp).2 (by rw [Nat.pow_succ] at ha; omega)
    have hb' : b / 256 ^ n < 256 := (Nat.div_lt_iff_lt_mul hp).2 (by rw [Nat.pow_succ] at hb; omega)
    rw [Nat.mod_eq_of_lt ha', Nat.mod_eq_of_lt hb', ← beBytes_mod n a, ← beBytes_mod n b,
      ih _ _ (Nat.mod_lt _ hp) (Nat.mod_lt _ hp)]
    have e1 : UInt8.ofNat (a / 256 ^ n) < UInt8.ofNat (b / 256 ^ n) ↔ a / 256 ^ n < b / 256 ^ n := by
      rw [UInt8.lt_iff_toNat_lt, UInt8.toNat_ofNat', UInt8.toNat_ofNat', Nat.mod_eq_of_lt ha', Nat.mod_eq_of_lt hb']
    have e2 : UInt8.ofNat (a / 256 ^ n) = UInt8.ofNat (b / 256 ^ n) ↔ a / 256 ^ n = b / 256 ^ n := by
      rw [← UInt8.toNat_inj, UInt8.toNat_ofNat', UInt8.toNat_ofNat', Nat.mod_eq_of_lt ha', Nat.mod_eq_of_lt hb']
    rw [e1, e2]
    have da := Nat.div_add_mod a (256 ^ n)
    have db := Nat.div_add_mod b (256 ^ n)
    have ma := Nat.mod_lt a hp
    have mb := Nat.mod_lt b hp
    generalize 256 ^ n = P at *
    generalize a / P = x at *
    generalize b / P = y at *
    generalize a % P = u at *
    generalize b % P = w at *
    constructor
    · rintro (h | ⟨rfl, h⟩)
      · have : P * (x + 1) ≤ P * y := Nat.mul_le_mul_left _ h
        rw [Nat.mul_add] at this
        omega
      · omega
    · intro h
      rcases Nat.lt_trichotomy x y with h' | h' | h'
      · exact .inl h'
      · subst h'; exact .inr ⟨rfl, by omega⟩
      · have : P * (y + 1) ≤ P * x := Nat.mul_le_mul_left _ h'
        rw [Nat.mul_add] at this
        omega

instance lawful_orderPreserving (n : Nat) : Lawful (orderPreserving n) where
  round a r h := by
    simp only [orderPreserving] at h ⊢
    rw [takeN_append r (beBytes_length n a)]
    simp only [Option.map_some, beBytes, List.reverse_reverse, leNat_leBytes, Nat.mod_eq_of_lt h]
  canon bs a r h := by
    simp only [orderPreserving, Option.map_eq_some_iff] at h ⊢
    obtain ⟨⟨x, q⟩, h1, h2⟩ := h
    obtain ⟨hl, hb⟩ := takeN_eq_some h1
    obtain ⟨rfl, rfl⟩ := Prod.mk.inj h2
    refine ⟨?_, ?_⟩
    · have := leNat_lt x.reverse
      rwa [List.length_reverse, hl] at this
    · rw [hb, beBytes, leBytes_of_leNat (bs := x.reverse) (by rw [List.length_reverse, hl]) rfl, List.reverse_reverse]

/-- parts of equal length are compared first -/
theorem append_le {a b c d : Data} (h : a.length = b.length) : a ++ c ≤ b ++ d ↔ a < b ∨ a = b ∧ c ≤ d := by
  induction a generalizing b with
  | nil =>
    cases b with
    | nil => simp
    | cons => cases h
  | cons x a ih =>
    cases b with
    | nil => cases h
    | cons y b =>
      have h' : a.length = b.length := by simpa using h
      have := ih h'
      rw [List.cons_append, List.cons_append, List.cons_lt_cons_iff, List.cons.injEq, ← not_lt, List.cons_lt_cons_iff]
      rw [← not_lt] at this
      constructor
      · intro hn
        rcases lt_trichotomy x y with hx | hx | hx
        · exact .inl (.inl hx)
        · subst hx
          rcases this.1 fun h => hn (.inr ⟨rfl, h⟩) with h | h
          · exact .inl (.inr ⟨rfl, h⟩)
          · exact .inr ⟨⟨rfl, h.1⟩, h.2⟩
        · exact absurd (Or.inl hx) hn
      · rintro ((h1 | ⟨rfl, h1⟩) | ⟨⟨rfl, h1⟩, h2⟩) hc
        · rcases hc with hc | ⟨rfl, -⟩
          · exact lt_asymm h1 hc
          · exact lt_irrefl _ h1
        · rcases hc with hc | ⟨-, hc⟩
          · exact lt_irrefl _ hc
          · exact this.2 (.inl h1) hc
        · rcases hc with hc | ⟨-, hc⟩
          · exact lt_irrefl _ hc
          · exact this.2 (.inr ⟨h1, h2⟩) hc

/-! ### Dumps -/

theorem puts_get (i : Nat) (es : List (Data × Data)) (hs : es.Pairwise (fun a b => a.1 < b.1)) (t : TxRw) (j : Nat)
    (k : Data) :
    (j ≠ i ∨ (∀ v, (k, v) ∉ es) → (es.foldl (fun t e => t.put i e.1 e.2) t).get j k = t.get j k) ∧
    ∀ v, j = i → (k, v) ∈ es → (es.foldl (fun t e => t.put i e.1 e.2) t).get j k = some v := by
  induction es generalizing t with
  | nil => exact ⟨fun _ => rfl, fun v _ h => by cases h⟩
  | cons e es ih =>
    rw [List.pairwise_cons] at hs
    obtain ⟨h1, h2⟩ := ih hs.2 (t.put i e.1 e.2)
    rw [List.foldl_cons]
    constructor
    · intro h
      rw [h1 (h.imp id fun h v hv => h v (List.mem_cons_of_mem _ hv)), TxRw.put, tx_get_update, if_neg]
      rintro ⟨rfl, rfl⟩
      rcases h with h | h
      · exact h rfl
      · exact h e.2 (by simp)
    · intro v hj hv
      rcases List.mem_cons.1 hv with rfl | hv
      · rw [h1 (.inr fun v' hv' => lt_irrefl k (hs.1 (k, v') hv')), TxRw.put, tx_get_update, if_pos ⟨hj, rfl⟩]
      · exact h2 v hj hv

theorem dump_get (n : Nat) (db : Maps) (t : TxRw) (i : Nat) (k : Data) (ht : ∀ i k, t.get i k = none) :
    ((dump n db).foldl (fun t p => p.2.foldl (fun t e => t.put p.1 e.1 e.2) t) t).get i k =
      if i < n then db.get i k else none := by
  unfold dump
  induction n with
  | zero => exact ht i k
  | succ n ih =>
    rw [List.range_succ, List.map_append, List.foldl_append, List.map_cons, List.map_nil, List.foldl_cons, List.foldl_nil]
    obtain ⟨hs, hm⟩ := prefixIter_lists (db n) []
    have hp := puts_get n (db.prefixIter n []) hs
      (((List.range n).map fun i => (i, db.prefixIter i [])).foldl
        (fun t p => p.2.foldl (fun t e => t.put p.1 e.1 e.2) t) t) i k
    by_cases hi : i = n
    · subst hi
      rw [if_neg (lt_irrefl _)] at ih
      rw [if_pos (Nat.lt_succ_self _)]
      cases hg : db.get i k with
      | none =>
        rw [hp.1 (.inr fun v hv => ?_), ih]
        have := ((hm k v).1 hv).1
        unfold Maps.get at hg
        rw [hg] at this
        cases this
      | some v => exact hp.2 v rfl ((hm k v).2 ⟨hg, List.nil_prefix⟩)
    · rw [hp.1 (.inl hi), ih]
      by_cases h : i < n
      · rw [if_pos h, if_pos (by omega)]
      · rw [if_neg h, if_neg (by omega)]

end Verif.Store
