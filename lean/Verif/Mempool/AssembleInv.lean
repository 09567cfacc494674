import Verif.Mempool.AssembleLemmas

namespace Verif.Mempool

open Verif (BMap)

variable {V : Type}

/-- a refused transaction leaves the verifier as it was -/
def Atomic (connect : V → Tx → V × Bool) : Prop := ∀ v t, (connect v t).2 = false → (connect v t).1 = v

/-- what holds of the collected transactions at any time -/
structure Core (s : Store) (connect : V → Tx → V × Bool) (acc0 : Acc) (v0 : V) (q0 : List Nat) (acc : Acc)
    (new : List Tx) (rejected : List Nat) : Prop where
  txs : acc.txs = acc0.txs ++ new
  size : acc.txsSize = acc0.txsSize + (new.map Tx.size).sum
  target : acc.target = acc0.target
  fees : acc.fees = acc0.fees + (new.map Tx.fee).sum
  sizeok : new ≠ [] → acc.totalSize ≤ acc.target
  nodup : (new.map Tx.id).Nodup
  mem : ∀ t ∈ new, t.id ∈ q0 ∧ s.view t.id = some t
  order : ∀ pre t post, new = pre ++ t :: post → ∀ p, Edge s.view p t.id →
    p ∈ acc0.txs.map Tx.id ∨ p ∈ pre.map Tx.id
  greedy : q0.Pairwise (fun a b => score s b ≤ score s a) → ∀ pre t post, new = pre ++ t :: post → ∀ y ∈ q0,
    y ∉ rejected → y ∉ pre.map Tx.id →
    (∀ p, Edge s.view p y → p ∈ acc0.txs.map Tx.id ∨ p ∈ pre.map Tx.id) → score s y ≤ score s t.id
  rej : ∀ x ∈ rejected, x ∈ q0 ∧ x ∉ new.map Tx.id ∧ ∃ t, s.view x = some t ∧ ∃ pre post v, new = pre ++ post ∧
    (Atomic connect → connectAll connect pre v0 = some v) ∧ (connect v t).2 = false
  run : Atomic connect → (connectAll connect new v0).isSome

/-- the state of the loop -/
structure Queue (s : Store) (connect : V → Tx → V × Bool) (acc0 : Acc) (v0 : V) (q0 : List Nat) (st : Asm V)
    (new : List Tx) : Prop where
  core : Core s connect acc0 v0 q0 st.acc new st.rejected
  em : ∀ x, x ∈ st.emitted ↔ x ∈ acc0.txs.map Tx.id ∨ x ∈ new.map Tx.id
  notdone : st.acc.done = false
  v : Atomic connect → connectAll connect new v0 = some st.v
  sub : st.iter.Sublist q0
  iter : ∀ x ∈ st.iter, st.pending.get x = none ∧ x ∉ st.ready ∧ x ∉ st.emitted ∧ x ∉ st.rejected
  pend : ∀ x m, st.pending.get x = some m → x ∈ q0 ∧ x ∉ st.ready ∧ x ∉ st.emitted ∧ x ∉ st.rejected ∧ 0 < m ∧
    ∀ e, s.byId.get x = some e → m = missing st.emitted e
  ready : ∀ x ∈ st.ready, x ∈ q0 ∧ x ∉ st.emitted ∧ x ∉ st.rejected ∧ ∀ p, Edge s.view p x → p ∈ st.emitted
  ready_nodup : st.ready.Nodup
  ready_desc : Desc s st.ready
  cover : ∀ x ∈ q0, x ∈ st.iter ∨ (∃ m, st.pending.get x = some m) ∨ x ∈ st.ready ∨ x ∈ new.map Tx.id ∨ x ∈ st.rejected

/-- how many candidates are still to be looked at -/
def left (q0 : List Nat) (st : Asm V) : Nat := (q0.filter (fun x => x ∉ st.emitted ∧ x ∉ st.rejected)).length

theorem filter_lt {q : List Nat} {P Q : Nat → Prop} [DecidablePred P] [DecidablePred Q] {x : Nat} (hx : x ∈ q)
    (hP : P x) (hQ : ¬ Q x) (h : ∀ y, Q y → P y) :
    (q.filter (fun y => Q y)).length < (q.filter (fun y => P y)).length := by
  induction q with
  | nil => simp at hx
  | cons a as ih =>
    have hle : (as.filter (fun y => Q y)).length ≤ (as.filter (fun y => P y)).length := by
      apply List.Sublist.length_le
      apply List.monotone_filter_right
      intro y hy
      simp only [decide_eq_true_eq] at hy ⊢
      exact h y hy
    simp only [List.filter_cons, decide_eq_true_eq]
    rcases List.mem_cons.1 hx with rfl | hx
    · rw [if_neg hQ, if_pos hP, List.length_cons]
      omega
    · have := ih hx
      by_cases hq : Q a
      · rw [if_pos hq, if_pos (h a hq)]
        simpa using this
      · rw [if_neg hq]
        split
        · rw [List.length_cons]; omega
        · exact this

section
variable {s : Store} {connect : V → Tx → V × Bool} {acc0 : Acc} {v0 : V} {q0 : List Nat}

theorem Queue.skip_ok (hI : Inv s) (hq : ∀ x ∈ q0, x ∈ s.ids) (hqn : q0.Nodup) {new : List Tx} {st0 : Asm V} :
    ∀ (it : List Nat) (p : BMap Nat Nat), Queue s connect acc0 v0 q0 { st0 with iter := it, pending := p } new →
    ∃ it' p', skip s st0.emitted it p = .ok (it', p') ∧
      Queue s connect acc0 v0 q0 { st0 with iter := it', pending := p' } new ∧
      ∀ x ∈ it'.head?, ∀ q, Edge s.view q x → q ∈ st0.emitted := by
  intro it
  induction it with
  | nil => intro p h; exact ⟨[], p, rfl, h, by simp⟩
  | cons x xs ih =>
    intro p h
    obtain ⟨e, he⟩ := mem_ids.1 (hq x (h.sub.subset (by simp)))
    simp only [skip, he]
    by_cases hm : missing st0.emitted e = 0
    · rw [if_pos hm]
      refine ⟨x :: xs, p, rfl, h, ?_⟩
      intro y hy q hqe
      simp only [List.head?_cons, Option.mem_def, Option.some.injEq] at hy
      subst hy
      exact missing_zero.1 hm q (((hI.parents x e he).2 q).2 hqe)
    · rw [if_neg hm]
      apply ih
      have hxs : x ∉ xs := (List.nodup_cons.1 (h.sub.nodup hqn)).1
      obtain ⟨hx1, hx2, hx3, hx4⟩ := h.iter x (by simp)
      simp only at hx1 hx2 hx3 hx4
      refine ⟨h.core, h.em, h.notdone, h.v, (List.sublist_cons_self _ _).trans h.sub, ?_, ?_, h.ready,
        h.ready_nodup, h.ready_desc, ?_⟩
      · intro y hy
        simp only at hy ⊢
        obtain ⟨g1, g2⟩ := h.iter y (by simp [hy])
        refine ⟨?_, g2⟩
        rw [BMap.get_insert, if_neg (by rintro rfl; exact hxs hy)]
        exact g1
      · intro y m hy
        simp only at hy ⊢
        rw [BMap.get_insert] at hy
        split at hy
        · rename_i hyx
          subst hyx
          simp only [Option.some.injEq] at hy
          subst hy
          refine ⟨h.sub.subset (by simp), hx2, hx3, hx4, Nat.pos_of_ne_zero hm, ?_⟩
          intro e' he'
          rw [he] at he'
          simp only [Option.some.injEq] at he'
          rw [he']
        · exact h.pend y m hy
      · intro y hy
        simp only
        by_cases hyx : y = x
        · subst hyx
          exact Or.inr (Or.inl ⟨missing st0.emitted e, by rw [BMap.get_insert, if_pos rfl]⟩)
        · rcases h.cover y hy with g | ⟨m, g⟩ | g
          · rcases List.mem_cons.1 g with rfl | g
            · exact absurd rfl hyx
            · exact Or.inl g
          · exact Or.inr (Or.inl ⟨m, by rw [BMap.get_insert, if_neg hyx]; exact g⟩)
          · exact Or.inr (Or.inr g)

/-- a transaction was picked from the iterator or from the heap -/
structure Pick (s : Store) (q0 : List Nat) (st : Asm V) (new : List Tx) (x : Nat) (it rd : List Nat) : Prop where
  mem : x ∈ q0
  par : ∀ p, Edge s.view p x → p ∈ st.emitted
  nem : x ∉ st.emitted
  nrej : x ∉ st.rejected
  npend : st.pending.get x = none
  nit : x ∉ it
  nrd : x ∉ rd
  iter : ∀ y, y ∈ st.iter ↔ y ∈ it ∨ (y = x ∧ x ∈ st.iter)
  ready : ∀ y, y ∈ st.ready ↔ y ∈ rd ∨ (y = x ∧ x ∈ st.ready)
  sub : it.Sublist st.iter
  rsub : rd.Sublist st.ready
  best : q0.Pairwise (fun a b => score s b ≤ score s a) → ∀ y, y ∈ st.iter ∨ y ∈ st.ready → score s y ≤ score s x

theorem Queue.pick (hqn : q0.Nodup) {new : List Tx} {st : Asm V} (h : Queue s connect acc0 v0 q0 st new)
    (hh : ∀ x ∈ st.iter.head?, ∀ q, Edge s.view q x → q ∈ st.emitted) {x : Nat} {it rd : List Nat}
    (hc : choose s st.iter st.ready = some (x, it, rd)) : Pick s q0 st new x it rd := by
  have hrdS : Desc s st.ready := h.ready_desc
  have hsub := h.sub
  have hin := h.sub.nodup hqn
  have fromIter : ∀ xs, st.iter = x :: xs → it = xs → rd = st.ready →
      (∀ y ∈ st.ready, score s y ≤ score s x) → Pick s q0 st new x it rd := by
    rintro xs hi rfl rfl hb
    rw [hi] at hin hsub hh
    obtain ⟨g1, g2, g3, g4⟩ := h.iter x (by rw [hi]; simp)
    refine ⟨hsub.subset (by simp), hh x (by simp), g3, g4, g1, (List.nodup_cons.1 hin).1, g2, ?_, ?_, ?_, List.Sublist.refl _, ?_⟩
    · intro y; rw [hi, List.mem_cons]
      constructor
      · rintro (rfl | g)
        · exact Or.inr ⟨rfl, by simp⟩
        · exact Or.inl g
      · rintro (g | ⟨rfl, -⟩)
        · exact Or.inr g
        · exact Or.inl rfl
    · intro y
      constructor
      · exact Or.inl
      · rintro (g | ⟨rfl, g⟩)
        · exact g
        · exact g
    · rw [hi]; exact List.sublist_cons_self _ _
    · rintro hs y (hy | hy)
      · rw [hi] at hy
        rcases List.mem_cons.1 hy with rfl | hy
        · exact le_refl _
        · exact (List.pairwise_cons.1 (hs.sublist hsub)).1 y hy
      · exact hb y hy
  have fromReady : ∀ rs, st.ready = x :: rs → rd = rs → it = st.iter →
      (∀ y ∈ st.iter.head?, score s y ≤ score s x) → Pick s q0 st new x it rd := by
    rintro rs hr rfl rfl hb
    obtain ⟨g1, g2, g3, g4⟩ := h.ready x (by rw [hr]; simp)
    have hn := h.ready_nodup
    rw [hr] at hn hrdS
    have hnit : x ∉ st.iter := fun hx => (h.iter x hx).2.1 (by rw [hr]; simp)
    refine ⟨g1, g4, g2, g3, ?_, hnit, (List.nodup_cons.1 hn).1, ?_, ?_, List.Sublist.refl _, ?_, ?_⟩
    · cases hp : st.pending.get x with
      | none => rfl
      | some m => exact absurd (by rw [hr]; simp) (h.pend x m hp).2.1
    · intro y
      constructor
      · exact Or.inl
      · rintro (g | ⟨rfl, g⟩)
        · exact g
        · exact g
    · intro y; rw [hr, List.mem_cons]
      constructor
      · rintro (rfl | g)
        · exact Or.inr ⟨rfl, by simp⟩
        · exact Or.inl g
      · rintro (g | ⟨rfl, -⟩)
        · exact Or.inr g
        · exact Or.inl rfl
    · rw [hr]; exact List.sublist_cons_self _ _
    · rintro hs y (hy | hy)
      · cases hi : st.iter with
        | nil => rw [hi] at hy; simp at hy
        | cons z zs =>
          have hz := hb z (by rw [hi]; simp)
          rw [hi] at hy hsub
          rcases List.mem_cons.1 hy with rfl | hy
          · exact hz
          · exact le_trans ((List.pairwise_cons.1 (hs.sublist hsub)).1 y hy) hz
      · rw [hr] at hy
        rcases List.mem_cons.1 hy with rfl | hy
        · exact le_refl _
        · exact score_le_of_key ((List.pairwise_cons.1 hrdS).1 y hy)
  cases hi : st.iter with
  | nil =>
    cases hr : st.ready with
    | nil => rw [hi, hr] at hc; simp [choose] at hc
    | cons r rs =>
      rw [hi, hr] at hc
      simp only [choose, Option.some.injEq, Prod.mk.injEq] at hc
      obtain ⟨rfl, rfl, rfl⟩ := hc
      exact fromReady rs hr rfl hi.symm (by rw [hi]; simp)
  | cons z zs =>
    cases hr : st.ready with
    | nil =>
      rw [hi, hr] at hc
      simp only [choose, Option.some.injEq, Prod.mk.injEq] at hc
      obtain ⟨rfl, rfl, rfl⟩ := hc
      exact fromIter zs hi rfl hr.symm (by rw [hr]; simp)
    | cons r rs =>
      rw [hi, hr] at hc
      simp only [choose] at hc
      split at hc
      · rename_i hlt
        simp only [Option.some.injEq, Prod.mk.injEq] at hc
        obtain ⟨rfl, rfl, rfl⟩ := hc
        refine fromIter zs hi rfl hr.symm ?_
        intro y hy
        rw [hr] at hy hrdS
        rcases List.mem_cons.1 hy with rfl | hy
        · exact le_of_lt hlt
        · exact le_trans (score_le_of_key ((List.pairwise_cons.1 hrdS).1 y hy)) (le_of_lt hlt)
      · rename_i hlt
        simp only [Option.some.injEq, Prod.mk.injEq] at hc
        obtain ⟨rfl, rfl, rfl⟩ := hc
        refine fromReady rs hr rfl hi.symm ?_
        intro y hy
        rw [hi] at hy
        simp only [List.head?_cons, Option.mem_def, Option.some.injEq] at hy
        subst hy
        exact Nat.le_of_not_lt hlt

theorem Queue.reject {new : List Tx} {st : Asm V} (h : Queue s connect acc0 v0 q0 st new) {x : Nat}
    {it rd : List Nat} (hp : Pick s q0 st new x it rd) {t : Tx} (ht : s.view x = some t)
    (hr : (connect st.v t).2 = false) :
    Queue s connect acc0 v0 q0 ⟨it, st.pending, rd, st.emitted, st.acc, (connect st.v t).1, x :: st.rejected⟩ new := by
  have hc := h.core
  have hxnew : x ∉ new.map Tx.id := fun hx => hp.nem ((h.em x).2 (Or.inr hx))
  refine ⟨⟨hc.txs, hc.size, hc.target, hc.fees, hc.sizeok, hc.nodup, hc.mem, hc.order, ?_, ?_, hc.run⟩, h.em, h.notdone,
    fun ha => ?_, hp.sub.trans h.sub, ?_, ?_, ?_, h.ready_nodup.sublist hp.rsub, List.Pairwise.sublist hp.rsub h.ready_desc, ?_⟩
  · intro hs pre u post hn y hy hyr hyp hpar
    exact hc.greedy hs pre u post hn y hy (fun g => hyr (by simp [g])) hyp hpar
  · intro y hy
    rcases List.mem_cons.1 hy with rfl | hy
    · exact ⟨hp.mem, hxnew, t, ht, new, [], st.v, by simp, h.v, hr⟩
    · exact hc.rej y hy
  · simp only
    rw [ha _ _ hr]
    exact h.v ha
  · intro y hy
    simp only at hy ⊢
    obtain ⟨g1, g2, g3, g4⟩ := h.iter y (hp.sub.subset hy)
    refine ⟨g1, fun g => g2 (hp.rsub.subset g), g3, ?_⟩
    rw [List.mem_cons]
    rintro (rfl | g)
    · exact hp.nit hy
    · exact g4 g
  · intro y m hy
    simp only at hy ⊢
    obtain ⟨g1, g2, g3, g4, g5⟩ := h.pend y m hy
    refine ⟨g1, fun g => g2 (hp.rsub.subset g), g3, ?_, g5⟩
    rw [List.mem_cons]
    rintro (rfl | g)
    · rw [hp.npend] at hy; simp at hy
    · exact g4 g
  · intro y hy
    simp only at hy ⊢
    obtain ⟨g1, g2, g3, g4⟩ := h.ready y (hp.rsub.subset hy)
    refine ⟨g1, g2, ?_, g4⟩
    rw [List.mem_cons]
    rintro (rfl | g)
    · exact hp.nrd hy
    · exact g3 g
  · intro y hy
    simp only
    rcases h.cover y hy with g | g | g | g | g
    · rcases (hp.iter y).1 g with g | ⟨rfl, -⟩
      · exact Or.inl g
      · simp
    · exact Or.inr (Or.inl g)
    · rcases (hp.ready y).1 g with g | ⟨rfl, -⟩
      · exact Or.inr (Or.inr (Or.inl g))
      · simp
    · exact Or.inr (Or.inr (Or.inr (Or.inl g)))
    · simp [g]

theorem append_cons_cases {α : Type} {l pre post : List α} {a t : α} (h : l ++ [a] = pre ++ t :: post) :
    (post = [] ∧ pre = l ∧ t = a) ∨ ∃ post', l = pre ++ t :: post' := by
  rcases List.eq_nil_or_concat post with rfl | ⟨post', b, rfl⟩
  · left
    have := List.append_inj' h rfl
    simp only [List.cons.injEq, and_true] at this
    exact ⟨rfl, this.1.symm, this.2.symm⟩
  · right
    rw [List.concat_eq_append, ← List.cons_append, ← List.append_assoc] at h
    exact ⟨post', (List.append_inj' h rfl).1⟩

theorem Queue.accept (hI : Inv s) (hq : ∀ x ∈ q0, x ∈ s.ids) {new : List Tx} {st : Asm V}
    (h : Queue s connect acc0 v0 q0 st new) {x : Nat} {it rd : List Nat} (hp : Pick s q0 st new x it rd) {e : Entry}
    (he : s.byId.get x = some e) (ha : (connect st.v e.tx).2 = true) {acc : Acc}
    (hacc : acc = ⟨st.acc.txs ++ [e.tx], st.acc.txsSize + e.tx.size, st.acc.target, false, st.acc.fees + e.tx.fee⟩)
    (hfit : acc.totalSize ≤ acc.target) {p' : BMap Nat Nat} {r' : List Nat}
    (hp' : ∀ y, p'.get y = if y ∈ e.children then lower (st.pending.get y) else st.pending.get y)
    (hrn : r'.Nodup) (hrd : Desc s r') (hr' : ∀ y, y ∈ r' ↔ y ∈ rd ∨ (y ∈ e.children ∧ st.pending.get y = some 1)) :
    Queue s connect acc0 v0 q0 ⟨it, p', r', x :: st.emitted, acc, (connect st.v e.tx).1, st.rejected⟩ (new ++ [e.tx]) := by
  have hc := h.core
  have hid : e.tx.id = x := (hI.key x e he).1
  have hxnew : x ∉ new.map Tx.id := fun hx => hp.nem ((h.em x).2 (Or.inr hx))
  have hview : s.view x = some e.tx := by simp [Store.view, he]
  have hmiss : ∀ y ey, s.byId.get y = some ey →
      missing st.emitted ey = missing (x :: st.emitted) ey + if y ∈ e.children then 1 else 0 := by
    intro y ey hey
    rw [missing_cons (hI.parents y ey hey).1 hp.nem]
    congr 1
    by_cases hE : Edge s.view x y
    · rw [if_pos (((hI.parents y ey hey).2 x).2 hE), if_pos (((hI.children x e he).2 y).2 hE)]
    · rw [if_neg (fun g => hE (((hI.parents y ey hey).2 x).1 g)), if_neg (fun g => hE (((hI.children x e he).2 y).1 g))]
  have hpd : ∀ y m, p'.get y = some m → ∃ m', st.pending.get y = some m' ∧ 0 < m ∧
      m' = m + if y ∈ e.children then 1 else 0 := by
    intro y m hy
    rw [hp'] at hy
    split at hy
    · rename_i hyc
      rw [if_pos hyc]
      cases hg : st.pending.get y with
      | none => rw [hg] at hy; simp [lower] at hy
      | some k =>
        rw [hg] at hy
        match k, hy with
        | 0, hy => simp [lower] at hy
        | 1, hy => simp [lower] at hy
        | k + 2, hy =>
          simp only [lower, Option.some.injEq] at hy
          exact ⟨k + 2, rfl, by omega, by omega⟩
    · rename_i hyc
      rw [if_neg hyc]
      exact ⟨m, hy, (h.pend y m hy).2.2.2.2.1, by omega⟩
  refine ⟨⟨?_, ?_, ?_, ?_, fun _ => hfit, ?_, ?_, ?_, ?_, ?_, ?_⟩, ?_, by rw [hacc], ?_, hp.sub.trans h.sub, ?_, ?_, ?_,
    hrn, hrd, ?_⟩
  · simp only; rw [hacc, hc.txs]; simp
  · simp only; rw [hacc, hc.size]; simp; omega
  · simp only; rw [hacc, hc.target]
  · simp only; rw [hacc, hc.fees]; simp; omega
  · rw [List.map_append, List.nodup_append]
    refine ⟨hc.nodup, by simp, ?_⟩
    intro a ha' b hb
    simp only [List.map_cons, List.map_nil, List.mem_singleton] at hb
    rw [hb, hid]
    rintro rfl
    exact hxnew ha'
  · intro t ht
    rcases List.mem_append.1 ht with ht | ht
    · exact hc.mem t ht
    · simp only [List.mem_singleton] at ht
      subst ht
      rw [hid]
      exact ⟨hp.mem, hview⟩
  · intro pre t post hn p hE
    rcases append_cons_cases hn with ⟨-, rfl, rfl⟩ | ⟨post', hn'⟩
    · rw [hid] at hE
      exact (h.em p).1 (hp.par p hE)
    · exact hc.order pre t post' hn' p hE
  · intro hs pre t post hn y hy hyr hyp hpar
    rcases append_cons_cases hn with ⟨-, rfl, rfl⟩ | ⟨post', hn'⟩
    · rw [hid]
      apply hp.best hs
      rcases h.cover y hy with g | ⟨m, g⟩ | g | g | g
      · exact Or.inl g
      · exfalso
        obtain ⟨g1, g2, g3, g4, g5, g6⟩ := h.pend y m g
        obtain ⟨ey, hey⟩ := mem_ids.1 (hq y hy)
        have h0 : missing st.emitted ey = 0 :=
          missing_zero.2 (fun p hpp => (h.em p).2 (hpar p (((hI.parents y ey hey).2 p).1 hpp)))
        rw [← g6 ey hey] at h0
        omega
      · exact Or.inr g
      · exact absurd g hyp
      · exact absurd g hyr
    · exact hc.greedy hs pre t post' hn' y hy hyr hyp hpar
  · intro y hy
    obtain ⟨g1, g2, t, ht, pre, post, v, hn, hrun, hf⟩ := hc.rej y hy
    refine ⟨g1, ?_, t, ht, pre, post ++ [e.tx], v, by rw [hn]; simp, hrun, hf⟩
    rw [List.map_append, List.mem_append]
    rintro (g | g)
    · exact g2 g
    · simp only [List.map_cons, List.map_nil, List.mem_singleton, hid] at g
      subst g
      exact hp.nrej hy
  · intro hat
    rw [connectAll_snoc new v0 st.v (h.v hat) ha]
    rfl
  · intro y
    simp only [List.mem_cons, List.map_append, List.map_cons, List.map_nil, List.mem_append, hid,
      h.em, List.not_mem_nil, or_false]
    tauto
  · intro hat
    exact connectAll_snoc new v0 st.v (h.v hat) ha
  · intro y hy
    simp only at hy ⊢
    obtain ⟨g1, g2, g3, g4⟩ := h.iter y (hp.sub.subset hy)
    refine ⟨?_, ?_, ?_, g4⟩
    · rw [hp', g1]; simp [lower]
    · rw [hr', g1]
      simp only [reduceCtorEq, and_false, or_false]
      exact fun g => g2 (hp.rsub.subset g)
    · rw [List.mem_cons]
      rintro (rfl | g)
      · exact hp.nit hy
      · exact g3 g
  · intro y m hy
    simp only at hy ⊢
    obtain ⟨m', g, hm0, hm'⟩ := hpd y m hy
    obtain ⟨g1, g2, g3, g4, g5, g6⟩ := h.pend y m' g
    have hyx : y ≠ x := by rintro rfl; rw [hp.npend] at g; simp at g
    refine ⟨g1, ?_, ?_, g4, hm0, ?_⟩
    · rw [hr']
      rintro (q | ⟨q1, q2⟩)
      · exact g2 (hp.rsub.subset q)
      · rw [g] at q2
        rw [if_pos q1] at hm'
        simp only [Option.some.injEq] at q2
        omega
    · rw [List.mem_cons]
      rintro (q | q)
      · exact hyx q
      · exact g3 q
    · intro ey hey
      have := hmiss y ey hey
      rw [← g6 ey hey] at this
      omega
  · intro y hy
    simp only at hy ⊢
    rw [hr'] at hy
    rcases hy with hy | ⟨hy1, hy2⟩
    · obtain ⟨g1, g2, g3, g4⟩ := h.ready y (hp.rsub.subset hy)
      refine ⟨g1, ?_, g3, fun p hE => List.mem_cons_of_mem _ (g4 p hE)⟩
      rw [List.mem_cons]
      rintro (rfl | q)
      · exact hp.nrd hy
      · exact g2 q
    · obtain ⟨g1, g2, g3, g4, g5, g6⟩ := h.pend y 1 hy2
      have hyx : y ≠ x := by rintro rfl; rw [hp.npend] at hy2; simp at hy2
      refine ⟨g1, ?_, g4, ?_⟩
      · rw [List.mem_cons]
        rintro (q | q)
        · exact hyx q
        · exact g3 q
      · intro p hE
        obtain ⟨ey, hey⟩ := mem_ids.1 (edge_mem hE).2
        have := hmiss y ey hey
        rw [← g6 ey hey, if_pos hy1] at this
        exact missing_zero.1 (by omega) p (((hI.parents y ey hey).2 p).2 hE)
  · intro y hy
    simp only [List.map_append, List.map_cons, List.map_nil, List.mem_append, hid, List.mem_singleton]
    rcases h.cover y hy with g | ⟨m, g⟩ | g | g | g
    · rcases (hp.iter y).1 g with g | ⟨rfl, -⟩
      · exact Or.inl g
      · simp
    · by_cases hyc : y ∈ e.children
      · by_cases hm1 : m = 1
        · right; right; left
          rw [hr']
          exact Or.inr ⟨hyc, by rw [g, hm1]⟩
        · right; left
          obtain ⟨k, rfl⟩ : ∃ k, m = k + 2 := ⟨m - 2, by have := (h.pend y m g).2.2.2.2.1; omega⟩
          exact ⟨k + 1, by rw [hp', if_pos hyc, g]; rfl⟩
      · right; left
        exact ⟨m, by rw [hp', if_neg hyc, g]⟩
    · rcases (hp.ready y).1 g with g | ⟨rfl, -⟩
      · right; right; left
        rw [hr']; exact Or.inl g
      · simp
    · simp [g]
    · simp [g]

/-- the pool's fees in total -/
noncomputable def poolFees (s : Store) : Nat := (total s.view s.ids (fun _ => True)).2.1

theorem sum_fee_le {l : List Nat} (hn : l.Nodup) {ts : List Tx} (hl : ts.map Tx.id = l)
    (hm : ∀ t ∈ ts, s.view t.id = some t) : (ts.map Tx.fee).sum ≤ poolFees s := by
  have h1 : (total s.view s.ids (fun k => k ∈ l)).2.1 ≤ poolFees s := total_fee_le _ _ _
  have h2 : (total s.view s.ids (fun k => k ∈ l)).2.1 = (ts.map Tx.fee).sum := by
    have hsum : ∀ us : List (Nat × Nat × Nat), us.sum.2.1 = (us.map (fun w => w.2.1)).sum := by
      intro us
      induction us with
      | nil => rfl
      | cons a as ih => simp [ih]
    rw [total_list hn (by
      intro k
      refine ⟨fun hk => ⟨?_, hk⟩, fun hk => hk.2⟩
      rw [← hl] at hk
      obtain ⟨t, ht, rfl⟩ := List.mem_map.1 hk
      obtain ⟨e, he, -⟩ := Option.map_eq_some_iff.1 (hm t ht)
      exact mem_ids.2 ⟨e, he⟩), hsum, ← hl, List.map_map, List.map_map]
    congr 1
    apply List.map_congr_left
    intro t ht
    simp [weightAt, hm t ht, weight]
  omega

/-- how the loop ends -/
def Final (s : Store) (connect : V → Tx → V × Bool) (acc0 : Acc) (v0 : V) (q0 : List Nat) (st : Asm V)
    (new : List Tx) : Prop :=
  Core s connect acc0 v0 q0 st.acc new st.rejected ∧
    (st.acc.done = false → Queue s connect acc0 v0 q0 st new ∧ st.iter = [] ∧ st.ready = []) ∧
    (st.acc.done = true → ∃ t, t.id ∈ q0 ∧ s.view t.id = some t ∧ t.id ∉ new.map Tx.id ∧
      st.acc.target < compactLen (st.acc.txs.length + 1) + st.acc.txsSize + t.size)

theorem loop_ok (hI : Inv s) (hq : ∀ x ∈ q0, x ∈ s.ids) (hqn : q0.Nodup)
    (hfit : acc0.fees + poolFees s < U128) :
    ∀ (n : Nat) (st : Asm V) (new : List Tx), Queue s connect acc0 v0 q0 st new → left q0 st < n →
      ∃ st' new', loop s connect n st = .ok st' ∧ Final s connect acc0 v0 q0 st' new' := by
  intro n
  induction n with
  | zero => intro st new _ h; omega
  | succ n ih =>
    intro st new h hn
    simp only [loop]
    rw [h.notdone]
    simp only [Bool.false_eq_true, if_false]
    obtain ⟨it', p', g1, hQ, hhead⟩ := h.skip_ok (st0 := st) hI hq hqn st.iter st.pending
    rw [g1]
    simp only [bind, Except.bind]
    cases hc : choose s it' st.ready with
    | none =>
      refine ⟨_, new, rfl, hQ.core, fun _ => ⟨hQ, ?_⟩, fun hd => ?_⟩
      · simp only
        cases it' <;> cases hr : st.ready <;> simp [choose, hr] at hc ⊢
        split at hc <;> simp at hc
      · have := hQ.notdone
        simp only at this hd
        rw [this] at hd; simp at hd
    | some w =>
      obtain ⟨x, it, rd⟩ := w
      have hp := hQ.pick hqn hhead hc
      obtain ⟨e, he⟩ := mem_ids.1 (hq x hp.mem)
      have hview : s.view x = some e.tx := by simp [Store.view, he]
      have hid : e.tx.id = x := (hI.key x e he).1
      simp only [he]
      by_cases hcon : (connect st.v e.tx).2 = true
      · rw [if_pos hcon]
        by_cases hsz : compactLen (st.acc.txs.length + 1) + st.acc.txsSize + e.tx.size ≤ st.acc.target
        · have hfee : st.acc.fees + e.tx.fee < U128 := by
            have hnd : ((new ++ [e.tx]).map Tx.id).Nodup := by
              rw [List.map_append, List.nodup_append]
              refine ⟨hQ.core.nodup, by simp, ?_⟩
              intro a ha' b hb
              simp only [List.map_cons, List.map_nil, List.mem_singleton] at hb
              rw [hb, hid]
              rintro rfl
              exact hp.nem ((hQ.em a).2 (Or.inr ha'))
            have := sum_fee_le hnd rfl (by
              intro t ht
              rcases List.mem_append.1 ht with ht | ht
              · exact (hQ.core.mem t ht).2
              · simp only [List.mem_singleton] at ht
                subst ht; rw [hid]; exact hview)
            simp only [List.map_append, List.sum_append, List.map_cons, List.map_nil, List.sum_cons, List.sum_nil] at this
            have h2 := hQ.core.fees
            simp only at h2
            generalize U128 = U at *
            omega
          have hadd : st.acc.addTx e.tx = (⟨st.acc.txs ++ [e.tx], st.acc.txsSize + e.tx.size, st.acc.target, false,
              st.acc.fees + e.tx.fee⟩, true) := by
            unfold Acc.addTx
            rw [if_pos hsz]
            have : Amt.add st.acc.fees e.tx.fee = some (st.acc.fees + e.tx.fee) := by
              unfold Amt.add; rw [if_pos hfee]
            rw [this]
            have := h.notdone
            simp [this]
          rw [hadd]
          simp only [if_true]
          obtain ⟨p2, r2, k1, k2, k3, k4, k5⟩ := release_spec (s := s) e.children p' rd (hI.children x e he).1
            (hQ.ready_nodup.sublist hp.rsub)
            (by
              intro c _ h0
              have := (hQ.pend c 0 h0).2.2.2.2.1
              omega)
            (by
              intro c m hcm hcr
              exact (hQ.pend c m hcm).2.1 (hp.rsub.subset hcr))
            (List.Pairwise.sublist hp.rsub hQ.ready_desc)
          rw [k1]
          simp only
          refine ih _ (new ++ [e.tx]) (hQ.accept hI hq hp he hcon rfl ?_ k2 k3 k4 k5) ?_
          · have hl : (st.acc.txs ++ [e.tx]).length = st.acc.txs.length + 1 := by simp
            simp only [Acc.totalSize]
            rw [hl, ← Nat.add_assoc]
            exact hsz
          · refine Nat.lt_of_lt_of_le (filter_lt hp.mem (P := fun y => y ∉ st.emitted ∧ y ∉ st.rejected) ⟨hp.nem, hp.nrej⟩
              (by simp) ?_) (Nat.le_of_lt_succ hn)
            simp only [List.mem_cons]
            tauto
        · have hadd : st.acc.addTx e.tx = ({ st.acc with done := true }, true) := by
            unfold Acc.addTx; rw [if_neg hsz]
          rw [hadd]
          simp only [if_true]
          obtain ⟨p2, r2, k1, -⟩ := release_spec (s := s) e.children p' rd (hI.children x e he).1
            (hQ.ready_nodup.sublist hp.rsub)
            (by
              intro c _ h0
              have := (hQ.pend c 0 h0).2.2.2.2.1
              omega)
            (by
              intro c m hcm hcr
              exact (hQ.pend c m hcm).2.1 (hp.rsub.subset hcr))
            (List.Pairwise.sublist hp.rsub hQ.ready_desc)
          rw [k1]
          simp only
          have hn0 : n ≠ 0 := by
            rintro rfl
            have : 0 < left q0 st := by
              unfold left
              apply List.length_pos_of_mem (a := x)
              rw [List.mem_filter]
              refine ⟨hp.mem, ?_⟩
              simp only [decide_eq_true_eq]
              exact ⟨hp.nem, hp.nrej⟩
            omega
          obtain ⟨k, rfl⟩ := Nat.exists_eq_succ_of_ne_zero hn0
          simp only [loop, if_true]
          have hc0 := hQ.core
          refine ⟨_, new, rfl, ⟨hc0.txs, hc0.size, hc0.target, hc0.fees, hc0.sizeok, hc0.nodup, hc0.mem, hc0.order,
            hc0.greedy, hc0.rej, hc0.run⟩, by simp, fun _ => ⟨e.tx, ?_, ?_, ?_, ?_⟩⟩
          · rw [hid]; exact hp.mem
          · rw [hid]; exact hview
          · rw [hid]; exact fun hx => hp.nem ((hQ.em x).2 (Or.inr hx))
          · simp only; omega
      · rw [if_neg hcon]
        have hcon' : (connect st.v e.tx).2 = false := by simpa using hcon
        refine ih _ new (hQ.reject hp hview hcon') ?_
        refine Nat.lt_of_lt_of_le (filter_lt hp.mem (P := fun y => y ∉ st.emitted ∧ y ∉ st.rejected) ⟨hp.nem, hp.nrej⟩
              (by simp) ?_) (Nat.le_of_lt_succ hn)
        simp only [List.mem_cons]
        tauto

end

end Verif.Mempool
