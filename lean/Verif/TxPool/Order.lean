import Verif.TxPool.Lists
import Verif.Mempool.Drop

/-! # The transactions of a store in the order of their arrival -/

namespace Verif.TxPool

open Verif.Mempool
open Verif (BMap)

theorem inOrder_eq (s : Store) : inOrder s = s.bySeq.entries.filterMap (fun p => s.view p.2) := rfl

theorem mem_inOrder {s : Store} (h : Inv s) {t : Tx} : t ∈ inOrder s ↔ s.view t.id = some t := by
  rw [inOrder_eq, List.mem_filterMap]
  constructor
  · rintro ⟨⟨n, k⟩, -, hv⟩
    simp only at hv
    obtain ⟨e, he, rfl⟩ := view_some.1 hv
    rw [(h.key k e he).1]; exact hv
  · intro hv
    obtain ⟨e, he, -⟩ := view_some.1 hv
    obtain ⟨n, hn⟩ := (h.seq_dom t.id).2 (mem_ids.2 ⟨e, he⟩)
    exact ⟨(n, t.id), BMap.mem_entries.2 ((h.seq_inv _ _).1 hn), hv⟩

theorem inOrder_ids {s : Store} (h : Inv s) : (inOrder s).map Tx.id = s.bySeq.entries.map Prod.snd := by
  rw [inOrder_eq, List.map_filterMap]
  have : ∀ l : List (Nat × Nat), (∀ p ∈ l, p ∈ s.bySeq.entries) →
      l.filterMap (fun p => (s.view p.2).map Tx.id) = l.map Prod.snd := by
    intro l
    induction l with
    | nil => intro _; rfl
    | cons p l ih =>
      intro hl
      have hp := hl p (by simp)
      have h1 := (h.seq_inv _ _).2 (BMap.mem_entries.1 (show (p.1, p.2) ∈ _ from hp))
      obtain ⟨e, he⟩ := mem_ids.1 ((h.seq_dom p.2).1 ⟨_, h1⟩)
      have hv : s.view p.2 = some e.tx := view_some.2 ⟨e, he, rfl⟩
      rw [List.filterMap_cons, hv]
      simp only [Option.map_some, List.map_cons, (h.key _ _ he).1]
      rw [ih (fun q hq => hl q (by simp [hq]))]
  exact this _ (fun _ h => h)

theorem inOrder_nodup {s : Store} (h : Inv s) : ((inOrder s).map Tx.id).Nodup := by
  rw [inOrder_ids h, List.Nodup, List.pairwise_map]
  refine List.Pairwise.imp_of_mem ?_ s.bySeq.sorted
  intro p q hp hq hlt he
  have h1 := (h.seq_inv _ _).2 (BMap.mem_entries.1 (show (p.1, p.2) ∈ _ from hp))
  have h2 := (h.seq_inv _ _).2 (BMap.mem_entries.1 (show (q.1, q.2) ∈ _ from hq))
  rw [he, h2] at h1
  simp only [Option.some.injEq] at h1
  have hlt' : p.1 < q.1 := hlt
  omega

theorem insertL_last {k v : Nat} : ∀ {l : List (Nat × Nat)}, (∀ p ∈ l, p.1 < k) →
    BMap.insertL k v l = l ++ [(k, v)]
  | [], _ => rfl
  | (a, b) :: l, h => by
    have ha := h (a, b) (by simp)
    simp only at ha
    simp only [BMap.insertL, List.cons_append]
    rw [if_neg (by omega), if_neg (by omega), insertL_last (fun p hp => h p (by simp [hp]))]

theorem add_seq {s s' : Store} {t : Tx} (h : add s t = .ok s') : s'.bySeq = s.bySeq.insert s.nextSeq t.id := by
  unfold add at h
  rw [bind_eq_ok] at h
  obtain ⟨⟨e, anc⟩, h1, h2⟩ := h
  have he : e.tx = t := by
    unfold newEntry at h1
    simp only [bind_eq_ok, pure_eq_ok] at h1
    obtain ⟨_, _, _, _, _, _, _, _, ⟨_, _⟩, _, h3⟩ := h1
    cases h3; rfl
  simp only at h2
  unfold addEntry at h2
  simp only [bind_eq_ok] at h2
  obtain ⟨_, _, ⟨_, _⟩, _, _, _, _, _, h3⟩ := h2
  split at h3
  · cases h3
  · cases h3; rw [he]

theorem inOrder_add {s s' : Store} {t : Tx} (h : Inv s) (ha : add s t = .ok s') (hf : s.view t.id = none)
    (hv : ∀ k, s'.view k = if k = t.id then some t else s.view k) : inOrder s' = inOrder s ++ [t] := by
  have hent : s'.bySeq.entries = s.bySeq.entries ++ [(s.nextSeq, t.id)] := by
    rw [add_seq ha]
    exact insertL_last (fun p hp =>
      h.seq_lt _ _ ((h.seq_inv _ _).2 (BMap.mem_entries.1 (show (p.1, p.2) ∈ _ from hp))))
  rw [inOrder_eq, inOrder_eq, hent, List.filterMap_append]
  congr 1
  · apply List.filterMap_congr
    intro p hp
    have h1 := (h.seq_inv _ _).2 (BMap.mem_entries.1 (show (p.1, p.2) ∈ _ from hp))
    obtain ⟨e, he⟩ := mem_ids.1 ((h.seq_dom p.2).1 ⟨_, h1⟩)
    rw [hv, if_neg]
    intro e1
    rw [e1] at he
    rw [view_none.1 hf] at he
    cases he
  · simp [hv]

theorem inOrder_drop {s s' : Store} (h : Inv s) (h' : Inv s')
    (hv : ∀ k t, s'.view k = some t → s.view k = some t)
    (hq : ∀ k i, s'.seqOf.get k = some i → s.seqOf.get k = some i) :
    inOrder s' = (inOrder s).filter (fun t => (s'.view t.id).isSome) := by
  have hseq : s'.bySeq = s.bySeq.filter (fun _ k => (s'.view k).isSome) := by
    apply BMap.ext_get
    intro n
    rw [BMap.get_filter]
    apply Option.ext
    intro k
    rw [← h'.seq_inv, Option.filter_eq_some_iff, ← h.seq_inv]
    constructor
    · intro h1
      obtain ⟨e, he⟩ := mem_ids.1 ((h'.seq_dom k).1 ⟨_, h1⟩)
      exact ⟨hq _ _ h1, by rw [view_some.2 ⟨e, he, rfl⟩]; rfl⟩
    · rintro ⟨h1, h2⟩
      obtain ⟨t, ht⟩ := Option.isSome_iff_exists.1 h2
      obtain ⟨e, he, -⟩ := view_some.1 ht
      obtain ⟨m, hm⟩ := (h'.seq_dom k).2 (mem_ids.2 ⟨e, he⟩)
      have := hq _ _ hm
      rw [h1] at this
      rw [hm, ← this]
  rw [inOrder_eq, inOrder_eq, hseq]
  show (s.bySeq.entries.filter _).filterMap _ = _
  rw [List.filterMap_filter, List.filter_filterMap]
  apply List.filterMap_congr
  intro p hp
  cases hvp : s'.view p.2 with
  | none =>
    cases hvs : s.view p.2 with
    | none => simp
    | some t =>
      obtain ⟨e, he, rfl⟩ := view_some.1 hvs
      simp [Option.filter, (h.key _ _ he).1, hvp]
  | some t =>
    have hvs := hv _ _ hvp
    obtain ⟨e, he, rfl⟩ := view_some.1 hvs
    simp [hvs, Option.filter, (h.key _ _ he).1, hvp]

theorem sum_fee (l : List (Nat × Nat × Nat)) : l.sum.2.1 = (l.map (fun x => x.2.1)).sum := by
  induction l with
  | nil => rfl
  | cons a l ih => simp [ih]

theorem total_inOrder {s : Store} (h : Inv s) :
    (total s.view s.ids (fun _ => True)).2.1 = ((inOrder s).map Tx.fee).sum := by
  have h1 : total s.view s.ids (fun _ => True) = (((inOrder s).map Tx.id).map (weightAt s.view)).sum := by
    rw [← total_list (inOrder_nodup h) (P := fun _ => True)]
    intro k
    simp only [and_true, List.mem_map]
    constructor
    · rintro ⟨t, ht, rfl⟩
      obtain ⟨e, he, -⟩ := view_some.1 ((mem_inOrder h).1 ht)
      exact mem_ids.2 ⟨e, he⟩
    · intro hk
      obtain ⟨e, he⟩ := mem_ids.1 hk
      have hid := (h.key k e he).1
      exact ⟨e.tx, (mem_inOrder h).2 (by rw [hid]; exact view_some.2 ⟨e, he, rfl⟩), hid⟩
  rw [h1, sum_fee, List.map_map, List.map_map]
  congr 1
  apply List.map_congr_left
  intro t ht
  simp [weightAt, (mem_inOrder h).1 ht, weight]

end Verif.TxPool
