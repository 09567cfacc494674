import Verif.TxOrphans.Pool

/-! # The work queue -/

namespace Verif.TxOrphans

/-- The peer has this item in its queue. -/
def Queue.Has (q : Queue) (peer item : Nat) : Prop := ∃ s, q.items.get peer = some s ∧ s.get item = some ()

/-- Peers are scheduled once; a scheduled peer that is not disconnected has work; a scheduled peer without a queue is one
of the disconnected peers `gone`. -/
structure QOk (q : Queue) (gone : Nat → Prop) : Prop where
  nodup : q.sched.Nodup
  work : ∀ p ∈ q.sched, ∀ s, q.items.get p = some s → s.entries ≠ []
  gone : ∀ p ∈ q.sched, q.items.get p = none → gone p

/-- No peer has a queue when nothing is scheduled. -/
def QDone (q : Queue) : Prop := q.sched = [] → ∀ p, q.items.get p = none

theorem entries_nil {s : BMap Nat Unit} (h : ∀ x, s.get x = none) : s.entries = [] := by
  cases hl : s.entries with
  | nil => rfl
  | cons a t =>
    have : s.get a.1 = some a.2 := BMap.mem_entries.1 (by rw [hl]; exact List.mem_cons_self)
    rw [h] at this; cases this

theorem nonempty_iff {s : BMap Nat Unit} : s.entries ≠ [] ↔ ∃ x, s.get x = some () := by
  constructor
  · intro h
    cases hl : s.entries with
    | nil => exact absurd hl h
    | cons a t => exact ⟨a.1, BMap.mem_entries.1 (by rw [hl]; exact List.mem_cons_self)⟩
  · rintro ⟨x, hx⟩ hn
    have := BMap.mem_entries.2 hx
    rw [hn] at this; cases this

/-! ### Picking from the queue of a peer -/

/-- The items that are left. -/
def rest (s : BMap Nat Unit) (taken : List Nat) : BMap Nat Unit := s.filter (fun k _ => !taken.contains k)

theorem get_rest (s : BMap Nat Unit) (taken : List Nat) (x : Nat) :
    (rest s taken).get x = some () ↔ s.get x = some () ∧ x ∉ taken := by
  unfold rest
  rw [BMap.get_filter]
  cases h : s.get x with
  | none => simp
  | some u =>
    by_cases hx : x ∈ taken
    · rw [Option.filter_some_neg (by simp [hx])]; simp [hx]
    · rw [Option.filter_some_pos (by simp [hx])]; simp [hx]

theorem rest_erase (s : BMap Nat Unit) (taken : List Nat) (w : Nat) : (rest s taken).erase w = rest s (taken ++ [w]) := by
  apply BMap.ext_get
  intro k
  rw [BMap.get_erase]
  by_cases hk : k = w
  · rw [if_pos hk]
    cases h : (rest s (taken ++ [w])).get k with
    | none => rfl
    | some u =>
      have := (get_rest s _ k).1 h
      exact absurd (by rw [hk]; simp) this.2
  · rw [if_neg hk]
    have h1 := get_rest s taken k
    have h2 := get_rest s (taken ++ [w]) k
    have h3 : k ∉ taken ++ [w] ↔ k ∉ taken := by simp [hk]
    rw [h3] at h2
    cases ha : (rest s taken).get k with
    | none =>
      cases hb : (rest s (taken ++ [w])).get k with
      | none => rfl
      | some u =>
        have := h1.2 (h2.1 hb)
        rw [ha] at this; cases this
    | some u =>
      exact (h2.2 (h1.1 ha)).symm

theorem rest_nil (s : BMap Nat Unit) : rest s [] = s := by
  apply BMap.ext_get
  intro k
  unfold rest
  rw [BMap.get_filter]
  cases h : s.get k with
  | none => rfl
  | some u => rw [Option.filter_some_pos (by simp)]

theorem pickItems_go {R : Type} (h : Nat → Option R) (s : BMap Nat Unit) : ∀ (l : List (Nat × Unit)) (taken : List Nat),
    (∀ x ∈ taken, h x = none) →
    ∃ t o, pickItems h l (rest s taken) = (rest s (taken ++ t), o) ∧ (∀ x ∈ t, x ∈ l.map Prod.fst) ∧
      (o = none → t = l.map Prod.fst ∧ ∀ x ∈ taken ++ t, h x = none) ∧
      (∀ a, o = some a → ∃ w ∈ t, h w = some a ∧ ∀ x ∈ taken ++ t, x ≠ w → h x = none) := by
  intro l
  induction l with
  | nil =>
    intro taken ht
    refine ⟨[], none, by rw [pickItems, List.append_nil], fun x hx => (by cases hx), fun _ => ⟨rfl, by simpa using ht⟩,
      fun a ha => (by cases ha)⟩
  | cons hd tl ih =>
    intro taken ht
    obtain ⟨w, u⟩ := hd
    rw [pickItems]
    cases hw : h w with
    | some a =>
      refine ⟨[w], some a, by simp only [rest_erase], fun x hx => ?_, fun hc => (by cases hc), ?_⟩
      · rw [List.mem_singleton.1 hx]; exact List.mem_cons_self
      · intro b hb
        cases hb
        refine ⟨w, List.mem_cons_self, hw, ?_⟩
        intro x hx hne
        rcases List.mem_append.1 hx with h1 | h1
        · exact ht x h1
        · exact absurd (List.mem_singleton.1 h1) hne
    | none =>
      obtain ⟨t, o, h1, h2, h3, h4⟩ := ih (taken ++ [w]) (by
        intro x hx
        rcases List.mem_append.1 hx with h1 | h1
        · exact ht x h1
        · rw [List.mem_singleton.1 h1]; exact hw)
      have happ : taken ++ [w] ++ t = taken ++ (w :: t) := by simp
      refine ⟨w :: t, o, ?_, ?_, ?_, ?_⟩
      · simp only [rest_erase]
        rw [h1, happ]
      · intro x hx
        rcases List.mem_cons.1 hx with rfl | hx
        · exact List.mem_cons_self
        · exact List.mem_cons_of_mem _ (h2 x hx)
      · intro ho
        obtain ⟨h5, h6⟩ := h3 ho
        rw [happ] at h6
        exact ⟨by rw [h5]; rfl, h6⟩
      · intro a ha
        obtain ⟨w', hw', h5, h6⟩ := h4 a ha
        rw [happ] at h6
        exact ⟨w', List.mem_cons_of_mem _ hw', h5, h6⟩

/-- Which items are taken out of the queue of a peer and what is answered. -/
def Took {R : Type} (h : Nat → Option R) (s s' : BMap Nat Unit) (o : Option R) : Prop :=
  ∃ taken : List Nat, s' = rest s taken ∧ (∀ x ∈ taken, s.get x = some ()) ∧
    (o = none → (∀ x ∈ taken, h x = none) ∧ s'.entries = []) ∧
    (∀ a, o = some a → ∃ w ∈ taken, h w = some a ∧ ∀ x ∈ taken, x ≠ w → h x = none)

theorem pickItems_spec {R : Type} (h : Nat → Option R) (s : BMap Nat Unit) :
    Took h s (pickItems h s.entries s).1 (pickItems h s.entries s).2 := by
  obtain ⟨t, o, h1, h2, h3, h4⟩ := pickItems_go h s s.entries [] (fun x hx => (by cases hx))
  rw [rest_nil] at h1
  rw [h1]
  refine ⟨t, by simp, ?_, ?_, by simpa using h4⟩
  · intro x hx
    obtain ⟨y, hy, rfl⟩ := List.mem_map.1 (h2 x hx)
    exact BMap.mem_entries.1 hy
  · intro ho
    obtain ⟨h5, h6⟩ := h3 ho
    refine ⟨by simpa using h6, ?_⟩
    apply entries_nil
    intro x
    cases hg : (rest s ([] ++ t)).get x with
    | none => rfl
    | some u =>
      obtain ⟨h7, h8⟩ := (get_rest s _ x).1 hg
      exfalso
      apply h8
      rw [List.nil_append, h5]
      exact List.mem_map.2 ⟨(x, ()), BMap.mem_entries.2 h7, rfl⟩

theorem Took.shorter {R : Type} {h : Nat → Option R} {s s' : BMap Nat Unit} {o : Option R} (ht : Took h s s' o)
    (hs : s.entries ≠ []) : s'.entries.length < s.entries.length := by
  obtain ⟨taken, rfl, h1, h2, h3⟩ := ht
  cases o with
  | none =>
    rw [(h2 rfl).2]
    exact List.length_pos_of_ne_nil hs
  | some a =>
    obtain ⟨w, hw, _⟩ := h3 a rfl
    unfold rest BMap.filter
    simp only
    apply List.length_filter_lt_length_iff_exists.2
    exact ⟨(w, ()), BMap.mem_entries.2 (h1 w hw), by simp [hw]⟩

/-! ### Rounds -/

theorem keys_mem {K V : Type} [LinearOrder K] (m : BMap K V) (k : K) : k ∈ m.entries.map Prod.fst ↔ ∃ v, m.get k = some v := by
  rw [List.mem_map]
  constructor
  · rintro ⟨⟨a, v⟩, h, rfl⟩
    exact ⟨v, BMap.mem_entries.1 h⟩
  · rintro ⟨v, h⟩
    exact ⟨(k, v), BMap.mem_entries.2 h, rfl⟩

theorem keys_nodup {V : Type} (m : BMap Nat V) : (m.entries.map Prod.fst).Nodup := by
  have := m.sorted
  rw [List.Nodup, List.pairwise_map]
  exact this.imp (fun h => ne_of_lt h)

theorem get_kept (m : BMap Nat (BMap Nat Unit)) (p : Nat) (s : BMap Nat Unit) :
    (m.filter (fun _ s => !s.entries.isEmpty)).get p = some s ↔ m.get p = some s ∧ s.entries ≠ [] := by
  rw [BMap.get_filter]
  cases h : m.get p with
  | none => simp
  | some s' =>
    by_cases he : s'.entries = []
    · rw [Option.filter_some_neg (by simp [he])]
      constructor
      · intro hc; cases hc
      · rintro ⟨h1, h2⟩; cases h1; exact absurd he h2
    · rw [Option.filter_some_pos (by simp [he])]
      constructor
      · intro hc; cases hc; exact ⟨rfl, he⟩
      · rintro ⟨h1, _⟩; exact h1

theorem advance_busy {q : Queue} (r : Rnd) (h : q.sched ≠ []) : q.advance r = q := by
  unfold Queue.advance
  rw [if_neg]
  intro hc
  exact h (List.isEmpty_iff.1 hc)

/-- A new round: the peers with work, each once. -/
theorem advance_new {q : Queue} (r : Rnd) (h : q.sched = []) :
    (q.advance r).items = q.items.filter (fun _ s => !s.entries.isEmpty) ∧ (q.advance r).sched.Nodup ∧
    ∀ p, p ∈ (q.advance r).sched ↔ ∃ s, q.items.get p = some s ∧ s.entries ≠ [] := by
  unfold Queue.advance
  rw [if_pos (List.isEmpty_iff.2 h)]
  refine ⟨rfl, ?_, ?_⟩
  · exact (r.shuffle_perm _).nodup_iff.2 (keys_nodup _)
  · intro p
    show p ∈ r.shuffle _ ↔ _
    rw [(r.shuffle_perm _).mem_iff, keys_mem]
    constructor
    · rintro ⟨s, hs⟩; exact ⟨s, (get_kept _ _ _).1 hs⟩
    · rintro ⟨s, hs⟩; exact ⟨s, (get_kept _ _ _).2 hs⟩

theorem advance_has (q : Queue) (r : Rnd) (p x : Nat) : (q.advance r).Has p x ↔ q.Has p x := by
  by_cases h : q.sched = []
  · unfold Queue.Has
    rw [(advance_new r h).1]
    constructor
    · rintro ⟨s, h1, h2⟩
      exact ⟨s, ((get_kept _ _ _).1 h1).1, h2⟩
    · rintro ⟨s, h1, h2⟩
      exact ⟨s, (get_kept _ _ _).2 ⟨h1, nonempty_iff.2 ⟨x, h2⟩⟩, h2⟩
  · rw [advance_busy r h]

theorem advance_ok {q : Queue} {gone : Nat → Prop} (r : Rnd) (h : QOk q gone) : QOk (q.advance r) gone := by
  by_cases hs : q.sched = []
  · obtain ⟨h1, h2, h3⟩ := advance_new r hs
    refine ⟨h2, ?_, ?_⟩
    · intro p hp s hs
      rw [h1] at hs
      exact ((get_kept _ _ _).1 hs).2
    · intro p hp hn
      obtain ⟨s, h4⟩ := (h3 p).1 hp
      rw [h1, (get_kept _ _ _).2 h4] at hn
      cases hn
  · rw [advance_busy r hs]; exact h

theorem advance_done (q : Queue) (r : Rnd) : QDone (q.advance r) := by
  by_cases hs : q.sched = []
  · obtain ⟨h1, _, h3⟩ := advance_new r hs
    intro he p
    rw [h1]
    cases hg : (q.items.filter (fun _ s => !s.entries.isEmpty)).get p with
    | none => rfl
    | some s =>
      have := (h3 p).2 ⟨s, (get_kept _ _ _).1 hg⟩
      rw [he] at this; cases this
  · rw [advance_busy r hs]
    intro hc; exact absurd hc hs

/-! ### Items in all -/

/-- Number of items. -/
def Queue.total (q : Queue) : Nat := q.items.sumV (fun _ s => s.entries.length)

theorem sum_kept : ∀ (l : List (Nat × BMap Nat Unit)),
    ((l.filter (fun kv => !kv.2.entries.isEmpty)).map (fun kv => kv.2.entries.length)).sum =
      (l.map (fun kv => kv.2.entries.length)).sum
  | [] => rfl
  | a :: t => by
    rw [List.filter_cons]
    split
    · rw [List.map_cons, List.sum_cons, sum_kept t, List.map_cons, List.sum_cons]
    · next h =>
      have : a.2.entries = [] := by simpa using h
      rw [sum_kept t, List.map_cons, List.sum_cons, this]
      simp

theorem advance_total (q : Queue) (r : Rnd) : (q.advance r).total = q.total := by
  by_cases hs : q.sched = []
  · unfold Queue.total
    rw [(advance_new r hs).1]
    exact sum_kept q.items.entries
  · rw [advance_busy r hs]

/-! ### Inserting and removing -/

theorem pushAt_perm (l : List Nat) (pos p : Nat) : (pushAt l pos p).Perm (p :: l) := by
  unfold pushAt
  split
  · exact List.perm_append_singleton _ _
  · next other h => exact (List.perm_append_singleton _ _).trans (set_perm h)

theorem insert_has (q : Queue) (r : Rnd) (p x p' x' : Nat) :
    (q.insert r p x).Has p' x' ↔ (p' = p ∧ x' = x) ∨ q.Has p' x' := by
  have h1 : ∀ (s s0 : BMap Nat Unit), s0.get x' = s.get x' → ((s0.insert x ()).get x' = some () ↔ x' = x ∨ s.get x' = some ()) := by
    intro s s0 h0
    rw [BMap.get_insert]
    by_cases hx : x' = x
    · rw [if_pos hx]; simp [hx]
    · rw [if_neg hx, h0]; simp [hx]
  unfold Queue.insert Queue.Has
  cases hg : q.items.get p with
  | some s =>
    simp only
    by_cases hp : p' = p
    · subst hp
      rw [BMap.get_insert, if_pos rfl, hg]
      constructor
      · rintro ⟨s', hs', hx⟩
        cases hs'
        rcases (h1 s s rfl).1 hx with h | h
        · exact Or.inl ⟨rfl, h⟩
        · exact Or.inr ⟨s, rfl, h⟩
      · rintro (⟨_, h⟩ | ⟨s', hs', h⟩)
        · exact ⟨_, rfl, (h1 s s rfl).2 (Or.inl h)⟩
        · cases hs'; exact ⟨_, rfl, (h1 s s rfl).2 (Or.inr h)⟩
    · rw [BMap.get_insert_ne _ _ hp]
      constructor
      · intro h; exact Or.inr h
      · rintro (⟨h, _⟩ | h)
        · exact absurd h hp
        · exact h
  | none =>
    simp only
    by_cases hp : p' = p
    · subst hp
      rw [BMap.get_insert, if_pos rfl, hg]
      constructor
      · rintro ⟨s', hs', hx⟩
        cases hs'
        rcases (h1 BMap.empty BMap.empty rfl).1 hx with h | h
        · exact Or.inl ⟨rfl, h⟩
        · cases h
      · rintro (⟨_, h⟩ | ⟨s', hs', h⟩)
        · exact ⟨_, rfl, (h1 BMap.empty BMap.empty rfl).2 (Or.inl h)⟩
        · cases hs'
    · rw [BMap.get_insert_ne _ _ hp]
      constructor
      · intro h; exact Or.inr h
      · rintro (⟨h, _⟩ | h)
        · exact absurd h hp
        · exact h

theorem insert_nonempty (s : BMap Nat Unit) (x : Nat) : (s.insert x ()).entries ≠ [] :=
  nonempty_iff.2 ⟨x, by rw [BMap.get_insert, if_pos rfl]⟩

theorem insert_ok {q : Queue} {gone : Nat → Prop} (h : QOk q gone) (r : Rnd) {p : Nat} (x : Nat) (hp : ¬ gone p) :
    QOk (q.insert r p x) gone := by
  unfold Queue.insert
  cases hg : q.items.get p with
  | some s =>
    refine ⟨h.nodup, ?_, ?_⟩
    · intro p' hp' s' hs'
      have hs'' : (q.items.insert p (s.insert x ())).get p' = some s' := hs'
      by_cases he : p' = p
      · subst he
        rw [BMap.get_insert, if_pos rfl] at hs''
        cases hs''
        exact insert_nonempty s x
      · rw [BMap.get_insert_ne _ _ he] at hs''
        exact h.work p' hp' s' hs''
    · intro p' hp' hn
      have hn' : (q.items.insert p (s.insert x ())).get p' = none := hn
      by_cases he : p' = p
      · subst he
        rw [BMap.get_insert, if_pos rfl] at hn'; cases hn'
      · rw [BMap.get_insert_ne _ _ he] at hn'
        exact h.gone p' hp' hn'
  | none =>
    have hnot : p ∉ q.sched := fun hc => hp (h.gone p hc hg)
    have hperm := pushAt_perm q.sched (r.draw 0 (q.sched.length + 1)) p
    refine ⟨hperm.nodup_iff.2 (List.nodup_cons.2 ⟨hnot, h.nodup⟩), ?_, ?_⟩
    · intro p' hp' s' hs'
      have hs'' : (q.items.insert p (BMap.empty.insert x ())).get p' = some s' := hs'
      by_cases he : p' = p
      · subst he
        rw [BMap.get_insert, if_pos rfl] at hs''
        cases hs''
        exact insert_nonempty _ x
      · rw [BMap.get_insert_ne _ _ he] at hs''
        have hm : p' ∈ q.sched := by
          rcases List.mem_cons.1 (hperm.subset hp') with h1 | h1
          · exact absurd h1 he
          · exact h1
        exact h.work p' hm s' hs''
    · intro p' hp' hn
      have hn' : (q.items.insert p (BMap.empty.insert x ())).get p' = none := hn
      by_cases he : p' = p
      · subst he
        rw [BMap.get_insert, if_pos rfl] at hn'; cases hn'
      · rw [BMap.get_insert_ne _ _ he] at hn'
        have hm : p' ∈ q.sched := by
          rcases List.mem_cons.1 (hperm.subset hp') with h1 | h1
          · exact absurd h1 he
          · exact h1
        exact h.gone p' hm hn'

theorem insert_done {q : Queue} (h : QDone q) (r : Rnd) (p x : Nat) : QDone (q.insert r p x) := by
  unfold Queue.insert
  cases hg : q.items.get p with
  | some s =>
    intro hs p'
    have hs' : q.sched = [] := hs
    rw [h hs' p] at hg; cases hg
  | none =>
    intro hs
    have hperm := pushAt_perm q.sched (r.draw 0 (q.sched.length + 1)) p
    have hs' : pushAt q.sched (r.draw 0 (q.sched.length + 1)) p = [] := hs
    rw [hs'] at hperm
    exact absurd hperm.length_eq (by simp)

theorem removePeer_has (q : Queue) (p p' x : Nat) : (q.removePeer p).Has p' x ↔ p' ≠ p ∧ q.Has p' x := by
  unfold Queue.removePeer Queue.Has
  simp only
  by_cases hp : p' = p
  · subst hp
    rw [BMap.get_erase, if_pos rfl]
    constructor
    · rintro ⟨s, hs, _⟩; cases hs
    · rintro ⟨h, _⟩; exact absurd rfl h
  · rw [BMap.get_erase_ne _ hp]
    exact ⟨fun h => ⟨hp, h⟩, fun h => h.2⟩

theorem removePeer_ok {q : Queue} {gone : Nat → Prop} (h : QOk q gone) (p : Nat) :
    QOk (q.removePeer p) (fun x => x = p ∨ gone x) := by
  refine ⟨h.nodup, ?_, ?_⟩
  · intro p' hp' s hs
    have hs' : (q.items.erase p).get p' = some s := hs
    by_cases he : p' = p
    · subst he
      rw [BMap.get_erase, if_pos rfl] at hs'; cases hs'
    · rw [BMap.get_erase_ne _ he] at hs'
      exact h.work p' hp' s hs'
  · intro p' hp' hn
    have hn' : (q.items.erase p).get p' = none := hn
    by_cases he : p' = p
    · exact Or.inl he
    · rw [BMap.get_erase_ne _ he] at hn'
      exact Or.inr (h.gone p' hp' hn')

theorem removePeer_done {q : Queue} (h : QDone q) (p : Nat) : QDone (q.removePeer p) := by
  intro hs p'
  show (q.items.erase p).get p' = none
  by_cases he : p' = p
  · subst he; rw [BMap.get_erase, if_pos rfl]
  · rw [BMap.get_erase_ne _ he]; exact h hs p'

/-! ### Picking -/

/-- What a call of `pick` does to the queue. -/
structure Picked {R : Type} (h : Nat → Nat → Option R) (q q' : Queue) (served : Option Nat) (o : Option R) : Prop where
  none : served = none → o = none ∧ q'.sched = [] ∧ ∀ p x, ¬ q.Has p x
  some : ∀ p, served = some p → ∃ s s', q.items.get p = some s ∧ s.entries ≠ [] ∧ Took (h p) s s' o ∧
    (∀ x, q'.Has p x ↔ s'.get x = some ()) ∧ (∀ p', p' ≠ p → ∀ x, q'.Has p' x ↔ q.Has p' x) ∧ q'.total < q.total

theorem serve_total {m : BMap Nat (BMap Nat Unit)} {p : Nat} {s s' : BMap Nat Unit} (h : m.get p = some s)
    (hl : s'.entries.length < s.entries.length) :
    (m.insert p s').sumV (fun _ s => s.entries.length) < m.sumV (fun _ s => s.entries.length) := by
  rw [BMap.sumV_insert, BMap.sumV_erase_of_get _ h]
  omega

theorem dropLast_sub {l : List Nat} {p x : Nat} (hl : l.getLast? = some p) (hn : l.Nodup) :
    x ∈ l.dropLast ↔ x ∈ l ∧ x ≠ p := by
  obtain ⟨init, rfl⟩ : ∃ init, l = init ++ [p] := by
    obtain ⟨ys, hys⟩ := List.getLast?_eq_some_iff.1 hl
    exact ⟨ys, hys⟩
  rw [List.dropLast_concat]
  rw [List.nodup_append] at hn
  constructor
  · intro hx
    exact ⟨List.mem_append_left _ hx, fun he => hn.2.2 x hx p List.mem_cons_self he⟩
  · rintro ⟨hx, hne⟩
    rcases List.mem_append.1 hx with h | h
    · exact h
    · exact absurd (List.mem_singleton.1 h) hne

/-- `pick` never fails and keeps the queue in order. -/
theorem pickLoop_spec {R : Type} (r : Rnd) (h : Nat → Nat → Option R) : ∀ (fuel : Nat) {q : Queue} {gone : Nat → Prop},
    QOk q gone → QDone q →
    (q.sched.length + 1 ≤ fuel ∨ (1 ≤ fuel ∧ ∀ p ∈ q.sched, ∃ s, q.items.get p = some s)) →
    ∃ q' served o, Queue.pickLoop r h fuel q = some (q', served, o) ∧ QOk q' gone ∧ QDone q' ∧ Picked h q q' served o := by
  intro fuel
  induction fuel with
  | zero => intro q gone _ _ hf; exfalso; omega
  | succ n ih =>
    intro q gone hq hd hf
    rw [Queue.pickLoop]
    cases hl : q.sched.getLast? with
    | none =>
      have hs : q.sched = [] := List.getLast?_eq_none_iff.1 hl
      refine ⟨q, none, none, rfl, hq, hd, ⟨fun _ => ⟨rfl, hs, ?_⟩, fun p hp => (by cases hp)⟩⟩
      rintro p x ⟨s, h1, _⟩
      rw [hd hs p] at h1; cases h1
    | some peer =>
      have hpm : peer ∈ q.sched := List.mem_of_getLast? hl
      have hdl : ∀ x, x ∈ q.sched.dropLast ↔ x ∈ q.sched ∧ x ≠ peer := fun x => dropLast_sub hl hq.nodup
      have hlen : q.sched.dropLast.length + 1 = q.sched.length := by
        rw [List.length_dropLast]
        have := List.length_pos_of_mem hpm
        omega
      cases hg : q.items.get peer with
      | none =>
        simp only [hg]
        have hf' : q.sched.length ≤ n := by
          rcases hf with hf | ⟨_, hf⟩
          · omega
          · obtain ⟨s, hs⟩ := hf peer hpm
            rw [hg] at hs; cases hs
        have ok1 : QOk ⟨q.items, q.sched.dropLast⟩ gone :=
          ⟨hq.nodup.sublist (List.dropLast_sublist _), fun p hp => hq.work p ((hdl p).1 hp).1,
            fun p hp => hq.gone p ((hdl p).1 hp).1⟩
        have ok2 := advance_ok r ok1
        obtain ⟨q', served, o, h1, h2, h3, h4⟩ := ih ok2 (advance_done _ r) (by
          by_cases hs : q.sched.dropLast = []
          · right
            refine ⟨by omega, ?_⟩
            intro p hp
            obtain ⟨a1, _, a3⟩ := advance_new (q := ⟨q.items, q.sched.dropLast⟩) r hs
            obtain ⟨s, hs2⟩ := (a3 p).1 hp
            exact ⟨s, by rw [a1]; exact (get_kept _ _ _).2 hs2⟩
          · left
            rw [advance_busy r hs]
            show q.sched.dropLast.length + 1 ≤ n
            omega)
        refine ⟨q', served, o, h1, h2, h3, ⟨?_, ?_⟩⟩
        · intro hs
          obtain ⟨a1, a2, a3⟩ := h4.none hs
          exact ⟨a1, a2, fun p x hx => a3 p x ((advance_has _ r p x).2 hx)⟩
        · intro p hs
          obtain ⟨s, s', b1, b2, b3, b4, b5, b6⟩ := h4.some p hs
          have b1' : q.items.get p = some s := by
            by_cases hs2 : q.sched.dropLast = []
            · obtain ⟨a1, _, _⟩ := advance_new (q := ⟨q.items, q.sched.dropLast⟩) r hs2
              rw [a1] at b1
              exact ((get_kept _ _ _).1 b1).1
            · rw [advance_busy r hs2] at b1; exact b1
          refine ⟨s, s', b1', b2, b3, b4, ?_, ?_⟩
          · intro p' hp' x
            rw [b5 p' hp' x, advance_has]
            exact Iff.rfl
          · rw [advance_total] at b6; exact b6
      | some s =>
        simp only [hg]
        have hne : s.entries ≠ [] := hq.work peer hpm s hg
        rw [if_neg (by simpa using hne)]
        have htook := pickItems_spec (h peer) s
        generalize pickItems (h peer) s.entries s = res at htook
        obtain ⟨s', o⟩ := res
        have ok1 : QOk ⟨q.items.insert peer s', q.sched.dropLast⟩ gone := by
          refine ⟨hq.nodup.sublist (List.dropLast_sublist _), ?_, ?_⟩
          · intro p hp s2 hs2
            have hs2' : (q.items.insert peer s').get p = some s2 := hs2
            rw [BMap.get_insert_ne _ _ ((hdl p).1 hp).2] at hs2'
            exact hq.work p ((hdl p).1 hp).1 s2 hs2'
          · intro p hp hn
            have hn' : (q.items.insert peer s').get p = none := hn
            rw [BMap.get_insert_ne _ _ ((hdl p).1 hp).2] at hn'
            exact hq.gone p ((hdl p).1 hp).1 hn'
        refine ⟨_, some peer, o, rfl, advance_ok r ok1, advance_done _ r, ⟨fun hc => (by cases hc), ?_⟩⟩
        intro p hp
        cases hp
        refine ⟨s, s', hg, hne, htook, ?_, ?_, ?_⟩
        · intro x
          rw [advance_has]
          unfold Queue.Has
          simp only
          rw [BMap.get_insert, if_pos rfl]
          constructor
          · rintro ⟨a, ha, hx⟩; cases ha; exact hx
          · intro hx; exact ⟨s', rfl, hx⟩
        · intro p' hp' x
          rw [advance_has]
          unfold Queue.Has
          simp only
          rw [BMap.get_insert_ne _ _ hp']
        · rw [advance_total]
          exact serve_total hg (htook.shorter hne)

theorem pick_spec {R : Type} (r : Rnd) (h : Nat → Nat → Option R) {q : Queue} {gone : Nat → Prop} (hq : QOk q gone) (hd : QDone q) :
    ∃ q' served o, q.pick r h = some (q', served, o) ∧ QOk q' gone ∧ QDone q' ∧ Picked h q q' served o :=
  pickLoop_spec r h _ hq hd (Or.inl (by omega))

end Verif.TxOrphans
