import Verif.PeerDb.Inv

/-! The other operations keep the invariant, and so does a start. -/

namespace Verif.PeerDb

open Verif

theorem foldlM_inv {A S E : Type} (f : S → A → Except E S) (P : List A → S → Prop) : ∀ (l done : List A) (s : S), P done s →
    (∀ (pre post : List A) (a : A) (s : S), done ++ l = pre ++ a :: post → P pre s → ∃ s', f s a = .ok s' ∧ P (pre ++ [a]) s') →
    ∃ r, l.foldlM f s = .ok r ∧ P (done ++ l) r := by
  intro l
  induction l with
  | nil => intro done s h _; exact ⟨s, rfl, by simpa using h⟩
  | cons a l ih =>
    intro done s h hs
    obtain ⟨s', h1, h2⟩ := hs done l a s rfl h
    obtain ⟨r, h3, h4⟩ := ih (done ++ [a]) s' h2 (fun pre post x s e => hs pre post x s (by rw [← e]; simp))
    refine ⟨r, ?_, by simpa using h4⟩
    rw [List.foldlM_cons, h1, ok_bind]; exact h3

/-! ### Sets -/

theorem setOf_foldl_get (l : List Addr) : ∀ (m : BMap Addr Unit) (a : Addr),
    ((l.map fun a => (a, ())).foldl (fun m kv => m.insert kv.1 kv.2) m).get a = if a ∈ l then some () else m.get a := by
  induction l with
  | nil => intro m a; simp
  | cons x l ih =>
    intro m a
    rw [List.map_cons, List.foldl_cons, ih, BMap.get_insert]
    by_cases h1 : a ∈ l
    · simp [h1]
    · by_cases h2 : a = x
      · simp [h2]
      · simp [h1, h2]

theorem setOf_get (l : List Addr) (a : Addr) : (setOf l).get a = if a ∈ l then some () else none := by
  unfold setOf BMap.ofList
  rw [setOf_foldl_get]; rfl

theorem mem_setOf (l : List Addr) (a : Addr) : a ∈ (setOf l).entries.map (·.1) ↔ a ∈ l := by
  rw [List.mem_map]
  constructor
  · rintro ⟨⟨x, u⟩, h, rfl⟩
    have := BMap.mem_entries.1 h
    rw [setOf_get] at this
    split at this
    · assumption
    · cases this
  · intro h
    exact ⟨(a, ()), BMap.mem_entries.2 (by rw [setOf_get, if_pos h]), rfl⟩

/-! ### Bans -/

/-- deleting the expired entries one by one is keeping the others -/
theorem expire_eq (m : BMap Nat Nat) (now : Nat) :
    ((m.entries.filter fun r => ¬ (now < r.2)).map (·.1)).foldl (fun m a => m.erase a) m = m.filter fun _ till => decide (now < till) := by
  apply BMap.ext_get
  intro k
  rw [foldl_erase_get, BMap.get_filter]
  cases e : m.get k with
  | none => simp
  | some till =>
    have : (k ∈ (m.entries.filter fun r => ¬ (now < r.2)).map (·.1)) ↔ ¬ now < till := by
      rw [List.mem_map]
      constructor
      · rintro ⟨⟨x, y⟩, h, rfl⟩
        obtain ⟨h1, h2⟩ := List.mem_filter.1 h
        rw [BMap.mem_entries, e] at h1
        cases h1
        simpa using h2
      · intro h
        exact ⟨(k, till), List.mem_filter.2 ⟨BMap.mem_entries.2 e, by simpa using h⟩, rfl⟩
    by_cases h : now < till
    · rw [if_neg (by rw [this]; simpa using h)]; simp [Option.filter, h]
    · rw [if_pos (this.2 h)]; simp [Option.filter, h]

theorem anchors_eq (m : BMap Addr Unit) (new : BMap Addr Unit) :
    ((new.entries.map (·.1)).filter fun a => ¬ m.contains a).foldl (fun m a => m.insert a ())
      (((m.entries.map (·.1)).filter fun a => ¬ new.contains a).foldl (fun m a => m.erase a) m) = new := by
  have ins : ∀ (l : List Addr) (m : BMap Addr Unit) (a : Addr), (l.foldl (fun m a => m.insert a ()) m).get a =
      if a ∈ l then some () else m.get a := by
    intro l
    induction l with
    | nil => intro m a; simp
    | cons x l ih =>
      intro m a
      rw [List.foldl_cons, ih, BMap.get_insert]
      by_cases h1 : a ∈ l
      · simp [h1]
      · by_cases h2 : a = x
        · simp [h2]
        · simp [h1, h2]
  have mem : ∀ (m : BMap Addr Unit) (a : Addr), a ∈ m.entries.map (·.1) ↔ m.get a = some () := by
    intro m a
    rw [List.mem_map]
    constructor
    · rintro ⟨⟨x, u⟩, h, rfl⟩; exact BMap.mem_entries.1 h
    · intro h; exact ⟨(a, ()), BMap.mem_entries.2 h, rfl⟩
  have cont : ∀ (m : BMap Addr Unit) (a : Addr), m.contains a = true ↔ m.get a = some () := contains_eq
  apply BMap.ext_get
  intro a
  rw [ins, foldl_erase_get]
  simp only [List.mem_filter, mem, decide_not, Bool.not_eq_eq_eq_not, Bool.not_true, decide_eq_false_iff_not, cont]
  cases e1 : new.get a <;> cases e2 : m.get a <;> simp

/-! ### Heartbeat, removal -/

theorem mem_gone {b : Book} {now : Nat} {a : Addr} : a ∈ (b.addresses.entries.filter fun r => ¬ r.2.retain now).map (·.1) ↔
    ∃ d, b.addresses.get a = some d ∧ d.retain now = false := by
  rw [List.mem_map]
  constructor
  · rintro ⟨⟨x, d⟩, h, rfl⟩
    obtain ⟨h1, h2⟩ := List.mem_filter.1 h
    exact ⟨d, BMap.mem_entries.1 h1, by simpa using h2⟩
  · rintro ⟨d, h1, h2⟩
    exact ⟨(a, d), List.mem_filter.2 ⟨BMap.mem_entries.2 h1, by simpa using h2⟩, rfl⟩

theorem heartbeat_eff {c : Cfg} (hc : c.WF) {k T : Nat} {b : Book} (h : Inv c k T b) (now : Nat) :
    ∃ b', b.heartbeat c now = .ok b' ∧ b'.tables.Ok c ∧
      (∀ x, b'.tables.Tried c x ↔ b.tables.Tried c x ∧ ¬ ∃ d, b.addresses.get x = some d ∧ d.retain now = false) ∧
      (∀ x, b'.tables.New c x ↔ b.tables.New c x ∧ ¬ ∃ d, b.addresses.get x = some d ∧ d.retain now = false) ∧
      (∀ x, b'.addresses.get x = (b.addresses.get x).filter fun d => d.retain now) ∧
      b'.reserved = b.reserved ∧ b'.anchors = b.anchors ∧
      (b'.banned = b.banned.filter fun _ till => decide (now < till)) ∧
      (b'.discouraged = b.discouraged.filter fun _ till => decide (now < till)) ∧
      b'.store.banned = b'.banned ∧ b'.store.discouraged = b'.discouraged ∧ b'.store.anchors = b.store.anchors ∧
      ∀ x, b'.store.known.get x = if ∃ d, b.addresses.get x = some d ∧ d.retain now = false then none else b.store.known.get x := by
  obtain ⟨ts, h1, h2, h3, h4⟩ := tremoves_holds hc ((b.addresses.entries.filter fun r => ¬ r.2.retain now).map (·.1)) h.ts
  have e : b.heartbeat c now = .ok { b with
    addresses := b.addresses.filter fun _ d => d.retain now
    tables := ts
    banned := b.banned.filter fun _ till => decide (now < till)
    discouraged := b.discouraged.filter fun _ till => decide (now < till)
    store := { b.store with
      known := ((b.addresses.entries.filter fun r => ¬ r.2.retain now).map (·.1)).foldl (fun m a => m.erase a) b.store.known
      banned := ((b.banned.entries.filter fun r => ¬ (now < r.2)).map (·.1)).foldl (fun m a => m.erase a) b.store.banned
      discouraged := ((b.discouraged.entries.filter fun r => ¬ (now < r.2)).map (·.1)).foldl (fun m a => m.erase a) b.store.discouraged } } := by
    unfold Book.heartbeat
    dsimp only
    rw [h1]; rfl
  refine ⟨_, e, h2, ?_, ?_, ?_, rfl, rfl, rfl, rfl, ?_, ?_, rfl, ?_⟩
  · intro x
    rw [← mem_gone]; exact h3 x
  · intro x
    rw [← mem_gone]; exact h4 x
  · intro x; exact BMap.get_filter _ _ _
  · dsimp only; rw [h.ban]; exact expire_eq _ _
  · dsimp only; rw [h.disc]; exact expire_eq _ _
  · intro x
    dsimp only
    rw [foldl_erase_get]
    by_cases hx : ∃ d, b.addresses.get x = some d ∧ d.retain now = false
    · rw [if_pos hx, if_pos (mem_gone.2 hx)]
    · rw [if_neg hx, if_neg fun h => hx (mem_gone.1 h)]

theorem inv_heartbeat {c : Cfg} (hc : c.WF) {k T : Nat} {b : Book} (h : Inv c k T b) (now : Nat) :
    ∃ b', b.heartbeat c now = .ok b' ∧ Inv c k T b' := by
  obtain ⟨b', e, h1, h2, h3, h4, h5, h6, h7, h8, h9, h10, h11, h12⟩ := heartbeat_eff hc h now
  refine ⟨b', e, h1, ?_, ?_, ?_, ?_, h9, h10, by rw [h11, h6]; exact h.anch, ?_, ?_⟩
  · intro a hn ht; exact h.disj a ((h3 a).1 hn).1 ((h2 a).1 ht).1
  · intro a ha
    have : ∃ d, b.addresses.get a = some d ∧ ¬ d.retain now = false := by
      have key : (b.tables.New c a ∨ b.tables.Tried c a) ∧ ¬ ∃ d, b.addresses.get a = some d ∧ d.retain now = false := by
        rcases ha with ha | ha
        · exact ⟨.inl ((h3 a).1 ha).1, ((h3 a).1 ha).2⟩
        · exact ⟨.inr ((h2 a).1 ha).1, ((h2 a).1 ha).2⟩
      obtain ⟨d, hd⟩ := h.known a key.1
      exact ⟨d, hd, fun hr => key.2 ⟨d, hd, hr⟩⟩
    obtain ⟨d, hd, hr⟩ := this
    rw [h4, hd]
    exact ⟨d, by simpa [Option.filter] using hr⟩
  · intro a
    rw [h5, h.resv]
    constructor
    · rintro ⟨d, hd, hr⟩
      have : d.retain now = true := by
        unfold Data.retain
        cases es : d.state with
        | unreachable e => have := (h.data a d hd).unre e es; rw [hr] at this; cases this
        | connected _ _ => rfl
        | disconnected _ _ _ => rfl
      exact ⟨d, by rw [h4, hd]; simp [Option.filter, this], hr⟩
    · rintro ⟨d, hd, hr⟩
      rw [h4] at hd
      exact ⟨d, (Option.filter_eq_some_iff.1 hd).1, hr⟩
  · intro a d hd
    rw [h4] at hd
    exact h.data a d (Option.filter_eq_some_iff.1 hd).1
  · intro a ha
    obtain ⟨g1, g2⟩ := (h2 a).1 ha
    rw [h12, if_neg g2]; exact h.triedSt a g1
  · intro a ha
    obtain ⟨g1, g2⟩ := (h3 a).1 ha
    rw [h12, if_neg g2]; exact h.newSt a g1

theorem removeAddress_eff {c : Cfg} (hc : c.WF) {k T : Nat} {b : Book} (h : Inv c k T b) (a : Addr) :
    ∃ ts, ts.Ok c ∧ (∀ x, ts.Tried c x ↔ b.tables.Tried c x ∧ x ≠ a) ∧ (∀ x, ts.New c x ↔ b.tables.New c x ∧ x ≠ a) ∧
      b.removeAddress c a = .ok { b with
        addresses := if b.reserved.contains a then b.addresses else b.addresses.erase a
        tables := ts
        store := { b.store with known := b.store.known.erase a } } := by
  obtain ⟨ts, h1, h2, h3, h4⟩ := tremove_holds hc h.ts a
  refine ⟨ts, h2, h3, h4, ?_⟩
  unfold Book.removeAddress
  rw [h1]; rfl

theorem inv_remove {c : Cfg} (hc : c.WF) {k T : Nat} {b : Book} (h : Inv c k T b) (a : Addr) :
    ∃ b', b.removeAddress c a = .ok b' ∧ Inv c k T b' := by
  obtain ⟨ts, h2, h3, h4, e⟩ := removeAddress_eff hc h a
  have hget : ∀ x, (if b.reserved.contains a then b.addresses else b.addresses.erase a).get x =
      if x = a ∧ b.reserved.get a = none then none else b.addresses.get x := by
    intro x
    by_cases hr : b.reserved.contains a = true
    · have := (contains_eq _ _).1 hr
      simp [hr, this]
    · have : b.reserved.get a = none := by
        cases e : b.reserved.get a with
        | none => rfl
        | some u => exact absurd ((contains_eq _ _).2 e) hr
      rw [if_neg hr, BMap.get_erase]
      simp [this]
  refine ⟨_, e, h2, ?_, ?_, ?_, ?_, h.ban, h.disc, h.anch, ?_, ?_⟩
  · intro x hn ht; exact h.disj x ((h4 x).1 hn).1 ((h3 x).1 ht).1
  · intro x hx
    dsimp only at hx ⊢
    have hx' : (b.tables.New c x ∨ b.tables.Tried c x) ∧ x ≠ a := by
      rcases hx with hx | hx
      · exact ⟨.inl ((h4 x).1 hx).1, ((h4 x).1 hx).2⟩
      · exact ⟨.inr ((h3 x).1 hx).1, ((h3 x).1 hx).2⟩
    rw [hget, if_neg fun h => hx'.2 h.1]
    exact h.known x hx'.1
  · intro x
    dsimp only
    rw [hget]
    split
    · next hx => rw [hx.1, hx.2]; simp
    · exact h.resv x
  · intro x d hx
    dsimp only at hx
    rw [hget] at hx
    split at hx
    · cases hx
    · exact h.data x d hx
  · intro x hx
    obtain ⟨g1, g2⟩ := (h3 x).1 hx
    change (b.store.known.erase a).get x = _
    rw [BMap.get_erase_ne _ g2]; exact h.triedSt x g1
  · intro x hx
    obtain ⟨g1, g2⟩ := (h4 x).1 hx
    change (b.store.known.erase a).get x ≠ _
    rw [BMap.get_erase_ne _ g2]; exact h.newSt x g1

/-! ### Start -/

/-- what holds while the known addresses are being loaded -/
structure Loaded (c : Cfg) (res : BMap Addr Unit) (now : Nat) (done : List (Addr × Bool)) (x : BMap Addr Data × Tables) : Prop where
  ts : x.2.Ok c
  addr : ∀ a d, x.1.get a = some d ↔ ∃ t, (a, t) ∈ done ∧ d = Data.new t (res.contains a) now
  tried : ∀ a, x.2.Tried c a → (a, true) ∈ done
  new : ∀ a, x.2.New c a → (a, false) ∈ done

theorem loadOne_spec {c : Cfg} (hc : c.WF) {res : BMap Addr Unit} {now : Nat} {l pre post : List (Addr × Bool)}
    (hs : l.Pairwise fun a b => a.1 < b.1) {r : Addr × Bool} (e : l = pre ++ r :: post) {x : BMap Addr Data × Tables}
    (h : Loaded c res now pre x) :
    ∃ y, loadOne c res now x r = .ok y ∧ Loaded c res now (pre ++ [r]) y ∧
      (r.2 = true → y.2.new = x.2.new ∧ ∃ q, Put c.triedH x.2.tried y.2.tried r.1 (fun _ => true) q) ∧
      (r.2 = false → y.2.tried = x.2.tried ∧ ∃ q, Put c.newH x.2.new y.2.new r.1 (fun _ => true) q) := by
  obtain ⟨a, t⟩ := r
  have hnot : ∀ t', (a, t') ∉ pre := by
    intro t' hm
    rw [e, List.pairwise_append] at hs
    have := hs.2.2 _ hm (a, t) (by simp)
    simp at this
  have haddr : ∀ (b : Addr) (d : Data), (x.1.insert a (Data.new t (res.contains a) now)).get b = some d ↔
      ∃ t', (b, t') ∈ pre ++ [(a, t)] ∧ d = Data.new t' (res.contains b) now := by
    intro b d
    rw [BMap.get_insert]
    by_cases eb : b = a
    · subst eb
      rw [if_pos rfl]
      constructor
      · intro h; exact ⟨t, by simp, (Option.some.inj h).symm⟩
      · rintro ⟨t', h1, rfl⟩
        rcases List.mem_append.1 h1 with h1 | h1
        · exact absurd h1 (hnot t')
        · simp at h1; rw [h1]
    · rw [if_neg eb, h.addr]
      constructor
      · rintro ⟨t', h1, h2⟩; exact ⟨t', List.mem_append_left _ h1, h2⟩
      · rintro ⟨t', h1, h2⟩
        rcases List.mem_append.1 h1 with h1 | h1
        · exact ⟨t', h1, h2⟩
        · simp at h1; exact absurd h1.1 eb
  cases t with
  | true =>
    obtain ⟨t', q, e1, e2, e3⟩ := replace_holds hc.tried h.ts.tried a
    refine ⟨(x.1.insert a (Data.new true (res.contains a) now), { x.2 with tried := t' }), ?_, ⟨⟨h.ts.new, e2⟩, haddr, ?_, ?_⟩,
      fun _ => ⟨rfl, q, e3⟩, by nofun⟩
    · unfold loadOne
      dsimp only
      rw [if_pos rfl, e1]; rfl
    · intro b hb
      rcases e3.holds_true.2 b hb with rfl | hb
      · simp
      · exact List.mem_append_left _ (h.tried b hb)
    · intro b hb
      exact List.mem_append_left _ (h.new b hb)
  | false =>
    obtain ⟨t', q, e1, e2, e3⟩ := replace_holds hc.new h.ts.new a
    refine ⟨(x.1.insert a (Data.new false (res.contains a) now), { x.2 with new := t' }), ?_, ⟨⟨e2, h.ts.tried⟩, haddr, ?_, ?_⟩,
      by nofun, fun _ => ⟨rfl, q, e3⟩⟩
    · unfold loadOne
      dsimp only
      rw [if_neg nofun, e1]; rfl
    · intro b hb
      exact List.mem_append_left _ (h.tried b hb)
    · intro b hb
      rcases e3.holds_true.2 b hb with rfl | hb
      · simp
      · exact List.mem_append_left _ (h.new b hb)

/-- what holds while the boot nodes are being added -/
structure Booted (c : Cfg) (s : Store) (res : BMap Addr Unit) (now : Nat) (done : List Addr) (x : BMap Addr Data × Tables) : Prop where
  ts : x.2.Ok c
  addr : ∀ a d, x.1.get a = some d ↔ (∃ t, s.known.get a = some t ∧ d = Data.new t (res.contains a) now) ∨
    (s.known.get a = none ∧ a ∈ done ∧ d = Data.new false false now)
  tried : ∀ a, x.2.Tried c a → s.known.get a = some true
  new : ∀ a, x.2.New c a → s.known.get a = some false ∨ (s.known.get a = none ∧ a ∈ done)

theorem bootOne_spec {c : Cfg} (hc : c.WF) {s : Store} {res : BMap Addr Unit} {now : Nat} {pre : List Addr} {a : Addr}
    {x : BMap Addr Data × Tables} (h : Booted c s res now pre x) :
    ∃ y, bootOne c now x a = .ok y ∧ Booted c s res now (pre ++ [a]) y := by
  unfold bootOne
  cases ha : x.1.get a with
  | some d =>
    rw [if_pos (by simp [BMap.contains, ha])]
    refine ⟨x, rfl, h.ts, ?_, h.tried, ?_⟩
    · intro b d'
      rw [h.addr]
      constructor
      · rintro (h1 | ⟨h1, h2, h3⟩)
        · exact .inl h1
        · exact .inr ⟨h1, List.mem_append_left _ h2, h3⟩
      · rintro (h1 | ⟨h1, h2, h3⟩)
        · exact .inl h1
        · rcases List.mem_append.1 h2 with h2 | h2
          · exact .inr ⟨h1, h2, h3⟩
          · simp at h2
            subst h2
            rcases (h.addr b d).1 ha with ⟨t, h4, _⟩ | ⟨h4, h5, _⟩
            · rw [h1] at h4; cases h4
            · exact .inr ⟨h4, h5, h3⟩
    · intro b hb
      rcases h.new b hb with h1 | ⟨h1, h2⟩
      · exact .inl h1
      · exact .inr ⟨h1, List.mem_append_left _ h2⟩
  | none =>
    rw [if_neg (by simp [BMap.contains, ha])]
    obtain ⟨t', q, e1, e2, e3⟩ := replace_holds hc.new h.ts.new a
    rw [e1, ok_bind]
    have hk : s.known.get a = none := by
      cases e : s.known.get a with
      | none => rfl
      | some t => have := (h.addr a _).2 (.inl ⟨t, e, rfl⟩); rw [ha] at this; cases this
    refine ⟨_, rfl, ⟨e2, h.ts.tried⟩, ?_, h.tried, ?_⟩
    · intro b d
      change (x.1.insert a _).get b = some d ↔ _
      rw [BMap.get_insert]
      by_cases eb : b = a
      · subst eb
        rw [if_pos rfl]
        constructor
        · intro e; exact .inr ⟨hk, by simp, (Option.some.inj e).symm⟩
        · rintro (⟨t, h1, _⟩ | ⟨_, _, h3⟩)
          · rw [hk] at h1; cases h1
          · rw [h3]
      · rw [if_neg eb, h.addr]
        simp [eb]
    · intro b hb
      rcases e3.holds_true.2 b hb with rfl | hb
      · exact .inr ⟨hk, by simp⟩
      · rcases h.new b hb with h1 | ⟨h1, h2⟩
        · exact .inl h1
        · exact .inr ⟨h1, List.mem_append_left _ h2⟩

theorem reserved_foldl (now : Nat) (l : List Addr) : ∀ (m : BMap Addr Data) (a : Addr),
    (l.foldl (reservedOne now) m).get a =
      match m.get a with
      | some d => some d
      | none => if a ∈ l then some (Data.new false true now) else none := by
  induction l with
  | nil => intro m a; cases e : m.get a <;> simp [e]
  | cons x l ih =>
    intro m a
    rw [List.foldl_cons, ih]
    unfold reservedOne
    cases e : m.get x with
    | some d =>
      rw [if_pos (by simp [BMap.contains, e])]
      cases e' : m.get a with
      | some d' => rfl
      | none =>
        have : a ≠ x := by rintro rfl; rw [e] at e'; cases e'
        simp [this]
    | none =>
      rw [if_neg (by simp [BMap.contains, e]), BMap.get_insert]
      by_cases ea : a = x
      · subst ea
        rw [if_pos rfl, e]; simp
      · rw [if_neg ea]
        cases e' : m.get a <;> simp [ea]

theorem start_spec {c : Cfg} (hc : c.WF) (k : Nat) {T now : Nat} (hn : now ≤ T) (s : Store) (boot reserved : List Addr) :
    ∃ b, start c s boot reserved now = .ok b ∧ Inv c k T b ∧ b.reserved = setOf reserved ∧ b.banned = s.banned ∧
      b.discouraged = s.discouraged ∧ b.anchors = s.anchors ∧ b.store = s ∧
      (∀ a, b.tables.New c a → s.known.get a = some false ∨ (s.known.get a = none ∧ a ∈ boot)) ∧
      (∀ a d, b.addresses.get a = some d → (∃ t, s.known.get a = some t) ∨ a ∈ boot ∨ a ∈ reserved) ∧
      (∀ a d, b.addresses.get a = some d → ∃ w, d = Data.new w (decide (a ∈ reserved)) now ∧ ∀ t, s.known.get a = some t → w = t) := by
  have l0 : Loaded c (setOf reserved) now [] (BMap.empty, ⟨Table.new c.newH, Table.new c.triedH⟩) :=
    ⟨⟨Table.new_ok _, Table.new_ok _⟩, fun a d => by constructor <;> [nofun; (rintro ⟨_, h, _⟩; cases h)],
      fun a h => absurd h (new_holds _ _), fun a h => absurd h (new_holds _ _)⟩
  obtain ⟨x1, e1, h1⟩ := foldlM_inv (loadOne c (setOf reserved) now) (Loaded c (setOf reserved) now) s.known.entries [] _ l0 (by
    intro pre post r x e h
    obtain ⟨y, g1, g2, _⟩ := loadOne_spec hc (l := s.known.entries) s.known.sorted (by simpa using e) h
    exact ⟨y, g1, g2⟩)
  rw [List.nil_append] at h1
  have b0 : Booted c s (setOf reserved) now [] x1 := by
    refine ⟨h1.ts, ?_, fun a h => BMap.mem_entries.1 (h1.tried a h), fun a h => .inl (BMap.mem_entries.1 (h1.new a h))⟩
    intro a d
    rw [h1.addr]
    simp only [BMap.mem_entries]
    simp
  obtain ⟨x2, e2, h2⟩ := foldlM_inv (bootOne c now) (Booted c s (setOf reserved) now)
    ((setOf (boot.filter fun a => ¬ (setOf reserved).contains a)).entries.map (·.1)) [] _ b0 (by
    intro pre post a x _ h
    exact bootOne_spec hc h)
  rw [List.nil_append] at h2
  have hboot : ∀ a, a ∈ (setOf (boot.filter fun a => ¬ (setOf reserved).contains a)).entries.map (·.1) ↔ a ∈ boot ∧ a ∉ reserved := by
    intro a
    rw [mem_setOf, List.mem_filter]
    have : (setOf reserved).contains a = true ↔ a ∈ reserved := by
      rw [contains_eq, setOf_get]; simp
    simp [this]
  have hget : ∀ a, (((setOf reserved).entries.map (·.1)).foldl (reservedOne now) x2.1).get a =
      match x2.1.get a with
      | some d => some d
      | none => if a ∈ reserved then some (Data.new false true now) else none := by
    intro a
    rw [reserved_foldl]
    simp only [mem_setOf]
  have hcont : ∀ a, (setOf reserved).contains a = decide (a ∈ reserved) := by
    intro a
    rw [Bool.eq_iff_iff, contains_eq, setOf_get]; simp
  have hcase : ∀ a d, (((setOf reserved).entries.map (·.1)).foldl (reservedOne now) x2.1).get a = some d →
      (∃ w, d = Data.new w (decide (a ∈ reserved)) now ∧ ∀ t, s.known.get a = some t → w = t) ∧
        ((∃ t, s.known.get a = some t) ∨ a ∈ boot ∨ a ∈ reserved) := by
    intro a d hd
    rw [hget] at hd
    cases e : x2.1.get a with
    | some d' =>
      rw [e] at hd
      cases hd
      rcases (h2.addr a d).1 e with ⟨t, g1, g2⟩ | ⟨g1, g2, g3⟩
      · exact ⟨⟨t, by rw [g2, hcont], fun t' h => by rw [g1] at h; exact Option.some.inj h⟩, .inl ⟨t, g1⟩⟩
      · have := (hboot a).1 g2
        exact ⟨⟨false, by rw [g3]; simp [this.2], fun t' h => by rw [g1] at h; cases h⟩, .inr (.inl this.1)⟩
    | none =>
      rw [e] at hd
      dsimp only at hd
      split at hd
      · next hr =>
        cases hd
        refine ⟨⟨false, by simp [hr], fun t' h => ?_⟩, .inr (.inr hr)⟩
        rw [(h2.addr a _).2 (.inl ⟨t', h, rfl⟩)] at e
        cases e
      · cases hd
  have hmono : ∀ a d, x2.1.get a = some d → (((setOf reserved).entries.map (·.1)).foldl (reservedOne now) x2.1).get a = some d := by
    intro a d h
    rw [hget, h]
  refine ⟨⟨((setOf reserved).entries.map (·.1)).foldl (reservedOne now) x2.1, setOf reserved, x2.2, s.banned, s.discouraged, s.anchors, s⟩,
    ?_, ⟨h2.ts, ?_, ?_, ?_, ?_, rfl, rfl, rfl, h2.tried, ?_⟩, rfl, rfl, rfl, rfl, rfl, ?_, ?_, ?_⟩
  · unfold start
    dsimp only
    rw [e1, ok_bind, e2]; rfl
  · intro a hn ht
    have g1 := h2.tried a ht
    rcases h2.new a hn with g2 | ⟨g2, _⟩
    · rw [g1] at g2; cases g2
    · rw [g1] at g2; cases g2
  · intro a ha
    dsimp only at ha ⊢
    have : ∃ d, x2.1.get a = some d := by
      rcases ha with ha | ha
      · rcases h2.new a ha with g | ⟨g, g'⟩
        · exact ⟨_, (h2.addr a _).2 (.inl ⟨_, g, rfl⟩)⟩
        · exact ⟨_, (h2.addr a _).2 (.inr ⟨g, g', rfl⟩)⟩
      · exact ⟨_, (h2.addr a _).2 (.inl ⟨_, h2.tried a ha, rfl⟩)⟩
    obtain ⟨d, hd⟩ := this
    exact ⟨d, hmono a d hd⟩
  · intro a
    dsimp only
    rw [setOf_get]
    constructor
    · intro hr
      have hr : a ∈ reserved := by
        by_contra hn
        rw [if_neg hn] at hr; cases hr
      have : ∃ d, (((setOf reserved).entries.map (·.1)).foldl (reservedOne now) x2.1).get a = some d := by
        rw [hget]
        cases e : x2.1.get a with
        | some d => exact ⟨d, rfl⟩
        | none => exact ⟨_, if_pos hr⟩
      obtain ⟨d, hd⟩ := this
      obtain ⟨w, hw, _⟩ := (hcase a d hd).1
      exact ⟨d, hd, by rw [hw]; simpa [Data.new] using hr⟩
    · rintro ⟨d, hd, hr⟩
      obtain ⟨w, hw, _⟩ := (hcase a d hd).1
      rw [hw] at hr
      have : a ∈ reserved := by simpa [Data.new] using hr
      rw [if_pos this]
  · intro a d hd
    obtain ⟨w, hw, _⟩ := (hcase a d hd).1
    rw [hw]
    exact dataOk_new k _ _ hn
  · intro a ha
    change s.known.get a ≠ some true
    rcases h2.new a ha with g | ⟨g, _⟩
    · rw [g]; nofun
    · rw [g]; nofun
  · intro a ha
    rcases h2.new a ha with g | ⟨g, g'⟩
    · exact .inl g
    · exact .inr ⟨g, ((hboot a).1 g').1⟩
  · intro a d hd; exact (hcase a d hd).2
  · intro a d hd
    exact (hcase a d hd).1

/-! ### All events -/

/-- a step that the clock allows: no later than `T`, and the random number is one that `exponential_rand` gives -/
def Step.Fits (T : Nat) (s : Step) : Prop := s.now ≤ T ∧ s.rand < randLimit

instance (T : Nat) (s : Step) : Decidable (s.Fits T) := inferInstanceAs (Decidable (_ ∧ _))

theorem inv_step {c : Cfg} (hc : c.WF) {k T : Nat} {b : Book} (h : Inv c k T b) {s : Step} (hs : s.Fits T)
    (hT : T + longest false < maxTime) (hk : k + 1 < 2 ^ 32) : ∃ b', b.step c s = .ok b' ∧ Inv c (k + 1) T b' := by
  obtain ⟨ev, now, rand⟩ := s
  obtain ⟨hn, hr⟩ := hs
  dsimp only at hn hr
  have up : ∀ {b}, Inv c k T b → Inv c (k + 1) T b := fun h => h.mono (Nat.le_succ k)
  cases ev with
  | discovered a =>
    obtain ⟨b', h1, h2⟩ := inv_discovered hc h a hn
    exact ⟨b', h1, up h2⟩
  | failed a =>
    obtain ⟨d, h1, h2, _, h3⟩ := change_eff h a .failed hn hT hr hk
    exact ⟨_, h1, inv_change_same h h2 (by rw [h3]; exact flag_of_get h a)⟩
  | disconnected a =>
    obtain ⟨d, h1, h2, _, h3⟩ := change_eff h a .disconnected hn hT hr hk
    exact ⟨_, h1, inv_change_same h h2 (by rw [h3]; exact flag_of_get h a)⟩
  | hadActivity a =>
    obtain ⟨d, h1, h2, _, h3⟩ := change_eff h a .hadActivity hn hT hr hk
    exact ⟨_, h1, inv_change_same h h2 (by rw [h3]; exact flag_of_get h a)⟩
  | connected a role =>
    obtain ⟨d, h1, h2, _, h3⟩ := change_eff h a (.connected role) hn hT hr hk
    have hi := inv_change_same h h2 (by rw [h3]; exact flag_of_get h a)
    obtain ⟨b', h4, h5⟩ := inv_moveToTried hc hi a ⟨d, by change (b.addresses.insert a d).get a = _; rw [BMap.get_insert, if_pos rfl]⟩
    refine ⟨b', ?_, h5⟩
    change b.connected c a role now rand = _
    unfold Book.connected
    rw [h1, ok_bind]; exact h4
  | remove a =>
    obtain ⟨b', h1, h2⟩ := inv_remove hc h a
    exact ⟨b', h1, up h2⟩
  | addReserved a =>
    obtain ⟨d, h1, h2, _, h3⟩ := change_eff h a .setReserved hn hT hr hk
    refine ⟨{ b with addresses := b.addresses.insert a d, reserved := b.reserved.insert a () }, ?_, inv_change h h2 _ ?_⟩
    · change (b.change a .setReserved now rand >>= _) = _
      rw [h1]; rfl
    · intro x
      rw [BMap.get_insert, h3]; rfl
  | removeReserved a =>
    obtain ⟨d, h1, h2, _, h3⟩ := change_eff h a .unsetReserved hn hT hr hk
    refine ⟨{ b with addresses := b.addresses.insert a d, reserved := b.reserved.erase a }, ?_, inv_change h h2 _ ?_⟩
    · change (b.change a .unsetReserved now rand >>= _) = _
      rw [h1]; rfl
    · intro x
      rw [BMap.get_erase, h3]; rfl
  | ban i dur => exact ⟨_, rfl, up { h with ban := by change b.store.banned.insert _ _ = b.banned.insert _ _; rw [h.ban] }⟩
  | unban i => exact ⟨_, rfl, up { h with ban := by change b.store.banned.erase _ = b.banned.erase _; rw [h.ban] }⟩
  | discourage i =>
    exact ⟨_, rfl, up { h with disc := by change b.store.discouraged.insert _ _ = b.discouraged.insert _ _; rw [h.disc] }⟩
  | undiscourage i => exact ⟨_, rfl, up { h with disc := by change b.store.discouraged.erase _ = b.discouraged.erase _; rw [h.disc] }⟩
  | setAnchors l =>
    refine ⟨_, rfl, up ?_⟩
    unfold Book.setAnchors
    dsimp only
    split
    · exact h
    · exact { h with anch := by dsimp only; rw [h.anch]; exact anchors_eq _ _ }
  | heartbeat =>
    obtain ⟨b', h1, h2⟩ := inv_heartbeat hc h now
    exact ⟨b', h1, up h2⟩
  | restart boot reserved =>
    obtain ⟨b', h1, h2, _⟩ := start_spec hc (k + 1) hn b.store boot reserved
    exact ⟨b', h1, h2⟩

end Verif.PeerDb
