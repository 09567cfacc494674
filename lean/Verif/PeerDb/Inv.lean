import Verif.PeerDb.Tables

/-! The invariant of the address book. -/

namespace Verif.PeerDb

open Verif

/-- the longest time until the next attempt -/
def longest (reserved : Bool) : Nat := 37 * ((if reserved then 360 else 3600) * second)

theorem longest_le (r : Bool) : longest r ≤ longest false := by
  cases r <;> unfold longest
  · exact Nat.le_refl _
  · refine Nat.mul_le_mul_left _ (Nat.mul_le_mul_right _ ?_)
    simp

/-- what holds of the data of an address after `k` events no later than `T` -/
structure DataOk (k T : Nat) (d : Data) : Prop where
  idle : d.idle ≤ k
  disc : ∀ was fails next, d.state = .disconnected was fails next → fails ≤ k ∧ next ≤ T + longest d.reserved
  unre : ∀ e, d.state = .unreachable e → d.reserved = false

theorem DataOk.mono {k k' T : Nat} {d : Data} (h : DataOk k T d) (hk : k ≤ k') : DataOk k' T d :=
  ⟨h.idle.trans hk, fun w f n e => ⟨(h.disc w f n e).1.trans hk, (h.disc w f n e).2⟩, h.unre⟩

theorem dataOk_new (k : Nat) {T now : Nat} (was r : Bool) (h : now ≤ T) : DataOk k T (Data.new was r now) where
  idle := Nat.zero_le _
  disc := by
    intro w f n e
    cases e
    exact ⟨Nat.zero_le _, by omega⟩
  unre := by intro e h; cases h

theorem connectDelay_le (n : Nat) (r : Bool) : connectDelay n r ≤ (if r then 360 else 3600) * second :=
  Nat.mul_le_mul_right _ (Nat.min_le_right _ _)

theorem connectTime_ok {now T rand : Nat} (fails idle : Nat) (r : Bool) (h : now ≤ T) (hT : T + longest false < maxTime)
    (hr : rand < randLimit) : ∃ t, connectTime now fails idle r rand = .ok t ∧ t ≤ T + longest r := by
  have h1 : connectDelay (max fails idle) r * rand / 2 ^ 52 ≤ longest r := by
    refine Nat.div_le_of_le_mul ?_
    calc connectDelay (max fails idle) r * rand ≤ ((if r then 360 else 3600) * second) * randLimit :=
          Nat.mul_le_mul (connectDelay_le _ _) hr.le
      _ = 2 ^ 52 * longest r := by unfold longest randLimit; ring
  have h2 := longest_le r
  have hlt : now + connectDelay (max fails idle) r * rand / 2 ^ 52 < maxTime := by omega
  refine ⟨_, if_pos hlt, by omega⟩

theorem inc_ok {n k : Nat} (h : n ≤ k) (hk : k + 1 < 2 ^ 32) : inc n = .ok (n + 1) := if_pos (by omega)

/-- the flag after a transition -/
def To.flag (tr : To) (r : Bool) : Bool :=
  match tr with
  | .setReserved => true
  | .unsetReserved => false
  | _ => r

theorem to_ok {k T now rand : Nat} {d : Data} (tr : To) (h : DataOk k T d) (hn : now ≤ T) (hT : T + longest false < maxTime)
    (hr : rand < randLimit) (hk : k + 1 < 2 ^ 32) :
    ∃ d', d.to tr now rand = .ok d' ∧ DataOk (k + 1) T d' ∧ d'.reserved = tr.flag d.reserved := by
  obtain ⟨st, r, idle⟩ := d
  have hidle : idle ≤ k := h.idle
  have same := h.mono (Nat.le_succ k)
  cases tr with
  | connected role =>
    cases st with
    | connected _ _ => exact ⟨_, rfl, same, rfl⟩
    | disconnected _ _ _ => exact ⟨_, rfl, ⟨same.idle, by nofun, by nofun⟩, rfl⟩
    | unreachable _ => exact ⟨_, rfl, ⟨same.idle, by nofun, by nofun⟩, rfl⟩
  | hadActivity =>
    cases st with
    | connected _ _ => exact ⟨_, rfl, ⟨same.idle, by nofun, by nofun⟩, rfl⟩
    | disconnected _ _ _ => exact ⟨_, rfl, same, rfl⟩
    | unreachable _ => exact ⟨_, rfl, same, rfl⟩
  | disconnected =>
    cases st with
    | connected active role =>
      have hi : ∃ i, nextIdle active role idle = .ok i ∧ i ≤ k + 1 := by
        unfold nextIdle
        split
        · exact ⟨0, rfl, Nat.zero_le _⟩
        · split
          · exact ⟨idle + 1, inc_ok hidle hk, by omega⟩
          · exact ⟨idle, rfl, by omega⟩
      obtain ⟨i, hi, hle⟩ := hi
      obtain ⟨t, ht, htl⟩ := connectTime_ok (rand := rand) 0 i r hn hT hr
      refine ⟨⟨.disconnected true 0 t, r, i⟩, ?_, ⟨hle, ?_, by nofun⟩, rfl⟩
      · change (nextIdle active role idle >>= _) = _
        rw [hi, ok_bind, ht]; rfl
      · intro w f n e; cases e; exact ⟨Nat.zero_le _, htl⟩
    | disconnected _ _ _ => exact ⟨_, rfl, same, rfl⟩
    | unreachable _ => exact ⟨_, rfl, same, rfl⟩
  | failed =>
    cases st with
    | connected _ _ => exact ⟨_, rfl, same, rfl⟩
    | unreachable _ => exact ⟨_, rfl, same, rfl⟩
    | disconnected was fails next =>
      obtain ⟨hf, _⟩ := h.disc _ _ _ rfl
      obtain ⟨t, ht, htl⟩ := connectTime_ok (rand := rand) (fails + 1) idle r hn hT hr
      have d1 : DataOk (k + 1) T ⟨.disconnected was (fails + 1) t, r, idle⟩ :=
        ⟨same.idle, fun w f n e => by cases e; exact ⟨by omega, htl⟩, by nofun⟩
      have h3600 : 3600 * second ≤ longest false := by
        unfold longest
        simp only [Bool.false_eq_true, if_false]
        omega
      cases r with
      | true =>
        refine ⟨_, ?_, d1, rfl⟩
        change (inc fails >>= _) = _
        rw [inc_ok hf hk, ok_bind, ht]; rfl
      | false =>
        cases was with
        | false =>
          refine ⟨⟨.unreachable (now + 3600 * second), false, idle⟩, ?_, ⟨same.idle, by nofun, fun _ _ => rfl⟩, rfl⟩
          have hlt : now + 3600 * second < maxTime := by omega
          unfold Data.to
          dsimp only
          rw [if_neg nofun, if_pos rfl, if_pos hlt]
        | true =>
          by_cases hp : purgeFails ≤ fails + 1
          · refine ⟨⟨.unreachable now, false, idle⟩, ?_, ⟨same.idle, by nofun, fun _ _ => rfl⟩, rfl⟩
            change (inc fails >>= _) = _
            rw [inc_ok hf hk, ok_bind]
            exact if_pos hp
          · refine ⟨_, ?_, d1, rfl⟩
            change (inc fails >>= _) = _
            rw [inc_ok hf hk, ok_bind, if_neg hp, ht]; rfl
  | setReserved =>
    cases st with
    | connected _ _ => exact ⟨_, rfl, ⟨same.idle, by nofun, by nofun⟩, rfl⟩
    | disconnected was fails next =>
      obtain ⟨hf, _⟩ := h.disc _ _ _ rfl
      obtain ⟨t, ht, htl⟩ := connectTime_ok (rand := rand) fails idle true hn hT hr
      refine ⟨⟨.disconnected was fails t, true, idle⟩, ?_, ⟨same.idle, fun w f n e => by cases e; exact ⟨by omega, htl⟩, by nofun⟩, rfl⟩
      change (connectTime now fails idle true rand >>= _) = _
      rw [ht]; rfl
    | unreachable _ =>
      obtain ⟨t, ht, htl⟩ := connectTime_ok (rand := rand) 0 idle true hn hT hr
      refine ⟨⟨.disconnected false 0 t, true, idle⟩, ?_, ⟨same.idle, fun w f n e => by cases e; exact ⟨by omega, htl⟩, by nofun⟩, rfl⟩
      change (connectTime now 0 idle true rand >>= _) = _
      rw [ht]; rfl
  | unsetReserved =>
    refine ⟨_, rfl, ⟨same.idle, ?_, fun _ _ => rfl⟩, rfl⟩
    intro w f n e
    obtain ⟨h1, h2⟩ := same.disc w f n e
    exact ⟨h1, h2.trans (Nat.add_le_add_left (longest_le r) _)⟩

/-- the invariant, after `k` events no later than `T` -/
structure Inv (c : Cfg) (k T : Nat) (b : Book) : Prop where
  ts : b.tables.Ok c
  disj : ∀ a, b.tables.New c a → ¬ b.tables.Tried c a
  known : ∀ a, b.tables.New c a ∨ b.tables.Tried c a → ∃ d, b.addresses.get a = some d
  resv : ∀ a, b.reserved.get a = some () ↔ ∃ d, b.addresses.get a = some d ∧ d.reserved = true
  data : ∀ a d, b.addresses.get a = some d → DataOk k T d
  ban : b.store.banned = b.banned
  disc : b.store.discouraged = b.discouraged
  anch : b.store.anchors = b.anchors
  triedSt : ∀ a, b.tables.Tried c a → b.store.known.get a = some true
  newSt : ∀ a, b.tables.New c a → b.store.known.get a ≠ some true

theorem Inv.mono {c : Cfg} {k k' T : Nat} {b : Book} (h : Inv c k T b) (hk : k ≤ k') : Inv c k' T b :=
  { h with data := fun a d e => (h.data a d e).mono hk }

theorem contains_eq (m : BMap Addr Unit) (a : Addr) : m.contains a = true ↔ m.get a = some () := by
  unfold BMap.contains
  cases m.get a <;> simp

theorem Inv.resv_flag {c : Cfg} {k T : Nat} {b : Book} (h : Inv c k T b) {a : Addr} {d : Data} (e : b.addresses.get a = some d) :
    b.reserved.get a = some () ↔ d.reserved = true := by
  rw [h.resv]
  constructor
  · rintro ⟨d', h1, h2⟩; rw [e] at h1; cases h1; exact h2
  · intro h; exact ⟨d, e, h⟩

/-! ### Changes of the state of an address -/

/-- the effect of a change of the state -/
theorem change_eff {c : Cfg} {k T now rand : Nat} {b : Book} (h : Inv c k T b) (a : Addr) (tr : To) (hn : now ≤ T)
    (hT : T + longest false < maxTime) (hr : rand < randLimit) (hk : k + 1 < 2 ^ 32) :
    ∃ d', b.change a tr now rand = .ok { b with addresses := b.addresses.insert a d' } ∧ DataOk (k + 1) T d' ∧
      ((b.addresses.get a).getD (Data.new false false now)).to tr now rand = .ok d' ∧
      d'.reserved = tr.flag (((b.addresses.get a).getD (Data.new false false now)).reserved) := by
  have hd : DataOk k T ((b.addresses.get a).getD (Data.new false false now)) := by
    cases e : b.addresses.get a with
    | none => exact dataOk_new k _ _ hn
    | some d => exact h.data a d e
  obtain ⟨d', h1, h2, h3⟩ := to_ok tr hd hn hT hr hk
  refine ⟨d', ?_, h2, h1, h3⟩
  unfold Book.change
  dsimp only
  rw [h1]; rfl

theorem flag_of_get {c : Cfg} {k T now : Nat} {b : Book} (h : Inv c k T b) (a : Addr) :
    ((b.addresses.get a).getD (Data.new false false now)).reserved = true ↔ b.reserved.get a = some () := by
  rw [h.resv]
  cases e : b.addresses.get a with
  | none => simp [Data.new]
  | some d => simp

/-- changes that leave the flag alone -/
theorem inv_change {c : Cfg} {k T : Nat} {b : Book} (h : Inv c k T b) {a : Addr} {d' : Data} (hd : DataOk (k + 1) T d')
    (res : BMap Addr Unit) (hr : ∀ x, res.get x = if x = a then (if d'.reserved then some () else none) else b.reserved.get x) :
    Inv c (k + 1) T { b with addresses := b.addresses.insert a d', reserved := res } where
  ts := h.ts
  disj := h.disj
  known := by
    intro x hx
    change ∃ d, (b.addresses.insert a d').get x = some d
    rw [BMap.get_insert]
    split
    · exact ⟨_, rfl⟩
    · exact h.known x hx
  resv := by
    intro x
    change res.get x = some () ↔ ∃ d, (b.addresses.insert a d').get x = some d ∧ _
    rw [hr, BMap.get_insert]
    by_cases e : x = a
    · rw [if_pos e, if_pos e]
      cases e' : d'.reserved <;> simp [e']
    · rw [if_neg e, if_neg e]; exact h.resv x
  data := by
    intro x d hx
    change (b.addresses.insert a d').get x = some d at hx
    rw [BMap.get_insert] at hx
    split at hx
    · cases hx; exact hd
    · exact (h.data x d hx).mono (Nat.le_succ k)
  ban := h.ban
  disc := h.disc
  anch := h.anch
  triedSt := h.triedSt
  newSt := h.newSt

theorem inv_change_same {c : Cfg} {k T : Nat} {b : Book} (h : Inv c k T b) {a : Addr} {d' : Data} (hd : DataOk (k + 1) T d')
    (hf : d'.reserved = true ↔ b.reserved.get a = some ()) :
    Inv c (k + 1) T { b with addresses := b.addresses.insert a d' } := by
  refine inv_change h hd b.reserved ?_
  intro x
  by_cases e : x = a
  · subst e
    rw [if_pos rfl]
    cases e' : d'.reserved with
    | true => simpa using hf.1 e'
    | false =>
      have : ¬ b.reserved.get x = some () := fun h' => by have := hf.2 h'; rw [e'] at this; cases this
      cases e'' : b.reserved.get x with
      | none => rfl
      | some u => exact absurd e'' this
  · rw [if_neg e]

/-! ### Moves between the tables -/

theorem drop_some (b : Book) (a : Addr) : b.drop (some a) = if b.reserved.contains a then b
    else { b with addresses := b.addresses.erase a, store := { b.store with known := b.store.known.erase a } } := rfl

/-- `drop` only removes an address that is not reserved -/
theorem drop_eff (b : Book) (g : Option Addr) : ∀ x,
    ((b.drop g).addresses.get x = if g = some x ∧ b.reserved.get x = none then none else b.addresses.get x) ∧
    ((b.drop g).store.known.get x = if g = some x ∧ b.reserved.get x = none then none else b.store.known.get x) := by
  intro x
  cases g with
  | none => simp [Book.drop]
  | some a =>
    rw [drop_some]
    by_cases hr : b.reserved.contains a = true
    · rw [if_pos hr]
      have hr' := (contains_eq _ _).1 hr
      have : ¬ (some a = some x ∧ b.reserved.get x = none) := by
        rintro ⟨h1, h2⟩; cases h1; rw [hr'] at h2; cases h2
      rw [if_neg this, if_neg this]
      exact ⟨rfl, rfl⟩
    · rw [if_neg hr]
      change (b.addresses.erase a).get x = _ ∧ (b.store.known.erase a).get x = _
      rw [BMap.get_erase, BMap.get_erase]
      have hn : b.reserved.get a = none := by
        cases e : b.reserved.get a with
        | none => rfl
        | some u => exact absurd ((contains_eq _ _).2 e) hr
      by_cases e : x = a
      · subst e
        rw [if_pos rfl, if_pos ⟨rfl, hn⟩, if_pos rfl, if_pos ⟨rfl, hn⟩]
        exact ⟨rfl, rfl⟩
      · have : ¬ (some a = some x ∧ b.reserved.get x = none) := by
          rintro ⟨h1, _⟩; cases h1; exact e rfl
        rw [if_neg e, if_neg this, if_neg e, if_neg this]
        exact ⟨rfl, rfl⟩

theorem drop_rest (b : Book) (g : Option Addr) : (b.drop g).tables = b.tables ∧ (b.drop g).reserved = b.reserved ∧
    (b.drop g).banned = b.banned ∧ (b.drop g).discouraged = b.discouraged ∧ (b.drop g).anchors = b.anchors ∧
    (b.drop g).store.banned = b.store.banned ∧ (b.drop g).store.discouraged = b.store.discouraged ∧
    (b.drop g).store.anchors = b.store.anchors := by
  cases g with
  | none => exact ⟨rfl, rfl, rfl, rfl, rfl, rfl, rfl, rfl⟩
  | some a =>
    rw [drop_some]
    split <;> exact ⟨rfl, rfl, rfl, rfl, rfl, rfl, rfl, rfl⟩

theorem get_not_reserved {c : Cfg} {k T : Nat} {b : Book} (h : Inv c k T b) {x : Addr} {d : Data} (e : b.addresses.get x = some d) :
    b.reserved.get x = none ↔ d.reserved = false := by
  have := h.resv_flag e
  cases e1 : b.reserved.get x with
  | none => rw [e1] at this; simp at this; simp [this]
  | some u => rw [e1] at this; simp at this; simp [this]

/-- new tables, new known addresses, and an address dropped: what is needed for the invariant -/
theorem inv_tables {c : Cfg} {k T : Nat} {b : Book} (h : Inv c k T b) {ts : Tables} {kn : BMap Addr Bool} {g : Option Addr}
    (hts : ts.Ok c) (hd : ∀ a, ts.New c a → ¬ ts.Tried c a)
    (hk : ∀ a, ts.New c a ∨ ts.Tried c a → g ≠ some a ∧ ∃ d, b.addresses.get a = some d)
    (ht : ∀ a, ts.Tried c a → kn.get a = some true) (hn : ∀ a, ts.New c a → kn.get a ≠ some true) :
    Inv c k T (({ b with tables := ts, store := { b.store with known := kn } } : Book).drop g) := by
  let b' : Book := { b with tables := ts, store := { b.store with known := kn } }
  have e := drop_eff b' g
  obtain ⟨e1, e2, e3, e4, e5, e6, e7, e8⟩ := drop_rest b' g
  change Inv c k T (b'.drop g)
  refine ⟨?_, ?_, ?_, ?_, ?_, ?_, ?_, ?_, ?_, ?_⟩
  · rw [e1]; exact hts
  · rw [e1]; exact hd
  · rw [e1]
    intro a ha
    rw [(e a).1, if_neg fun h => (hk a ha).1 h.1]
    exact (hk a ha).2
  · intro a
    rw [e2, (e a).1]
    change b.reserved.get a = some () ↔ ∃ d, (if g = some a ∧ b.reserved.get a = none then none else b.addresses.get a) = some d ∧ _
    split
    · next hc => rw [hc.2]; simp
    · exact h.resv a
  · intro a d hd
    rw [(e a).1] at hd
    split at hd
    · cases hd
    · exact h.data a d hd
  · rw [e6, e3]; exact h.ban
  · rw [e7, e4]; exact h.disc
  · rw [e8, e5]; exact h.anch
  · rw [e1]
    intro a ha
    rw [(e a).2, if_neg fun h => (hk a (.inr ha)).1 h.1]
    exact ht a ha
  · rw [e1]
    intro a ha
    rw [(e a).2, if_neg fun h => (hk a (.inl ha)).1 h.1]
    exact hn a ha

/-- the effect of `move_addr_to_tried` -/
theorem moveToTried_eff {c : Cfg} (hc : c.WF) {k T : Nat} {b : Book} (h : Inv c k T b) (a : Addr) :
    ∃ ts r, Moved c b.tables ts a r ∧ ts.Ok c ∧ b.moveToTried c a = .ok (match r with
      | none => { b with tables := ts, store := { b.store with known := b.store.known.insert a true } }
      | some (p, g) => ({ b with tables := ts,
                                 store := { b.store with known := (b.store.known.insert a true).insert p false } } : Book).drop g) := by
  obtain ⟨ts, r, h1, h2, h3⟩ := moveToTried_holds hc h.ts a
  refine ⟨ts, r, h3, h2, ?_⟩
  unfold Book.moveToTried
  rw [h1, ok_bind]
  cases r with
  | none => rfl
  | some x => obtain ⟨p, g⟩ := x; rfl

theorem inv_moveToTried {c : Cfg} (hc : c.WF) {k T : Nat} {b : Book} (h : Inv c k T b) (a : Addr)
    (ha : ∃ d, b.addresses.get a = some d) : ∃ b', b.moveToTried c a = .ok b' ∧ Inv c k T b' := by
  obtain ⟨ts, r, m, hts, e⟩ := moveToTried_eff hc h a
  refine ⟨_, e, ?_⟩
  cases m with
  | none tried new =>
    refine inv_tables (g := none) h hts ?_ ?_ ?_ ?_
    · intro x hx ht
      rw [new] at hx; rw [tried] at ht
      rcases ht with ht | ht
      · exact hx.2 ht
      · exact h.disj x hx.1 ht
    · intro x hx
      refine ⟨nofun, ?_⟩
      rcases hx with hx | hx
      · exact h.known x (.inl ((new x).1 hx).1)
      · rcases (tried x).1 hx with rfl | hx
        · exact ha
        · exact h.known x (.inr hx)
    · intro x hx
      rw [BMap.get_insert]
      rcases (tried x).1 hx with rfl | hx
      · rw [if_pos rfl]
      · split
        · rfl
        · exact h.triedSt x hx
    · intro x hx
      obtain ⟨h1, h2⟩ := (new x).1 hx
      rw [BMap.get_insert_ne _ _ h2]
      exact h.newSt x h1
  | some p g ne was slot tried new gone =>
    refine inv_tables (g := g) h hts ?_ ?_ ?_ ?_
    · intro x hx ht
      rw [new] at hx; rw [tried] at ht
      rcases hx with rfl | ⟨h1, h2, h3⟩
      · rcases ht with ht | ht
        · exact ne ht
        · exact ht.2 rfl
      · rcases ht with ht | ht
        · exact h2 ht
        · exact h.disj x h1 ht.1
    · intro x hx
      rcases hx with hx | hx
      · rcases (new x).1 hx with rfl | ⟨h1, h2, h3⟩
        · exact ⟨fun e => (gone x e).2.2.1 rfl, h.known x (.inr was)⟩
        · exact ⟨h3, h.known x (.inl h1)⟩
      · rcases (tried x).1 hx with rfl | ⟨h1, h2⟩
        · exact ⟨fun e => (gone x e).2.1 rfl, ha⟩
        · exact ⟨fun e => h.disj x (gone x e).1 h1, h.known x (.inr h1)⟩
    · intro x hx
      rcases (tried x).1 hx with rfl | ⟨h1, h2⟩
      · rw [BMap.get_insert_ne _ _ ne.symm, BMap.get_insert, if_pos rfl]
      · rw [BMap.get_insert_ne _ _ h2, BMap.get_insert]
        split
        · rfl
        · exact h.triedSt x h1
    · intro x hx
      rcases (new x).1 hx with rfl | ⟨h1, h2, h3⟩
      · rw [BMap.get_insert, if_pos rfl]; nofun
      · rw [BMap.get_insert]
        split
        · nofun
        · rw [BMap.get_insert_ne _ _ h2]; exact h.newSt x h1

/-- the effect of `peer_discovered` on a book that does not know the address -/
theorem discovered_eff {c : Cfg} (hc : c.WF) {k T : Nat} {b : Book} (h : Inv c k T b) {a : Addr} (now : Nat)
    (ha : b.addresses.get a = none) :
    ∃ ts r, ts.Ok c ∧ (∀ x, ts.Tried c x ↔ b.tables.Tried c x) ∧ Put c.newH b.tables.new ts.new a b.canDiscard r ∧
      b.discovered c a now = .ok (if r = some a then { b with tables := ts } else
        let b' := ({ b with tables := ts, store := { b.store with known := b.store.known.insert a false } } : Book).drop r
        { b' with addresses := b'.addresses.insert a (Data.new false false now) }) := by
  obtain ⟨ts, r, h1, h2, h3, h4⟩ := moveToNew_holds hc h.ts a b.canDiscard
  have hnt : ¬ b.tables.Tried c a := by
    intro ht
    obtain ⟨d, hd⟩ := h.known a (.inr ht)
    rw [ha] at hd; cases hd
  refine ⟨ts, r, h2, ?_, h4, ?_⟩
  · intro x
    rw [h3]
    exact ⟨And.left, fun hx => ⟨hx, fun e => hnt (e ▸ hx)⟩⟩
  · unfold Book.discovered
    rw [if_neg (by simp [BMap.contains, ha]), h1, ok_bind]
    by_cases e : r = some a
    · rw [if_pos e, if_pos e]; rfl
    · rw [if_neg e, if_neg e]; rfl

theorem inv_discovered {c : Cfg} (hc : c.WF) {k T : Nat} {b : Book} (h : Inv c k T b) (a : Addr) {now : Nat} (hn : now ≤ T) :
    ∃ b', b.discovered c a now = .ok b' ∧ Inv c k T b' := by
  cases ha : b.addresses.get a with
  | some d =>
    refine ⟨b, ?_, h⟩
    unfold Book.discovered
    rw [if_pos (by simp [BMap.contains, ha])]
  | none =>
    obtain ⟨ts, r, h1, h2, h3, h4⟩ := discovered_eff hc h now ha
    refine ⟨_, h4, ?_⟩
    have hnew : ¬ b.tables.New c a := by
      intro ht
      obtain ⟨d, hd⟩ := h.known a (.inl ht)
      rw [ha] at hd; cases hd
    have hntr : ¬ b.tables.Tried c a := by
      intro ht
      obtain ⟨d, hd⟩ := h.known a (.inr ht)
      rw [ha] at hd; cases hd
    have hres : b.reserved.get a = none := by
      cases e : b.reserved.get a with
      | none => rfl
      | some u => obtain ⟨d, hd, _⟩ := (h.resv a).1 e; rw [ha] at hd; cases hd
    by_cases e : r = some a
    · rw [if_pos e]
      subst e
      cases h3 with
      | swap _ ne holds _ _ _ => exact absurd rfl ne
      | keep y _ _ _ _ eff =>
        refine inv_tables (g := none) (kn := b.store.known) h h1 ?_ ?_ ?_ ?_
        · intro x hx ht; exact h.disj x ((eff x).1 hx) ((h2 x).1 ht)
        · intro x hx
          refine ⟨nofun, h.known x ?_⟩
          rcases hx with hx | hx
          · exact .inl ((eff x).1 hx)
          · exact .inr ((h2 x).1 hx)
        · intro x hx; exact h.triedSt x ((h2 x).1 hx)
        · intro x hx; exact h.newSt x ((eff x).1 hx)
    · rw [if_neg e]
      -- the address itself is only entered at the end
      have hnew' : ∀ x, ts.New c x → x = a ∨ (b.tables.New c x ∧ r ≠ some x) := by
        intro x hx
        cases h3 with
        | fresh _ eff => exact ((eff x).1 hx).imp_right fun h => ⟨h, nofun⟩
        | swap y _ _ _ _ eff => exact ((eff x).1 hx).imp_right fun h => ⟨h.1, fun e => h.2 (Option.some.inj e).symm⟩
        | keep y _ _ _ _ _ => exact absurd rfl e
      have hry : ∀ y, r = some y → b.tables.New c y := by
        intro y hy
        subst hy
        cases h3 with
        | swap y _ holds _ _ _ => exact holds
        | keep y _ _ _ _ _ => exact absurd rfl e
      let b1 : Book := { b with addresses := b.addresses.insert a (Data.new false false now) }
      have hb1 : Inv c k T b1 := by
        refine ⟨h.ts, h.disj, ?_, ?_, ?_, h.ban, h.disc, h.anch, h.triedSt, h.newSt⟩
        · intro x hx
          change ∃ d, (b.addresses.insert a _).get x = some d
          rw [BMap.get_insert]
          split
          · exact ⟨_, rfl⟩
          · exact h.known x hx
        · intro x
          change b.reserved.get x = some () ↔ ∃ d, (b.addresses.insert a _).get x = some d ∧ _
          rw [BMap.get_insert]
          by_cases ex : x = a
          · subst ex
            rw [if_pos rfl, hres]
            simp [Data.new]
          · rw [if_neg ex]; exact h.resv x
        · intro x d hx
          change (b.addresses.insert a _).get x = some d at hx
          rw [BMap.get_insert] at hx
          split at hx
          · cases hx; exact dataOk_new k _ _ hn
          · exact h.data x d hx
      have key : Inv c k T (({ b1 with tables := ts, store := { b.store with known := b.store.known.insert a false } } : Book).drop r) := by
        refine inv_tables (g := r) hb1 h1 ?_ ?_ ?_ ?_
        · intro x hx ht
          have ht := (h2 x).1 ht
          rcases hnew' x hx with rfl | ⟨hx, _⟩
          · exact hntr ht
          · exact h.disj x hx ht
        · intro x hx
          rcases hx with hx | hx
          · rcases hnew' x hx with rfl | ⟨hx, hr⟩
            · exact ⟨e, _, by change (b.addresses.insert x _).get x = _; rw [BMap.get_insert, if_pos rfl]⟩
            · exact ⟨hr, hb1.known x (.inl hx)⟩
          · have hx := (h2 x).1 hx
            exact ⟨fun e' => h.disj x (hry x e') hx, hb1.known x (.inr hx)⟩
        · intro x hx
          have hx := (h2 x).1 hx
          rw [BMap.get_insert_ne _ _ (show x ≠ a from fun e' => hntr (by rw [← e']; exact hx))]
          exact h.triedSt x hx
        · intro x hx
          rw [BMap.get_insert]
          split
          · nofun
          · next ex =>
            rcases hnew' x hx with hx | ⟨hx, _⟩
            · exact absurd hx ex
            · exact h.newSt x hx
      -- dropping and entering commute
      have comm : ∀ r, r ≠ some a → (let b' := ({ b with tables := ts, store := { b.store with known := b.store.known.insert a false } } : Book).drop r
          { b' with addresses := b'.addresses.insert a (Data.new false false now) }) =
          ({ b1 with tables := ts, store := { b.store with known := b.store.known.insert a false } } : Book).drop r := by
        intro r hr
        cases r with
        | none => rfl
        | some y =>
          rw [drop_some, drop_some]
          by_cases hy : b.reserved.contains y = true
          · simp only [b1, hy, if_true]
          · simp only [b1, hy]
            have : (b.addresses.erase y).insert a (Data.new false false now) = (b.addresses.insert a (Data.new false false now)).erase y := by
              apply BMap.ext_get
              intro x
              rw [BMap.get_insert, BMap.get_erase, BMap.get_erase, BMap.get_insert]
              by_cases e1 : x = a
              · have : x ≠ y := fun e2 => hr (by rw [← e1, ← e2])
                rw [if_pos e1, if_neg this, if_pos e1]
              · simp [e1]
            simp [this]
      rw [comm r e]
      exact key

end Verif.PeerDb
