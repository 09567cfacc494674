import Verif.PeerManager.Steps
import Mathlib.Data.List.ReduceOption

/-! Making connections; all events; runs. -/

namespace Verif.PeerManager

open Verif Verif.PeerDb

theorem selectReserved_ok {c : PeerDb.Cfg} {k T : Nat} {b : Book} (hi : PeerDb.Inv c k T b) (extra : Addr → Bool) (now : Nat) :
    ∃ l, b.selectReserved extra now = .ok l ∧ ∀ a ∈ l, extra a = true := by
  let f : Addr × Unit → Except Panic (Option Addr) := fun r => do
    let d ← okOr (b.addresses.get r.1) Panic.reserved
    pure (if d.connectNow now && extra r.1 then some r.1 else none)
  have hf : ∀ a d, b.addresses.get a = some d → f (a, ()) = .ok (if d.connectNow now && extra a then some a else none) := by
    intro a d hd
    change (okOr (b.addresses.get a) Panic.reserved >>= _) = _
    rw [hd]; rfl
  have hres : ∀ a, b.reserved.get a = some () → ∃ d, b.addresses.get a = some d := fun a ha =>
    let ⟨d, h, _⟩ := (hi.resv a).1 ha
    ⟨d, h⟩
  obtain ⟨l, hl⟩ := mapM_isOk (l := b.reserved.entries) (f := f) (by
    rintro ⟨a, u⟩ hx
    obtain ⟨d, h1⟩ := hres a (BMap.mem_entries.1 hx)
    exact ⟨_, hf a d h1⟩)
  obtain ⟨g1, g2⟩ := mapM_ok_get hl
  refine ⟨l.reduceOption, ?_, ?_⟩
  · unfold Book.selectReserved
    change (b.reserved.entries.mapM f >>= _) = _
    rw [hl]; rfl
  · intro a ha
    rw [List.reduceOption_mem_iff] at ha
    obtain ⟨i, hlt, hi'⟩ := List.mem_iff_getElem.1 ha
    have hlt' : i < b.reserved.entries.length := by omega
    obtain ⟨y, h1, h2⟩ := g2 i _ (List.getElem?_eq_getElem hlt')
    obtain ⟨x, hx⟩ : ∃ x, b.reserved.entries[i] = (x, ()) := ⟨_, rfl⟩
    rw [hx] at h2
    obtain ⟨d, h3⟩ := hres x (BMap.mem_entries.1 (by rw [← hx]; exact List.getElem_mem hlt'))
    rw [hf x d h3] at h2
    cases h2
    rw [List.getElem?_eq_getElem hlt, hi'] at h1
    have h1 := Option.some.inj h1
    split at h1
    · next hb =>
      have h1 : a = x := Option.some.inj h1
      subst h1
      rw [Bool.and_eq_true] at hb
      exact hb.2
    · cases h1

theorem eligible_group {c : PeerDb.Cfg} {b : Book} {groups : List Nat} {extra : Addr → Bool} {now : Nat} {a : Addr}
    (h : b.eligible c groups extra now a = true) : c.newH.group a ∉ groups := by
  unfold Book.eligible at h
  split at h
  · simp only [Bool.and_eq_true, Bool.not_eq_true'] at h
    intro hm
    have := h.1.1.2
    rw [List.contains_iff_mem.mpr hm] at this
    nomatch this
  · nomatch h

theorem mem_groups {c : Cfg} {s : State} {x : Addr × PeerRole} (hx : x ∈ s.conns) (ha : auto x.2 = true) : c.group x.1 ∈ s.groups c := by
  unfold State.groups
  refine List.mem_map.mpr ⟨x, List.mem_filter.mpr ⟨hx, ?_⟩, rfl⟩
  cases e : x.2 with
  | none => rw [e] at ha; nomatch ha
  | some r => rw [e] at ha; cases r <;> first | rfl | nomatch ha

theorem Same.pinv {c : Cfg} {k T : Nat} {s s' : State} (h : PInv c k T s) (hs : Same s s') (hg : Good c s'.conns) : PInv c k T s' := by
  have ha : s'.active none = s.active none := by
    unfold State.active
    rw [hs.peers, hs.closing]
  refine ⟨⟨?_, hg, ?_, ?_, ?_⟩, ?_, ?_, ?_⟩
  · rw [hs.book]; exact h.core.book
  · rw [hs.book]; exact h.core.anchors
  · rw [hs.peers, hs.closing]; exact h.core.closing
  · rw [ha]; exact h.core.inb
  · intro id p h1 h2
    rw [hs.peers] at h1
    rw [hs.closing] at h2
    rw [hs.book]
    exact h.banned id p h1 h2
  · intro id p h1 h2
    rw [hs.peers] at h1
    rw [hs.closing] at h2
    exact h.scored id p h1 h2
  · intro id p h1 h2
    rw [hs.peers] at h1
    rw [hs.closing]
    exact h.feelers id p h1 h2

theorem count_dial {L L' : List (Addr × PeerRole)} {l : List Addr} {role role' : Role}
    (h : L'.Perm (l.map (fun a => (a, (some role : PeerRole))) ++ L)) (hne : role ≠ role') :
    L'.countP (fun x => x.2 = some role') = L.countP (fun x => x.2 = some role') := by
  rw [h.countP_eq, List.countP_append, List.countP_eq_zero.mpr, Nat.zero_add]
  intro x hx
  obtain ⟨a, _, rfl⟩ := List.mem_map.mp hx
  simpa using hne

theorem feel_spec {c : Cfg} {k T : Nat} {s : State} (h : PInv c k T s) (r : Rand) (now : Nat) (h0 : s.count .feeler = 0) :
    ∃ s', s.feel c r now = .ok s' ∧ Same s s' ∧ Fresh c s s' ∧ Good c s'.conns := by
  unfold State.feel
  cases r.chooseAddr (s.book.tables.new.addrIter.filter (s.book.eligible c.db [] (fun _ => true) now)) with
  | none => exact ⟨s, rfl, Same.rfl, Fresh.rfl, h.core.good⟩
  | some a =>
    dsimp only
    rw [connect_eq]
    obtain ⟨h1, h2, h3⟩ := dial_spec c s a .feeler
    refine ⟨{ s.dial c a .feeler with nextFeeler := r.feeler }, rfl, ⟨h1.book, h1.peers, h1.closing, h1.on⟩, h2, ?_⟩
    change Good c (s.dial c a .feeler).conns
    rcases h3 with h3 | ⟨h3, h4⟩
    · rw [h3]; exact h.core.good
    · exact (h.core.good.dial (noConflict_free h3) nofun nofun (fun _ => h0) nofun).perm h4

theorem establish_spec {c : Cfg} {k T : Nat} {s : State} (h : PInv c k T s) {r : Rand} (hr : r.Ok) (now : Nat) :
    ∃ s', s.establish c r now = .ok s' ∧ Same s s' ∧ Fresh c s s' ∧ Good c s'.conns := by
  unfold State.establish
  obtain ⟨f1, f2, f3, _⟩ := select_spec h.core.book (s.groups c) (s.allow c .fullRelay) (s.fullNeeded c now) now
    (hr.sample false (s.fullNeeded c now)) (r.coin false)
  generalize s.book.select c.db (s.groups c) (s.allow c .fullRelay) (s.fullNeeded c now) now (r.sample false (s.fullNeeded c now))
    (r.coin false) = full at f1 f2 f3 ⊢
  dsimp only
  rw [connectAll_eq]
  obtain ⟨g1, g2, l1, _, g3⟩ := dialAll_spec c .fullRelay full s
  have g4 : Good c (s.dialAll c full .fullRelay).conns := by
    refine dialAll_good (role := .fullRelay) (by nofun) h.core.good (fun _ => ?_) (by nofun) (fun _ => ⟨f2, ?_⟩)
    · have hf := h.core.good.full
      have hn : s.fullNeeded c now = c.fullCount + (if s.stale c now then c.fullExtra else 0) - s.count .fullRelay := rfl
      have hcount : s.count .fullRelay = s.conns.countP (fun x => x.2 = some .fullRelay) := rfl
      rw [← hcount] at hf ⊢
      have : (if s.stale c now then c.fullExtra else 0) ≤ c.fullExtra := by split <;> omega
      omega
    · intro a ha x hx hxa e
      have hm := mem_groups (c := c) hx hxa
      rw [e] at hm
      exact eligible_group (f3 a ha).1 hm
  generalize hs1 : s.dialAll c full .fullRelay = s1 at g1 g2 g3 g4
  change ∃ s', (s1.connectAll c (s1.book.select c.db (full.map c.group ++ s.groups c) (s.allow c .blockRelay) (s.blockNeeded c) now
    (r.sample true (s.blockNeeded c)) (r.coin true)) .blockRelay >>= _) = _ ∧ _
  rw [g1.book]
  obtain ⟨b1, b2, b3, _⟩ := select_spec h.core.book (full.map c.group ++ s.groups c) (s.allow c .blockRelay) (s.blockNeeded c) now
    (hr.sample true (s.blockNeeded c)) (r.coin true)
  generalize s.book.select c.db (full.map c.group ++ s.groups c) (s.allow c .blockRelay) (s.blockNeeded c) now
    (r.sample true (s.blockNeeded c)) (r.coin true) = block at b1 b2 b3 ⊢
  rw [connectAll_eq]
  obtain ⟨i1, i2, l2, _, i3⟩ := dialAll_spec c .blockRelay block s1
  have i4 : Good c (s1.dialAll c block .blockRelay).conns := by
    refine dialAll_good (role := .blockRelay) (by nofun) g4 (by nofun) (fun _ => ?_) (fun _ => ⟨b2, ?_⟩)
    · have hf := h.core.good.block
      rw [count_dial g3 (by nofun)]
      have hn : s.blockNeeded c = c.blockCount + c.blockExtra - s.count .blockRelay := rfl
      have hcount : s.count .blockRelay = s.conns.countP (fun x => x.2 = some .blockRelay) := rfl
      rw [← hcount] at hf ⊢
      omega
    · intro a ha x hx hxa e
      have hnot := eligible_group (b3 a ha).1
      rw [List.mem_append, not_or] at hnot
      rcases List.mem_append.mp (g3.subset hx) with hx | hx
      · obtain ⟨y, hy, rfl⟩ := List.mem_map.mp hx
        have hyf : y ∈ full := by
          obtain ⟨l', hsub, _⟩ : ∃ l', l'.Sublist full ∧ l' = l1 := ⟨l1, ‹_›, rfl⟩
          subst_vars
          exact hsub.subset hy
        exact hnot.1 (List.mem_map.mpr ⟨y, hyf, e⟩)
      · have hm := mem_groups (c := c) hx hxa
        rw [e] at hm
        exact hnot.2 hm
  generalize hs2 : s1.dialAll c block .blockRelay = s2 at i1 i2 i3 i4
  rw [ok_bind]
  have hb2 : s2.book = s.book := i1.book.trans g1.book
  rw [hb2]
  obtain ⟨l, hl, _⟩ := selectReserved_ok h.core.book (fun a => !s2.dialing.contains a && s.allow c .reserved a) now
  rw [hl]
  dsimp only
  rw [connectAll_eq]
  obtain ⟨j1, j2, l3, _, j3⟩ := dialAll_spec c .reserved l s2
  have j4 : Good c (s2.dialAll c l .reserved).conns :=
    dialAll_good (role := .reserved) (by nofun) i4 (by nofun) (by nofun) (by nofun)
  generalize hs3 : s2.dialAll c l .reserved = s3 at j1 j2 j3 j4
  have hsame : Same s s3 := (g1.trans i1).trans j1
  have hfresh : Fresh c s s3 := (g2.trans g1 i2).trans (g1.trans i1) j2
  rw [ok_bind]
  split
  · rename_i hcond
    have h0 : s3.count .feeler = 0 := by
      simp only [Bool.and_eq_true, decide_eq_true_eq] at hcond
      have h1 : s3.count .feeler = s2.count .feeler := count_dial j3 nofun
      have h2 : s2.count .feeler = s1.count .feeler := count_dial i3 nofun
      have h3 : s1.count .feeler = s.count .feeler := count_dial g3 nofun
      rw [h1, h2, h3]
      exact hcond.1.2
    obtain ⟨s', m1, m2, m3, m4⟩ := feel_spec (Same.pinv h hsame j4) r now h0
    exact ⟨s', m1, hsame.trans m2, hfresh.trans hsame m3, m4⟩
  · exact ⟨s3, rfl, hsame, hfresh, j4⟩

theorem heartbeat_spec {c : Cfg} (hc : c.WF) {k T : Nat} {s : State} (h : PInv c k T s) {r : Rand} (hr : r.Ok)
    {now : Nat} (hn : now ≤ T) (hT : T + longest false < maxTime) (hk : k + 1 < 2 ^ 32) :
    ∃ s', s.heartbeat c r now = .ok s' ∧ PInv c (k + 1) T s' := by
  unfold State.heartbeat
  obtain ⟨b1, h1, h2⟩ := db_pinv hc h (e := .heartbeat) trivial hn randLimit_pos hT hk
  rw [h1]
  change ∃ s', (if s.on = true then _ else _) = _ ∧ _
  split
  · obtain ⟨s1, g1, g2, _, g4⟩ := establish_spec h2 hr now
    rw [g1]
    have p1 := Same.pinv h2 g2 g4
    exact ⟨_, rfl, (p1.closes (evict_closes _ _)).closes (evict_closes _ _)⟩
  · exact ⟨_, rfl, h2⟩

theorem boot_spec {c : Cfg} (hc : c.WF) {k T : Nat} {s : State} (h : PInv c k T s) {r : Rand} (hr : r.Ok) (he : s.conns = [])
    {now : Nat} (hn : now ≤ T) (hT : T + longest false < maxTime) (hk : k + 1 < 2 ^ 32) :
    ∃ s', boot c s r now = .ok s' ∧ PInv c (k + 1) T s' := by
  unfold boot
  split
  · split
    · exact heartbeat_spec hc h hr hn hT hk
    · rw [connectAll_eq]
      refine ⟨_, rfl, PInv.mono ?_ (Nat.le_succ k)⟩
      obtain ⟨g1, _, _⟩ := dialAll_spec c .blockRelay (s.book.anchors.entries.map (·.1)) s
      refine Same.pinv h g1 (dialAll_good (role := .blockRelay) (by nofun) h.core.good (by nofun) (fun _ => ?_) (fun _ => ⟨?_, ?_⟩))
      · obtain ⟨l, l1, l2, l3⟩ := h.core.anchors
        rw [he, List.countP_nil, Nat.zero_add]
        have : (s.book.anchors.entries.map (·.1)).length ≤ l.length := by
          refine (List.subperm_of_subset (keys_nodup _) ?_).length_le
          rw [l1]
          exact fun a ha => (mem_setOf l a).mp ha
        omega
      · obtain ⟨l, l1, l2, l3⟩ := h.core.anchors
        refine (List.nodup_map_iff_inj_on (keys_nodup _)).mpr fun x hx y hy e => ?_
        rw [l1] at hx hy
        exact List.inj_on_of_nodup_map l3 ((mem_setOf l x).mp hx) ((mem_setOf l y).mp hy) e
      · rw [he]; nofun
  · exact ⟨s, rfl, h.mono (Nat.le_succ k)⟩

/-! ### All events -/

/-- a step that the clock allows -/
structure Step.Fits (T : Nat) (x : Step) : Prop where
  now : x.now ≤ T
  rand : x.r.Ok

/-- the networking backend reports an outbound connection, or a failure to make one, only for an address that is being dialled -/
def Event.Polite (s : State) : Event → Prop
  | .outbound a _ _ _ | .dialFailed a => s.dialing.get a ≠ none
  | _ => True

theorem dialing_erase_conns {s : State} {a : Addr} {role : Role} (h : s.dialing.get a = some role) :
    s.conns.Perm ((a, some role) :: ({ s with dialing := s.dialing.erase a } : State).conns) := by
  unfold State.conns
  have := (entries_erase h).map fun p : Addr × Role => (p.1, (some p.2 : PeerRole))
  exact (List.Perm.append_left _ this).trans List.perm_middle

theorem PInv.undial {c : Cfg} {k T : Nat} {s : State} (h : PInv c k T s) {a : Addr} {role : Role} (hd : s.dialing.get a = some role) :
    PInv c k T { s with dialing := s.dialing.erase a } :=
  ⟨⟨h.core.book, h.core.good.sub (List.Subperm.trans (List.Sublist.subperm (List.sublist_cons_self _ _)) (dialing_erase_conns hd).symm.subperm),
    h.core.anchors, h.core.closing, h.core.inb⟩, h.banned, h.scored, h.feelers⟩

theorem dial_pinv {c : Cfg} {k T : Nat} {s : State} (h : PInv c k T s) (a : Addr) {role : Role} (hr : role = .manual ∨ role = .reserved) :
    PInv c k T (s.dial c a role) := by
  obtain ⟨h1, _, h3⟩ := dial_spec c s a role
  refine Same.pinv h h1 ?_
  rcases h3 with h3 | ⟨h3, h4⟩
  · rw [h3]; exact h.core.good
  · refine (h.core.good.dial (noConflict_free h3) ?_ ?_ ?_ ?_).perm h4
    all_goals rcases hr with rfl | rfl <;> nofun

theorem step_spec {c : Cfg} (hc : c.WF) {k T : Nat} {s : State} (h : PInv c k T s) {x : Step} (hx : x.Fits T) (hp : x.ev.Polite s)
    (hT : T + longest false < maxTime) (hk : k + 2 < 2 ^ 32) : ∃ s', s.step c x = .ok s' ∧ PInv c (k + 2) T s' := by
  obtain ⟨ev, now, r⟩ := x
  obtain ⟨hn, hr⟩ := hx
  dsimp only at hn hr hp
  have up : ∀ {f : Except Fault State}, (∃ s', f = .ok s' ∧ PInv c (k + 1) T s') → ∃ s', f = .ok s' ∧ PInv c (k + 2) T s' :=
    fun ⟨s', h1, h2⟩ => ⟨s', h1, h2.mono (Nat.le_succ _)⟩
  have h2 := h.mono (k' := k + 2) (by omega)
  have hk1 : k + 1 < 2 ^ 32 := by omega
  have db : ∀ (e : PeerDb.Event) (rand : Nat), Calm e → rand < randLimit → ∃ s', s.db c e now rand = .ok s' ∧ PInv c (k + 2) T s' := by
    intro e rand he hra
    obtain ⟨b, g1, g2⟩ := db_pinv hc h he hn hra hT hk1
    exact ⟨_, g1, g2.mono (Nat.le_succ _)⟩
  unfold State.step
  cases ev with
  | inbound id a ok score => exact accept_spec hc h hr id a none ok score hn hT hk (h.core.good.inbound a)
  | outbound a id ok score =>
    dsimp only
    cases e : s.dialing.get a with
    | none => exact absurd e hp
    | some role =>
      exact accept_spec hc (h.undial e) hr id a (some role) ok score hn hT hk (h.core.good.perm (dialing_erase_conns e).symm)
  | closed id => exact closed_spec hc h hr id hn hT hk
  | dialFailed a =>
    dsimp only
    obtain ⟨b, g1, g2⟩ := db_pinv hc h (e := .failed a) trivial hn (hr.rand a) hT hk1
    rw [g1]
    cases e : s.dialing.get a with
    | none => exact absurd e hp
    | some role =>
      refine ⟨{ s with book := b, dialing := s.dialing.erase a }, ?_, (PInv.undial g2 e).mono (Nat.le_succ _)⟩
      change (if s.dialing.contains a = true then _ else _) = _
      rw [if_pos ((contains_iff _ _).mpr ⟨role, e⟩)]
      rfl
  | misbehaved id score => exact up (adjustScore_spec hc h id score hn hT hk1)
  | misbehavedOnHandshake a score => exact up (adjustFailed_spec hc h a _ score hn hT hk1)
  | connect a =>
    dsimp only
    rw [connect_eq]
    exact ⟨_, rfl, dial_pinv h2 a (Or.inl rfl)⟩
  | disconnect id rem => exact ⟨_, rfl, h2.closes (disconnect_closes s id rem)⟩
  | addReserved a =>
    dsimp only
    obtain ⟨b, g1, g2⟩ := db_pinv hc h (e := .addReserved a) trivial hn (hr.rand a) hT hk1
    rw [g1]
    change ∃ s', (if s.on = true then _ else _) = _ ∧ _
    split
    · rw [connect_eq]
      exact ⟨_, rfl, (dial_pinv g2 a (Or.inr rfl)).mono (Nat.le_succ _)⟩
    · exact ⟨_, rfl, g2.mono (Nat.le_succ _)⟩
  | removeReserved a => exact db _ _ trivial (hr.rand a)
  | ban ip dur => exact up (ban_spec hc h ip dur hn hT hk1)
  | unban ip => exact db _ _ trivial randLimit_pos
  | undiscourage ip => exact db _ _ trivial randLimit_pos
  | enable on =>
    dsimp only
    split
    · exact ⟨s, rfl, h2⟩
    · split
      · have h' : PInv c k T { s with on := true } :=
          ⟨⟨h.core.book, h.core.good, h.core.anchors, h.core.closing, h.core.inb⟩, h.banned, h.scored, h.feelers⟩
        exact up (heartbeat_spec hc h' hr hn hT hk1)
      · exact ⟨_, rfl, ⟨h2.core.book, h2.core.good, h2.core.anchors, h2.core.closing, h2.core.inb⟩, h2.banned, h2.scored, h2.feelers⟩
  | discovered a => exact db _ _ trivial randLimit_pos
  | activity id =>
    dsimp only
    cases s.peers.get id with
    | none => exact ⟨s, rfl, h2⟩
    | some p =>
      dsimp only
      split
      · exact db _ _ trivial (hr.rand _)
      · exact ⟨s, rfl, h2⟩
  | attrs id ping lastBlock lastTx expecting =>
    dsimp only
    cases e : s.peers.get id with
    | none => exact ⟨s, rfl, h2⟩
    | some p =>
      refine ⟨_, rfl, h2.core.update e rfl rfl, h2.banned.update e rfl, ?_, h2.feelers.update e rfl⟩
      intro y q hq hcl hw
      change (s.peers.insert id _).get y = _ at hq
      rw [BMap.get_insert] at hq
      split at hq
      · rename_i hy
        cases hq
        exact h.scored y p (hy ▸ e) hcl hw
      · exact h.scored y q hq hcl hw
  | newTip => exact ⟨_, rfl, ⟨h2.core.book, h2.core.good, h2.core.anchors, h2.core.closing, h2.core.inb⟩, h2.banned, h2.scored, h2.feelers⟩
  | heartbeat => exact up (heartbeat_spec hc h hr hn hT hk1)
  | restart on bootNodes reserved =>
    dsimp only
    obtain ⟨b, g1, g2⟩ := db_pinv hc h (e := .restart bootNodes reserved) trivial hn randLimit_pos hT hk1
    rw [g1]
    refine boot_spec hc (k := k + 1) ?_ hr rfl hn hT hk
    refine ⟨⟨g2.core.book, Good.nil c, g2.core.anchors, fun _ _ => rfl, Nat.zero_le _⟩, ?_, ?_, ?_⟩ <;> nofun

/-! ### Runs -/

/-- a run that the clock allows -/
structure Runs (T t0 : Nat) (steps : List Step) : Prop where
  start : t0 ≤ T
  fits : ∀ x ∈ steps, x.Fits T
  clock : T + 37 * (3600 * second) < maxTime
  count : 2 * steps.length + 2 < 2 ^ 32

/-- every event is polite when it happens -/
def Polite (c : Cfg) : State → List Step → Prop
  | _, [] => True
  | s, x :: l => x.ev.Polite s ∧ ∀ s', s.step c x = .ok s' → Polite c s' l

theorem step_polite {c : Cfg} {s s' : State} {x : Step} (h : s.step c x = .ok s') : x.ev.Polite s := by
  obtain ⟨ev, now, r⟩ := x
  cases ev with
  | outbound a id ok score =>
    intro e
    unfold State.step at h
    dsimp only at h
    rw [e] at h
    nomatch h
  | dialFailed a =>
    intro e
    unfold State.step at h
    dsimp only at h
    rw [bind_eq_ok] at h
    obtain ⟨s1, h1, h2⟩ := h
    have : s1.dialing = s.dialing := by
      unfold State.db at h1
      split at h1
      · cases h1; rfl
      · nomatch h1
    rw [if_neg (by rw [this, (contains_false _ _).mpr e]; nofun)] at h2
    nomatch h2
  | _ => trivial

/-- the state at the start -/
def State.first (b : Book) (t0 : Nat) : State := ⟨b, BMap.empty, BMap.empty, BMap.empty, false, t0, t0⟩

theorem first_spec {c : Cfg} (hc : c.WF) {T t0 : Nat} (ht : t0 ≤ T) (bootNodes reserved : List Addr) :
    ∃ b, start c.db Store.init bootNodes reserved t0 = .ok b ∧ PInv c 0 T (State.first b t0) := by
  obtain ⟨b, h1, h2, _, _, _, h3, _⟩ := start_spec hc.db 0 ht Store.init bootNodes reserved
  refine ⟨b, h1, ⟨h2, Good.nil c, ⟨[], ?_, Nat.zero_le _, List.nodup_nil⟩, fun _ _ => rfl, Nat.zero_le _⟩, ?_, ?_, ?_⟩
  · exact h3
  all_goals nofun

theorem run_eq {c : Cfg} {bootNodes reserved : List Addr} {t0 : Nat} {steps : List Step} {b : Book}
    (h : start c.db Store.init bootNodes reserved t0 = .ok b) :
    run c bootNodes reserved t0 steps = steps.foldlM (State.step c) (State.first b t0) := by
  unfold run
  rw [h]; rfl

theorem steps_spec {c : Cfg} (hc : c.WF) {T : Nat} (hT : T + longest false < maxTime) : ∀ (steps : List Step) {k : Nat} {s : State},
    PInv c k T s → (∀ x ∈ steps, x.Fits T) → k + 2 * steps.length + 1 < 2 ^ 32 →
    (∀ s', steps.foldlM (State.step c) s = .ok s' → PInv c (k + 2 * steps.length) T s') ∧
    (Polite c s steps → ∃ s', steps.foldlM (State.step c) s = .ok s')
  | [], k, s, h, _, _ => ⟨fun s' e => by cases e; exact h, fun _ => ⟨s, rfl⟩⟩
  | x :: l, k, s, h, hf, hk => by
    rw [List.length_cons] at hk
    rw [List.foldlM_cons]
    constructor
    · intro s' e
      rw [bind_eq_ok] at e
      obtain ⟨s1, e1, e2⟩ := e
      obtain ⟨s1', g1, g2⟩ := step_spec hc h (hf x List.mem_cons_self) (step_polite e1) hT (by omega)
      rw [e1] at g1
      cases g1
      have := (steps_spec hc hT l g2 (fun y hy => hf y (List.mem_cons_of_mem _ hy)) (by omega)).1 s' e2
      exact this.mono (by rw [List.length_cons]; omega)
    · intro hp
      obtain ⟨s1, g1, g2⟩ := step_spec hc h (hf x List.mem_cons_self) hp.1 hT (by omega)
      rw [g1]
      exact (steps_spec hc hT l g2 (fun y hy => hf y (List.mem_cons_of_mem _ hy)) (by omega)).2 (hp.2 s1 g1)

theorem run_pinv {c : Cfg} (hc : c.WF) {T t0 : Nat} {steps : List Step} (hr : Runs T t0 steps) {bootNodes reserved : List Addr} {s : State}
    (e : run c bootNodes reserved t0 steps = .ok s) : PInv c (2 * steps.length) T s := by
  obtain ⟨b, h1, h2⟩ := first_spec hc hr.start bootNodes reserved
  rw [run_eq h1] at e
  have := (steps_spec hc hr.clock steps h2 hr.fits (by have := hr.count; omega)).1 s e
  rwa [Nat.zero_add] at this

end Verif.PeerManager
