import Verif.PeerDb.Select
import Mathlib.Data.List.Induction
import Mathlib.Data.List.ReduceOption

/-! # C75: the address book of the peer-to-peer layer -/

namespace Verif.PeerDb

open Verif

set_option maxRecDepth 100000

/-! ## An example: four slots for new addresses, two for tried ones -/

/-- an address is in slot `a % cols`; addresses of the same hundred are a group -/
def exHash (cols : Nat) : Hash := ⟨1, cols, cols, fun a => a, fun g h => g + h, fun a _ => a, fun a => a / 100⟩

def exC : Cfg := ⟨exHash 4, exHash 2, id, 1000⟩

theorem exC_wf : exC.WF := ⟨⟨by decide, by decide, by decide, by decide⟩, ⟨by decide, by decide, by decide, by decide⟩, rfl⟩

def at' (now : Nat) (e : Event) : Step := ⟨e, now, 0⟩

def exT : Nat := 10 ^ 18

instance (T t0 : Nat) (steps : List Step) : Decidable (Runs T t0 steps) :=
  decidable_of_iff (t0 ≤ T ∧ (∀ s ∈ steps, s.Fits T) ∧ T + 37 * (3600 * second) < maxTime ∧ steps.length + 1 < 2 ^ 32)
    ⟨fun ⟨h1, h2, h3, h4⟩ => ⟨h1, h2, h3, h4⟩, fun ⟨h1, h2, h3, h4⟩ => ⟨h1, h2, h3, h4⟩⟩

/-- gossip, connections, bans and a restart -/
def exSteps : List Step :=
  [at' 0 (.discovered 1), at' 0 (.discovered 102), at' 1 (.discovered 203), at' 2 (.discovered 5), at' 3 (.connected 102 .fullRelay),
   at' 4 (.hadActivity 102), at' 5 (.ban 203 100), at' 6 (.discourage 1), at' 7 (.failed 1), at' 8 (.disconnected 102), at' 9 (.connected 100 .manual),
   at' 10 (.setAnchors [102, 1]), at' 11 .heartbeat, at' 12 (.restart [] []), at' 13 (.discovered 307)]

example : Runs exT 0 exSteps := by decide +kernel

/-! ## It does not panic -/

/-- **C75** whatever happens to the address book, it does not panic: no index is out of range, no id is missing from its map, ids are
renumbered in time, no reserved node is missing, no time and no counter overflows (up to `2^32 - 2` events before the end of the clock) -/
theorem C75_never_panics {c : Cfg} (hc : c.WF) {T t0 : Nat} {steps : List Step} (hr : Runs T t0 steps) (boot res : List Addr) :
    ∃ b, run c boot res t0 steps = .ok b := by
  obtain ⟨b, h, _⟩ := run_ok hc hr boot res
  exact ⟨b, h⟩

/-! ## The tables -/

/-- **C75** a table never has more addresses than slots, and at most `8 * bucket_size` of one address group; no address is twice in the
tables; every address in the tables is a known one -/
theorem C75_table_bounds {c : Cfg} (hc : c.WF) {T t0 : Nat} {steps : List Step} (hr : Runs T t0 steps) {boot res : List Addr} {b : Book}
    (e : run c boot res t0 steps = .ok b) :
    b.tables.new.addrIter.length ≤ c.newH.rows * c.newH.cols ∧
    b.tables.tried.addrIter.length ≤ c.triedH.rows * c.triedH.cols ∧
    (∀ g, (b.tables.new.addrIter.filter fun a => decide (c.newH.group a = g)).length ≤ 8 * c.newH.cols) ∧
    (∀ g, (b.tables.tried.addrIter.filter fun a => decide (c.triedH.group a = g)).length ≤ 8 * c.triedH.cols) ∧
    (b.tables.new.addrIter ++ b.tables.tried.addrIter).Nodup ∧
    ∀ a ∈ b.tables.new.addrIter ++ b.tables.tried.addrIter, b.addresses.contains a = true := by
  have hi := run_ok' hc hr e
  refine ⟨?_, ?_, fun g => group_le hc.new hi.ts.new g, fun g => group_le hc.tried hi.ts.tried g, ?_, ?_⟩
  · unfold Table.addrIter; rw [List.length_map]; exact hi.ts.new.size_le hc.new
  · unfold Table.addrIter; rw [List.length_map]; exact hi.ts.tried.size_le hc.tried
  · rw [List.nodup_append]
    refine ⟨hi.ts.new.iter_nodup, hi.ts.tried.iter_nodup, ?_⟩
    intro a ha b' hb e
    subst e
    exact hi.disj a (hi.ts.new.mem_iter.1 ha) (hi.ts.tried.mem_iter.1 hb)
  · intro a ha
    have : ∃ d, b.addresses.get a = some d := by
      refine hi.known a ?_
      rcases List.mem_append.1 ha with ha | ha
      · exact .inl (hi.ts.new.mem_iter.1 ha)
      · exact .inr (hi.ts.tried.mem_iter.1 ha)
    obtain ⟨d, hd⟩ := this
    unfold BMap.contains
    rw [hd]; rfl

example : okAnd (run exC [] [] 0 exSteps) (fun b => b.tables.new.addrIter = [1, 102, 203] ∧ b.tables.tried.addrIter = [100]) := by
  decide +kernel

/-- **C75** an address is in the table of tried addresses only if there was an outbound connection to it, be it before a restart -/
theorem C75_tried_connected {c : Cfg} (hc : c.WF) {T t0 : Nat} {steps : List Step} (hr : Runs T t0 steps) {boot res : List Addr} {b : Book}
    (e : run c boot res t0 steps = .ok b) (a : Addr) (ha : a ∈ b.tables.tried.addrIter) :
    ∃ s ∈ steps, ∃ role, s.ev = .connected a role := by
  have hi := run_ok' hc hr e
  exact (run_known hc hr e).1 a (hi.triedSt a (hi.ts.tried.mem_iter.1 ha))

/-- **C75** the book knows only addresses that it was told -/
theorem C75_not_invented {c : Cfg} (hc : c.WF) {T t0 : Nat} {steps : List Step} (hr : Runs T t0 steps) {boot res : List Addr} {b : Book}
    (e : run c boot res t0 steps = .ok b) (a : Addr) (ha : b.addresses.contains a = true ∨ b.store.known.contains a = true) :
    a ∈ boot ∨ a ∈ res ∨ ∃ s ∈ steps, s.ev.Names a := by
  obtain ⟨_, h2, h3⟩ := run_known hc hr e
  rcases ha with ha | ha
  · refine h3 a fun h => ?_
    unfold BMap.contains at ha
    rw [h] at ha; cases ha
  · refine .inr (.inr (h2 a fun h => ?_))
    unfold BMap.contains at ha
    rw [h] at ha; cases ha

/-- **C75** gossip is harmless: however many addresses are advertised, the tried addresses stay, every address that is not unreachable
stays known with all that is known about it, and stays in its table unless it is a reserved node -/
theorem C75_gossip {c : Cfg} (hc : c.WF) {T t0 : Nat} {steps : List Step} {boot res : List Addr} {b : Book} (gossip : List Step)
    (hg : ∀ s ∈ gossip, ∃ a, s.ev = .discovered a) (hr : Runs T t0 (steps ++ gossip)) (e : run c boot res t0 steps = .ok b) :
    ∃ b', run c boot res t0 (steps ++ gossip) = .ok b' ∧
      (∀ x, x ∈ b'.tables.tried.addrIter ↔ x ∈ b.tables.tried.addrIter) ∧
      (∀ x d, b.addresses.get x = some d → d.isUnreachable = false →
        b'.addresses.get x = some d ∧ (x ∈ b.tables.new.addrIter → d.reserved = false → x ∈ b'.tables.new.addrIter)) ∧
      b'.reserved = b.reserved ∧ b'.banned = b.banned ∧ b'.discouraged = b.discouraged := by
  induction gossip using List.reverseRecOn with
  | nil =>
    refine ⟨b, by simpa using e, fun _ => Iff.rfl, fun x d h _ => ⟨h, fun h _ => h⟩, rfl, rfl, rfl⟩
  | append_singleton l s ih =>
    have hr1 : Runs T t0 (steps ++ l) := by
      refine ⟨hr.start, fun x hx => hr.fits x ?_, hr.clock, ?_⟩
      · rcases List.mem_append.1 hx with hx | hx <;> simp [hx]
      · have := hr.count
        simp only [List.length_append, List.length_cons, List.length_nil] at this ⊢
        omega
    obtain ⟨b1, e1, h1, h2, h3, h4, h5⟩ := ih (fun x hx => hg x (by simp [hx])) hr1
    have hi := run_ok' hc hr1 e1
    obtain ⟨b2, e2, hi2⟩ := run_ok hc hr boot res
    rw [← List.append_assoc] at e2
    obtain ⟨b1', e1', hs⟩ := run_snoc e2
    rw [e1] at e1'
    cases e1'
    obtain ⟨a, ha⟩ := hg s (by simp)
    obtain ⟨ev, now, rand⟩ := s
    have ha : ev = .discovered a := ha
    subst ha
    have hs : b1.discovered c a now = .ok b2 := hs
    obtain ⟨r1, r2, r3, _⟩ := discovered_rest hs
    refine ⟨b2, by rw [← List.append_assoc]; exact e2, ?_, ?_, by rw [r1, h3], by rw [r2, h4], by rw [r3, h5]⟩
    · intro x
      rw [← h1, hi2.ts.tried.mem_iter, hi.ts.tried.mem_iter]
      cases hga : b1.addresses.get a with
      | some d =>
        unfold Book.discovered at hs
        rw [if_pos (by simp [BMap.contains, hga])] at hs
        cases hs; exact Iff.rfl
      | none =>
        obtain ⟨ts, r, _, g2, _, g4⟩ := discovered_eff hc hi now hga
        rw [hs] at g4
        by_cases hra : r = some a
        · rw [if_pos hra] at g4
          cases g4; exact g2 x
        · rw [if_neg hra] at g4
          have g4 := Except.ok.inj g4
          subst g4
          dsimp only
          rw [(drop_rest _ r).1]; exact g2 x
    · intro x d hx hd
      obtain ⟨k1, k2⟩ := h2 x d hx hd
      have key : b2.addresses.get x = some d ∧ (b1.tables.New c x → d.reserved = false → b2.tables.New c x) := by
        cases hga : b1.addresses.get a with
        | some d' =>
          unfold Book.discovered at hs
          rw [if_pos (by simp [BMap.contains, hga])] at hs
          cases hs; exact ⟨k1, fun h _ => h⟩
        | none =>
          have hxa : x ≠ a := by rintro rfl; rw [hga] at k1; cases k1
          obtain ⟨ts, r, _, _, g3, g4⟩ := discovered_eff hc hi now hga
          rw [hs] at g4
          -- what is displaced is reserved or unreachable
          have hdisc : d.reserved = false → r ≠ some x := by
            intro hres er
            subst er
            cases g3 with
            | swap _ _ _ _ ok _ =>
              unfold Book.canDiscard at ok
              rw [k1] at ok
              simp [hres, hd] at ok
            | keep y _ _ _ _ _ => exact hxa rfl
          by_cases hra : r = some a
          · rw [if_pos hra] at g4
            cases g4
            refine ⟨k1, fun hn _ => ?_⟩
            subst hra
            cases g3 with
            | swap _ ne _ _ _ _ => exact absurd rfl ne
            | keep y _ _ _ _ eff => exact (eff x).2 hn
          · rw [if_neg hra] at g4
            have g4 := Except.ok.inj g4
            subst g4
            dsimp only
            constructor
            · rw [BMap.get_insert_ne _ _ hxa, (drop_eff _ r x).1, if_neg]
              · exact k1
              · rintro ⟨er, hn⟩
                have hn : b1.reserved.get x = none := hn
                exact hdisc ((get_not_reserved hi k1).1 hn) er
            · intro hn hres
              rw [(drop_rest _ r).1]
              have hne := hdisc hres
              cases g3 with
              | fresh _ eff => exact (eff x).2 (.inr hn)
              | swap y _ _ _ _ eff => exact (eff x).2 (.inr ⟨hn, fun e => hne (by rw [e])⟩)
              | keep y _ _ _ _ eff => exact (eff x).2 hn
      refine ⟨key.1, ?_⟩
      intro hn hres
      have := key.2 (hi.ts.new.mem_iter.1 (k2 hn hres)) hres
      exact hi2.ts.new.mem_iter.2 this

/-! ## Bans -/

/-- **C75** who is banned and discouraged, and until when, is a matter of the bans, their revocations and the maintenance; a restart does
not change it -/
theorem C75_bans {c : Cfg} (hc : c.WF) {T t0 : Nat} {steps : List Step} (hr : Runs T t0 steps) {boot res : List Addr} {b : Book}
    (e : run c boot res t0 steps = .ok b) :
    (∀ i, b.banned.get i = steps.foldl (banStep i) none) ∧
    ∀ i, b.discouraged.get i = steps.foldl (discourageStep c.discourageTime i) none :=
  ⟨(run_rest hc hr e).1, (run_rest hc hr e).2.1⟩

/-- nothing that happens ends the ban -/
def Keeps (i till : Nat) (s : Step) : Prop :=
  s.ev ≠ .unban i ∧ (∀ d, s.ev ≠ .ban i d) ∧ (s.ev = .heartbeat → s.now < till)

theorem banStep_keeps {i till : Nat} {s : Step} (h : Keeps i till s) : banStep i (some till) s = some till := by
  obtain ⟨ev, now, rand⟩ := s
  obtain ⟨h1, h2, h3⟩ := h
  cases ev with
  | ban j d => exact if_neg fun e => h2 d (by rw [e])
  | unban j => exact if_neg fun e => h1 (by rw [e])
  | heartbeat => exact if_pos (h3 rfl)
  | _ => rfl

/-- **C75** a ban holds for its duration, across restarts, unless it is revoked or replaced by another ban -/
theorem C75_ban_holds {c : Cfg} (hc : c.WF) {T t0 t dur r i : Nat} {pre post : List Step}
    (hr : Runs T t0 (pre ++ ⟨.ban i dur, t, r⟩ :: post)) {boot res : List Addr} {b : Book}
    (e : run c boot res t0 (pre ++ ⟨.ban i dur, t, r⟩ :: post) = .ok b) (hk : ∀ s ∈ post, Keeps i (t + dur) s) :
    b.banned.get i = some (min (t + dur) (maxTime - 1)) := by
  replace hk : ∀ s ∈ post, Keeps i (satAdd t dur) s := by
    intro s hs
    obtain ⟨h1, h2, h3⟩ := hk s hs
    refine ⟨h1, h2, fun eh => ?_⟩
    have g1 := (hr.fits s (List.mem_append_right _ (List.mem_cons_of_mem _ hs))).1
    have g2 := hr.clock
    have g3 := h3 eh
    change s.now < min (t + dur) (maxTime - 1)
    have g4 : s.now < maxTime - 1 := by
      have : 0 < second := by decide
      omega
    exact Nat.lt_min.mpr ⟨g3, g4⟩
  change b.banned.get i = some (satAdd t dur)
  rw [(C75_bans hc hr e).1, List.foldl_append, List.foldl_cons]
  have e1 : banStep i (pre.foldl (banStep i) none) ⟨.ban i dur, t, r⟩ = some (satAdd t dur) := if_pos rfl
  rw [e1]
  clear e e1 hr
  induction post with
  | nil => rfl
  | cons s l ih =>
    rw [List.foldl_cons, banStep_keeps (hk s (by simp))]
    exact ih fun x hx => hk x (by simp [hx])

theorem banned_from {i : Nat} : ∀ (steps : List Step) {t : Nat}, steps.foldl (banStep i) none = some t →
    ∃ s ∈ steps, ∃ dur, s.ev = .ban i dur ∧ t = satAdd s.now dur := by
  intro steps
  induction steps using List.reverseRecOn with
  | nil => intro t h; cases h
  | append_singleton l s ih =>
    intro t h
    rw [List.foldl_append] at h
    have h : banStep i (l.foldl (banStep i) none) s = some t := h
    have old : l.foldl (banStep i) none = some t → ∃ s' ∈ l ++ [s], ∃ dur, s'.ev = .ban i dur ∧ t = satAdd s'.now dur := by
      intro h
      obtain ⟨x, hx, hd⟩ := ih h
      exact ⟨x, by simp [hx], hd⟩
    obtain ⟨ev, now, rand⟩ := s
    cases ev with
    | ban j dur =>
      have h : (if j = i then some (satAdd now dur) else _) = some t := h
      split at h
      · next ej => cases h; exact ⟨⟨.ban j dur, now, rand⟩, by simp, dur, by rw [ej], rfl⟩
      · exact old h
    | unban j =>
      have h : (if j = i then none else _) = some t := h
      split at h
      · cases h
      · exact old h
    | heartbeat =>
      cases e : l.foldl (banStep i) none with
      | none => rw [e] at h; cases h
      | some x =>
        rw [e] at h
        have h : (if now < x then some x else none) = some t := h
        split at h
        · cases h; exact old e
        · cases h
    | _ => exact old h

/-- **C75** a ban ends: at the first maintenance after all bans of the address have run out it is not banned, until it is banned anew -/
theorem C75_ban_ends {c : Cfg} (hc : c.WF) {T t0 now r i : Nat} {pre post : List Step}
    (hr : Runs T t0 (pre ++ ⟨.heartbeat, now, r⟩ :: post)) {boot res : List Addr} {b : Book}
    (e : run c boot res t0 (pre ++ ⟨.heartbeat, now, r⟩ :: post) = .ok b)
    (hpre : ∀ s ∈ pre, ∀ dur, s.ev = .ban i dur → s.now + dur ≤ now) (hpost : ∀ s ∈ post, ∀ dur, s.ev ≠ .ban i dur) :
    b.banned.contains i = false := by
  have hb : (pre ++ ⟨.heartbeat, now, r⟩ :: post).foldl (banStep i) none = none := by
    rw [List.foldl_append, List.foldl_cons]
    have e1 : banStep i (pre.foldl (banStep i) none) ⟨.heartbeat, now, r⟩ = none := by
      cases ex : pre.foldl (banStep i) none with
      | none => rfl
      | some t =>
        obtain ⟨s, hs, dur, h1, h2⟩ := banned_from pre ex
        have := hpre s hs dur h1
        have h3 : satAdd s.now dur ≤ s.now + dur := Nat.min_le_left _ _
        exact if_neg (show ¬ now < t by omega)
    rw [e1]
    clear e hr e1
    induction post with
    | nil => rfl
    | cons s l ih =>
      rw [List.foldl_cons]
      have : banStep i none s = none := by
        obtain ⟨ev, now, rand⟩ := s
        cases ev with
        | ban j d => exact if_neg fun e => hpost ⟨.ban j d, now, rand⟩ (by simp) d (by rw [e])
        | unban j => unfold banStep; dsimp only; split <;> rfl
        | _ => rfl
      rw [this]
      exact ih fun x hx => hpost x (by simp [hx])
  unfold BMap.contains
  rw [(C75_bans hc hr e).1, hb]; rfl

example : ∀ s ∈ [at' 6 (.unban 4), at' 7 .heartbeat, at' 8 (.restart [1] [2]), at' 9 (.ban 4 1)], Keeps 203 (5 + 100) s := by
  intro s hs
  simp only [List.mem_cons, List.not_mem_nil, or_false] at hs
  rcases hs with rfl | rfl | rfl | rfl
  · exact ⟨nofun, nofun, nofun⟩
  · exact ⟨nofun, nofun, fun _ => by decide +kernel⟩
  · exact ⟨nofun, nofun, nofun⟩
  · exact ⟨nofun, nofun, nofun⟩
example : okAnd (run exC [] [] 0 exSteps) (fun b => b.banned.get 203 = some 105 ∧ b.discouraged.get 1 = some 1006) := by decide +kernel

/-! ## Reserved nodes and anchors -/

/-- **C75** the reserved nodes are those configured at the last start, as changed since; each of them is known, is never given up, and once
`37 * 360` seconds have passed since the last event it is tried again -/
theorem C75_reserved {c : Cfg} (hc : c.WF) {T t0 : Nat} {steps : List Step} (hr : Runs T t0 steps) {boot res : List Addr} {b : Book}
    (e : run c boot res t0 steps = .ok b) (extra : Addr → Bool) (now : Nat) :
    (∀ a, b.reserved.contains a = steps.foldl (reservedStep a) (decide (a ∈ res))) ∧
    (∀ a, b.reserved.contains a = true → ∃ d, b.addresses.get a = some d ∧ d.isUnreachable = false) ∧
    ∃ l, b.selectReserved extra now = .ok l ∧
      (∀ a ∈ l, b.reserved.contains a = true ∧ extra a = true ∧ ∃ d, b.addresses.get a = some d ∧ d.connectNow now = true) ∧
      (T + 37 * (360 * second) ≤ now → ∀ a d, b.reserved.contains a = true → extra a = true → b.addresses.get a = some d →
        (∀ act role, d.state ≠ .connected act role) → a ∈ l) := by
  have hi := run_ok' hc hr e
  have hres : ∀ a, b.reserved.contains a = true → ∃ d, b.addresses.get a = some d ∧ d.reserved = true := by
    intro a ha
    exact (hi.resv a).1 ((contains_eq _ _).1 ha)
  refine ⟨(run_rest hc hr e).2.2.1, ?_, ?_⟩
  · intro a ha
    obtain ⟨d, h1, h2⟩ := hres a ha
    refine ⟨d, h1, ?_⟩
    unfold Data.isUnreachable
    cases es : d.state with
    | unreachable x => have := (hi.data a d h1).unre x es; rw [h2] at this; cases this
    | _ => rfl
  · let f : Addr × Unit → Except Panic (Option Addr) := fun r => do
      let d ← okOr (b.addresses.get r.1) Panic.reserved
      pure (if d.connectNow now && extra r.1 then some r.1 else none)
    have hf : ∀ a d, b.addresses.get a = some d → f (a, ()) = .ok (if d.connectNow now && extra a then some a else none) := by
      intro a d hd
      change (okOr (b.addresses.get a) Panic.reserved >>= _) = _
      rw [hd]; rfl
    obtain ⟨l, hl⟩ := mapM_isOk (l := b.reserved.entries) (f := f) (by
      rintro ⟨a, u⟩ hx
      have : b.reserved.get a = some () := BMap.mem_entries.1 hx
      obtain ⟨d, h1, _⟩ := hres a ((contains_eq _ _).2 this)
      exact ⟨_, hf a d h1⟩)
    obtain ⟨g1, g2⟩ := mapM_ok_get hl
    refine ⟨l.reduceOption, ?_, ?_, ?_⟩
    · unfold Book.selectReserved
      change (b.reserved.entries.mapM f >>= _) = _
      rw [hl]; rfl
    · intro a ha
      rw [List.reduceOption_mem_iff] at ha
      obtain ⟨i, hlt, hi'⟩ := List.mem_iff_getElem.1 ha
      have hlt' : i < b.reserved.entries.length := by omega
      obtain ⟨y, h1, h2⟩ := g2 i _ (List.getElem?_eq_getElem hlt')
      obtain ⟨x, hx⟩ : ∃ x, b.reserved.entries[i] = (x, ()) := ⟨_, rfl⟩
      rw [hx] at h2
      have hr' : b.reserved.get x = some () := BMap.mem_entries.1 (by rw [← hx]; exact List.getElem_mem hlt')
      obtain ⟨d, h3, _⟩ := hres x ((contains_eq _ _).2 hr')
      rw [hf x d h3] at h2
      cases h2
      rw [List.getElem?_eq_getElem hlt, hi'] at h1
      have h1 := Option.some.inj h1
      split at h1
      · next hb =>
        have h1 : a = x := Option.some.inj h1
        subst h1
        rw [Bool.and_eq_true] at hb
        exact ⟨(contains_eq _ _).2 hr', hb.2, d, h3, hb.1⟩
      · cases h1
    · intro hnow a d ha hex hd hnc
      have hr' : b.reserved.get a = some () := (contains_eq _ _).1 ha
      obtain ⟨i, hlt, hi'⟩ := List.mem_iff_getElem.1 (BMap.mem_entries.2 hr')
      obtain ⟨y, h1, h2⟩ := g2 i _ (List.getElem?_eq_getElem hlt)
      rw [hi', hf a d hd] at h2
      have hcn : d.connectNow now = true := by
        obtain ⟨d', h3, h4⟩ := hres a ha
        rw [hd] at h3
        cases h3
        unfold Data.connectNow
        cases es : d.state with
        | connected act role => exact absurd es (hnc act role)
        | unreachable x => have := (hi.data a d hd).unre x es; rw [h4] at this; cases this
        | disconnected w f n =>
          have := ((hi.data a d hd).disc w f n es).2
          rw [h4] at this
          have this : n ≤ T + 37 * (360 * second) := this
          simp only [decide_eq_true_eq]
          omega
      rw [hcn, hex] at h2
      cases h2
      rw [List.reduceOption_mem_iff]
      exact List.mem_of_getElem? h1

/-- **C75** the anchors are those last set, also after a restart -/
theorem C75_anchors {c : Cfg} (hc : c.WF) {T t0 : Nat} {steps : List Step} (hr : Runs T t0 steps) {boot res : List Addr} {b : Book}
    (e : run c boot res t0 steps = .ok b) (a : Addr) : b.anchors.contains a = true ↔ a ∈ steps.foldl anchorStep [] := by
  rw [(run_rest hc hr e).2.2.2, contains_eq, setOf_get]
  simp

example : okAnd (run exC [] [7] 0 exSteps) (fun b => b.reserved.entries = [] ∧ b.anchors.entries.map (·.1) = [1, 102]) := by decide +kernel
example : okAnd (run exC [] [7] 0 [at' 5 (.failed 7), at' 6 (.addReserved 9)]) (fun b =>
    b.selectReserved (fun _ => true) 5 = .ok [7] ∧ b.selectReserved (fun _ => true) 6 = .ok [7, 9]) := by decide +kernel

/-! ## Selection -/

/-- **C75** the addresses to connect to: at most as many as asked for, no two of one group and none of a group that is connected, each of
them in a table, not reserved, not banned, not discouraged, due and not connected; and there is one if there is any to choose -/
theorem C75_select {c : Cfg} (hc : c.WF) {T t0 : Nat} {steps : List Step} (hr : Runs T t0 steps) {boot res : List Addr} {b : Book}
    (e : run c boot res t0 steps = .ok b) (groups : List Nat) (extra : Addr → Bool) (count now : Nat) {sample : List Addr → List Addr}
    (hs : Samples count sample) (coin : Nat → Bool) :
    let l := b.select c groups extra count now sample coin
    let good := fun a => a ∈ b.tables.new.addrIter ++ b.tables.tried.addrIter ∧ c.newH.group a ∉ groups ∧
      b.reserved.contains a = false ∧ b.banned.contains (c.ip a) = false ∧ b.discouraged.contains (c.ip a) = false ∧ extra a = true ∧
      ∃ d was fails next, b.addresses.get a = some d ∧ d.state = .disconnected was fails next ∧ next ≤ now
    l.length ≤ count ∧ (l.map c.newH.group).Nodup ∧ (∀ a ∈ l, good a) ∧ (0 < count → (∃ a, good a) → l ≠ []) := by
  have hi := run_ok' hc hr e
  obtain ⟨h1, h2, h3, h4⟩ := select_spec hi groups extra count now hs coin
  have key : ∀ a, b.eligible c groups extra now a = true ↔ c.newH.group a ∉ groups ∧
      b.reserved.contains a = false ∧ b.banned.contains (c.ip a) = false ∧ b.discouraged.contains (c.ip a) = false ∧ extra a = true ∧
      ∃ d was fails next, b.addresses.get a = some d ∧ d.state = .disconnected was fails next ∧ next ≤ now := by
    intro a
    unfold Book.eligible
    cases ha : b.addresses.get a with
    | none => simp
    | some d =>
      have hres : b.reserved.contains a = d.reserved := by
        have := hi.resv_flag ha
        rw [Bool.eq_iff_iff, contains_eq]; exact this
      have hcn : d.connectNow now = true ↔ ∃ was fails next, d.state = .disconnected was fails next ∧ next ≤ now := by
        unfold Data.connectNow
        cases d.state <;> simp
      dsimp only
      simp only [Bool.and_eq_true, hcn, Book.isBad, Bool.not_eq_eq_eq_not, Bool.not_true, Bool.or_eq_false_iff, hres]
      constructor
      · rintro ⟨⟨⟨⟨⟨w, f, n, g1, g2⟩, g3⟩, g4⟩, g5, g6⟩, g7⟩
        exact ⟨by simpa using g4, g3, g5, g6, g7, d, w, f, n, rfl, g1, g2⟩
      · rintro ⟨g4, g3, g5, g6, g7, d', w, f, n, g0, g1, g2⟩
        cases g0
        exact ⟨⟨⟨⟨⟨w, f, n, g1, g2⟩, g3⟩, by simpa using g4⟩, g5, g6⟩, g7⟩
  have mem : ∀ a, a ∈ b.tables.new.addrIter ++ b.tables.tried.addrIter ↔ (b.tables.New c a ∨ b.tables.Tried c a) := by
    intro a
    rw [List.mem_append, hi.ts.new.mem_iter, hi.ts.tried.mem_iter]
  refine ⟨h1, h2, ?_, ?_⟩
  · intro a ha
    obtain ⟨g1, g2⟩ := h3 a ha
    exact ⟨(mem a).2 g2, (key a).1 g1⟩
  · rintro hcnt ⟨a, g1, g2⟩
    exact h4 hcnt ⟨a, (key a).2 g2, (mem a).1 g1⟩

theorem samples_take (count : Nat) : Samples count (List.take count) :=
  fun l h => ⟨h.sublist (List.take_sublist _ _), List.take_subset _ _, by simp⟩

example : okAnd (run exC [] [] 0 exSteps) (fun b =>
    b.select exC [] (fun _ => true) 3 20 (List.take 3) (fun _ => true) = [100] ∧
    b.select exC [] (fun _ => true) 3 20 (List.take 3) (fun _ => false) = [102] ∧
    b.select exC [1] (fun _ => true) 3 20 (List.take 3) (fun _ => true) = []) := by decide +kernel
example : okAnd (run exC [] [] 0 (exSteps ++ [at' 2000 .heartbeat])) (fun b =>
    b.select exC [] (fun _ => true) 3 2000 (List.take 3) (fun _ => true) = [1, 102, 203] ∧
    b.select exC [] (fun _ => true) 2 2000 (List.take 2) (fun _ => true) = [1, 102]) := by decide +kernel

/-! ## Giving up -/

/-- **C75** the maintenance forgets exactly the addresses that have been unreachable for their time, in memory, in the tables and on disk -/
theorem C75_purge {c : Cfg} (hc : c.WF) {T t0 now r : Nat} {steps : List Step} (hr : Runs T t0 steps) {boot res : List Addr} {b : Book}
    (e : run c boot res t0 steps = .ok b) :
    ∃ b', b.step c ⟨.heartbeat, now, r⟩ = .ok b' ∧ ∀ x,
      ((∃ d till, b.addresses.get x = some d ∧ d.state = .unreachable till ∧ till ≤ now) →
        b'.addresses.get x = none ∧ b'.store.known.get x = none ∧ x ∉ b'.tables.new.addrIter ∧ x ∉ b'.tables.tried.addrIter) ∧
      ((¬ ∃ d till, b.addresses.get x = some d ∧ d.state = .unreachable till ∧ till ≤ now) →
        b'.addresses.get x = b.addresses.get x ∧ b'.store.known.get x = b.store.known.get x ∧
        (x ∈ b'.tables.new.addrIter ↔ x ∈ b.tables.new.addrIter) ∧ (x ∈ b'.tables.tried.addrIter ↔ x ∈ b.tables.tried.addrIter)) := by
  have hi := run_ok' hc hr e
  obtain ⟨b', e', hok, h2, h3, h4, _, _, _, _, _, _, _, h12⟩ := heartbeat_eff hc hi now
  have iff : ∀ x, (∃ d, b.addresses.get x = some d ∧ d.retain now = false) ↔
      ∃ d till, b.addresses.get x = some d ∧ d.state = .unreachable till ∧ till ≤ now := by
    intro x
    constructor
    · rintro ⟨d, hd, hret⟩
      unfold Data.retain at hret
      cases es : d.state with
      | unreachable till =>
        rw [es] at hret
        exact ⟨d, till, hd, es, by simpa using hret⟩
      | connected _ _ => rw [es] at hret; cases hret
      | disconnected _ _ _ => rw [es] at hret; cases hret
    · rintro ⟨d, till, hd, es, hle⟩
      refine ⟨d, hd, ?_⟩
      unfold Data.retain
      rw [es]
      simpa using hle
  refine ⟨b', e', ?_⟩
  intro x
  rw [← iff, hok.new.mem_iter, hok.tried.mem_iter, hi.ts.new.mem_iter, hi.ts.tried.mem_iter]
  constructor
  · intro hx
    refine ⟨?_, ?_, fun h => ((h3 x).1 h).2 hx, fun h => ((h2 x).1 h).2 hx⟩
    · obtain ⟨d, hd, hret⟩ := hx
      rw [h4, hd]
      simp [Option.filter, hret]
    · rw [h12, if_pos hx]
  · intro hx
    refine ⟨?_, by rw [h12, if_neg hx], ⟨fun h => ((h3 x).1 h).1, fun h => (h3 x).2 ⟨h, hx⟩⟩, ⟨fun h => ((h2 x).1 h).1, fun h => (h2 x).2 ⟨h, hx⟩⟩⟩
    rw [h4]
    cases hd : b.addresses.get x with
    | none => rfl
    | some d =>
      have : d.retain now = true := by
        cases hret : d.retain now with
        | true => rfl
        | false => exact absurd ⟨d, hd, hret⟩ hx
      simp [Option.filter, this]

example : okAnd (run exC [] [] 0 [at' 0 (.discovered 1), at' 1 (.failed 1)]) (fun b =>
    b.addresses.get 1 = some ⟨.unreachable (1 + 3600 * second), false, 0⟩ ∧
    okAnd (b.heartbeat exC (3600 * second)) (fun b => b.addresses.contains 1) ∧
    okAnd (b.heartbeat exC (1 + 3600 * second)) (fun b => b.addresses.get 1 = none ∧ b.store.known.get 1 = none)) := by decide +kernel

/-- the mean delay before the next attempt: ten seconds, doubled each time, up to six minutes for a reserved node and an hour for others -/
def backoff (n : Nat) (reserved : Bool) : Nat := min (10 * 2 ^ n) (if reserved then 360 else 3600) * second

theorem connectDelay_eq (n : Nat) (r : Bool) : connectDelay n r = backoff n r := by
  unfold connectDelay backoff
  generalize 2 ^ n = p
  congr 1
  cases r
  · change min (10 * min p 4294967295) 3600 = min (10 * p) 3600
    omega
  · change min (10 * min p 4294967295) 360 = min (10 * p) 360
    omega

theorem connectTime_eq {now T rand : Nat} (fails idle : Nat) (r : Bool) (h : now ≤ T) (hT : T + 37 * (3600 * second) < maxTime)
    (hr : rand < randLimit) : connectTime now fails idle r rand = .ok (now + backoff (max fails idle) r * rand / 2 ^ 52) := by
  have hT' : T + longest false < maxTime := by unfold longest; exact hT
  obtain ⟨t, ht, _⟩ := connectTime_ok fails idle r h hT' hr
  rw [ht]
  unfold connectTime at ht
  dsimp only at ht
  split at ht
  · cases ht; rw [connectDelay_eq]
  · cases ht

/-- **C75** an address that was reached once is given up at the 672nd failed attempt in a row and not before, a reserved one never, and one
that was never reached at the first, to be forgotten an hour later; until then the time between attempts grows -/
theorem C75_patience {T : Nat} (hT : T + 37 * (3600 * second) < maxTime) (was reserved : Bool) (next idle : Nat)
    (tries : List (Nat × Nat)) (hn : ∀ x ∈ tries, x.1 ≤ T ∧ x.2 < randLimit) (hl : tries.length < 2 ^ 32) :
    ∃ d, tries.foldlM (fun d x => Data.to d .failed x.1 x.2) ⟨.disconnected was 0 next, reserved, idle⟩ = .ok d ∧
      (∀ x, reserved = false → tries[if was then 671 else 0]? = some x →
        d.state = .unreachable (if was then x.1 else x.1 + 3600 * second)) ∧
      (reserved = true ∨ tries[if was then 671 else 0]? = none → ∃ n, d = ⟨.disconnected was tries.length n, reserved, idle⟩ ∧
        ∀ last, tries.getLast? = some last → n = last.1 + backoff (max tries.length idle) reserved * last.2 / 2 ^ 52) := by
  induction tries using List.reverseRecOn with
  | nil => exact ⟨_, rfl, nofun, fun _ => ⟨next, rfl, nofun⟩⟩
  | append_singleton l x ih =>
    have hl' : l.length + 1 < 2 ^ 32 := by simpa using hl
    obtain ⟨d, e, h1, h2⟩ := ih (fun y hy => hn y (by simp [hy])) (by omega)
    obtain ⟨hx, hxr⟩ := hn x (by simp)
    rw [List.foldlM_append, e, ok_bind, List.foldlM_cons]
    have fin : ∀ {y : Except Panic Data} {d'}, y = .ok d' →
        (y >>= fun s => List.foldlM (fun (d : Data) (x : Nat × Nat) => Data.to d .failed x.1 x.2) s []) = .ok d' := by
      intro y d' h; rw [h]; rfl
    have hlen : (l ++ [x]).length = l.length + 1 := by simp
    have hlast : (l ++ [x]).getLast? = some x := by simp
    rw [hlen, hlast]
    have hinc : inc l.length = .ok (l.length + 1) := if_pos (by omega)
    have ht := connectTime_eq (rand := x.2) (l.length + 1) idle reserved hx hT hxr
    generalize hidx : (if was = true then 671 else 0 : Nat) = idx at h1 h2 ⊢
    by_cases hc : reserved = false ∧ idx < l.length
    · obtain ⟨hres, hlt⟩ := hc
      have hu := h1 _ hres (List.getElem?_eq_getElem hlt)
      refine ⟨d, fin ?_, ?_, ?_⟩
      · obtain ⟨st, r, i⟩ := d
        have hu : st = _ := hu
        subst hu
        rfl
      · intro y _ hy
        rw [List.getElem?_append_left hlt, List.getElem?_eq_getElem hlt] at hy
        rw [hu, Option.some.inj hy]
      · rintro (h | h)
        · rw [hres] at h; cases h
        · rw [List.getElem?_append_left hlt, List.getElem?_eq_getElem hlt] at h; cases h
    · have hpre : reserved = true ∨ l[idx]? = none := by
        cases hres : reserved with
        | true => exact .inl rfl
        | false => exact .inr (List.getElem?_eq_none (by
            by_contra hlt
            exact hc ⟨hres, by omega⟩))
      obtain ⟨n, rfl, _⟩ := h2 hpre
      have hstay : ∀ last, some x = some last → x.1 + backoff (max (l.length + 1) idle) reserved * x.2 / 2 ^ 52 =
          last.1 + backoff (max (l.length + 1) idle) reserved * last.2 / 2 ^ 52 := by
        intro last h; cases h; rfl
      cases reserved with
      | true =>
        refine ⟨⟨.disconnected was (l.length + 1) _, true, idle⟩, fin ?_, nofun, fun _ => ⟨_, rfl, hstay⟩⟩
        change (inc l.length >>= _) = _
        rw [hinc, ok_bind, ht]; rfl
      | false =>
        have hle : l.length ≤ idx := by
          by_contra hlt
          exact hc ⟨rfl, by omega⟩
        cases was with
        | false =>
          have hidx : 0 = idx := hidx
          have hl0 : l = [] := List.length_eq_zero_iff.1 (by omega)
          subst hl0
          subst hidx
          have hlt : x.1 + 3600 * second < maxTime := by omega
          refine ⟨⟨.unreachable (x.1 + 3600 * second), false, idle⟩, fin ?_, ?_, ?_⟩
          · unfold Data.to
            dsimp only
            rw [if_neg nofun, if_pos rfl, if_pos hlt]
          · intro y _ hy
            have hy : some x = some y := hy
            cases hy; rfl
          · rintro (h | h) <;> cases h
        | true =>
          have hidx : 671 = idx := hidx
          by_cases hp : purgeFails ≤ l.length + 1
          · have hp' : 672 ≤ l.length + 1 := hp
            have hlen : idx = l.length := by omega
            refine ⟨⟨.unreachable x.1, false, idle⟩, fin ?_, ?_, ?_⟩
            · change (inc l.length >>= _) = _
              rw [hinc, ok_bind]
              exact if_pos hp
            · intro y _ hy
              rw [hlen, List.getElem?_concat_length] at hy
              cases hy; rfl
            · rintro (h | h)
              · cases h
              · rw [hlen, List.getElem?_concat_length] at h; cases h
          · have hp' : ¬ 672 ≤ l.length + 1 := hp
            have hnone : (l ++ [x])[idx]? = none := List.getElem?_eq_none (by rw [hlen]; omega)
            refine ⟨⟨.disconnected true (l.length + 1) _, false, idle⟩, fin ?_, ?_, fun _ => ⟨_, rfl, hstay⟩⟩
            · change (inc l.length >>= _) = _
              rw [hinc, ok_bind, if_neg hp, ht]; rfl
            · intro y _ hy
              rw [hnone] at hy; cases hy

example : ([(0, 2 ^ 52), (0, 2 ^ 52), (0, 2 ^ 52)].foldlM (fun d x => Data.to d .failed x.1 x.2) ⟨.disconnected true 0 0, false, 0⟩).toOption =
    some ⟨.disconnected true 3 (80 * second), false, 0⟩ := by decide +kernel

/-- a connection from beginning to end -/
structure Conn where
  role : Role
  active : Bool
  now : Nat
  rand : Nat

/-- activity, if there was any -/
def Conn.act (d : Data) (x : Conn) : Except Panic Data := if x.active = true then d.to .hadActivity x.now x.rand else .ok d

/-- the transitions of a connection from its beginning to its end -/
def Conn.run (d : Data) (x : Conn) : Except Panic Data := do
  let d ← d.to (.connected x.role) x.now x.rand
  let d ← x.act d
  d.to .disconnected x.now x.rand

/-- how many connections there were without activity since the last one with it; those made by hand and for a trial do not count -/
def useless (l : List Conn) : Nat :=
  ((l.reverse.takeWhile fun x => !x.active).filter fun x => decide (x.role ≠ .manual ∧ x.role ≠ .feeler)).length

theorem useless_snoc (l : List Conn) (x : Conn) : useless (l ++ [x]) =
    if x.active then 0 else if x.role.counts then useless l + 1 else useless l := by
  unfold useless
  rw [List.reverse_append, List.reverse_singleton, List.singleton_append, List.takeWhile_cons]
  cases ha : x.active
  · simp only [Bool.not_false, if_true, List.filter_cons, Bool.false_eq_true, if_false]
    cases hr : x.role <;> simp [Role.counts]
  · simp

/-- **C75** after a connection the address counts as reached, and the time to the next attempt grows with the number of connections on which
nothing was exchanged -/
theorem C75_backoff {T : Nat} (hT : T + 37 * (3600 * second) < maxTime) (was reserved : Bool) (now : Nat) (l : List Conn) (x : Conn)
    (hn : ∀ y ∈ l ++ [x], y.now ≤ T ∧ y.rand < randLimit) (hl : l.length + 1 < 2 ^ 32) :
    (l ++ [x]).foldlM Conn.run (Data.new was reserved now) =
      .ok ⟨.disconnected true 0 (x.now + backoff (useless (l ++ [x])) reserved * x.rand / 2 ^ 52), reserved, useless (l ++ [x])⟩ := by
  have key : ∀ (d : Data) (x : Conn) (k : Nat), (∀ act role, d.state ≠ .connected act role) → d.reserved = reserved → d.idle = k →
      k + 1 < 2 ^ 32 → x.now ≤ T → x.rand < randLimit →
      x.run d = .ok ⟨.disconnected true 0 (x.now + backoff (if x.active then 0 else if x.role.counts then k + 1 else k) reserved * x.rand / 2 ^ 52),
        reserved, if x.active then 0 else if x.role.counts then k + 1 else k⟩ := by
    intro d x k hd hres hk hk' hx hxr
    obtain ⟨st, r, i⟩ := d
    have hres : r = reserved := hres
    have hk : i = k := hk
    subst hres
    subst hk
    have e1 : Data.to ⟨st, r, i⟩ (.connected x.role) x.now x.rand = .ok ⟨.connected false x.role, r, i⟩ := by
      cases st with
      | connected act role => exact absurd rfl (hd act role)
      | _ => rfl
    have e2 : ∀ act, nextIdle act x.role i = .ok (if act then 0 else if x.role.counts then i + 1 else i) := by
      intro act
      have hi : inc i = .ok (i + 1) := by unfold inc; rw [if_pos hk']
      unfold nextIdle
      cases act
      · cases hc : x.role.counts
        · simp
        · simp [hi]
      · simp
    have e3 : ∀ act, Data.to ⟨.connected act x.role, r, i⟩ .disconnected x.now x.rand =
        .ok ⟨.disconnected true 0 (x.now + backoff (if act then 0 else if x.role.counts then i + 1 else i) r * x.rand / 2 ^ 52),
          r, if act then 0 else if x.role.counts then i + 1 else i⟩ := by
      intro act
      have e4 : Data.to ⟨.connected act x.role, r, i⟩ .disconnected x.now x.rand = (nextIdle act x.role i >>= fun idle =>
          connectTime x.now 0 idle r x.rand >>= fun next => .ok ⟨.disconnected true 0 next, r, idle⟩) := rfl
      rw [e4, e2, ok_bind, connectTime_eq _ _ _ hx hT hxr, ok_bind, Nat.zero_max]
    unfold Conn.run
    rw [e1, ok_bind]
    have e5 : x.act ⟨.connected false x.role, r, i⟩ = .ok ⟨.connected x.active x.role, r, i⟩ := by
      unfold Conn.act
      cases x.active <;> rfl
    rw [e5, ok_bind, e3]
  have le : ∀ l : List Conn, useless l ≤ l.length := by
    intro l
    unfold useless
    calc _ ≤ (l.reverse.takeWhile fun x => !x.active).length := List.length_filter_le _ _
      _ ≤ l.reverse.length := (List.takeWhile_sublist _).length_le
      _ = l.length := by simp
  have main : ∀ l : List Conn, (∀ y ∈ l, y.now ≤ T ∧ y.rand < randLimit) → l.length < 2 ^ 32 → ∃ st,
      l.foldlM Conn.run (Data.new was reserved now) = .ok ⟨st, reserved, useless l⟩ ∧ ∀ act role, st ≠ .connected act role := by
    intro l
    induction l using List.reverseRecOn with
    | nil => intro _ _; exact ⟨_, rfl, nofun⟩
    | append_singleton l x ih =>
      intro h1 h2
      have h2 : l.length + 1 < 2 ^ 32 := by simpa using h2
      obtain ⟨st, e, hst⟩ := ih (fun y hy => h1 y (by simp [hy])) (by omega)
      obtain ⟨hx, hxr⟩ := h1 x (by simp)
      have := le l
      refine ⟨.disconnected true 0 (x.now + backoff (useless (l ++ [x])) reserved * x.rand / 2 ^ 52), ?_, ?_⟩
      · rw [List.foldlM_append, e, ok_bind, List.foldlM_cons, key _ x (useless l) hst rfl rfl (by omega) hx hxr, useless_snoc]
        rfl
      · nofun
  obtain ⟨st, e, hst⟩ := main l (fun y hy => hn y (by simp [hy])) (by omega)
  obtain ⟨hx, hxr⟩ := hn x (by simp)
  have := le l
  rw [List.foldlM_append, e, ok_bind, List.foldlM_cons, key _ x (useless l) hst rfl rfl (by omega) hx hxr, useless_snoc]
  rfl

example : ([⟨.fullRelay, true, 0, 2 ^ 52⟩, ⟨.blockRelay, false, 0, 2 ^ 52⟩, ⟨.manual, false, 0, 2 ^ 52⟩, ⟨.fullRelay, false, 100, 2 ^ 52⟩].foldlM Conn.run
    (Data.new false false 0)).toOption = some ⟨.disconnected true 0 (100 + 40 * second), false, 2⟩ := by decide +kernel

/-! ## Restarts -/

/-- **C75** without boot nodes and reserved nodes, a restart restores the tables, bans and anchors, every address of the tables and no other
is known, and whether it was reached -/
theorem C75_restart {c : Cfg} (hc : c.WF) {T t0 now r : Nat} {steps : List Step} (hr : Runs T t0 steps) (hp : ∀ s ∈ steps, s.ev.Plain)
    {b : Book} (e : run c [] [] t0 steps = .ok b) :
    ∃ b', b.step c ⟨.restart [] [], now, r⟩ = .ok b' ∧
      (∀ a, a ∈ b'.tables.new.addrIter ↔ a ∈ b.tables.new.addrIter) ∧ (∀ a, a ∈ b'.tables.tried.addrIter ↔ a ∈ b.tables.tried.addrIter) ∧
      b'.banned = b.banned ∧ b'.discouraged = b.discouraged ∧ b'.anchors = b.anchors ∧
      (∀ a, b'.addresses.contains a = true ↔ a ∈ b.tables.new.addrIter ++ b.tables.tried.addrIter) ∧
      (∀ a ∈ b.tables.new.addrIter, b'.addresses.get a = some (Data.new false false now)) ∧
      ∀ a ∈ b.tables.tried.addrIter, b'.addresses.get a = some (Data.new true false now) := by
  have hi := run_ok' hc hr e
  have he := run_exact hc hr hp e
  obtain ⟨b', e', hi', _, e2, e3, e4, _, _, _, hd⟩ := start_spec hc 0 (Nat.le_refl now) b.store [] []
  obtain ⟨h1, h2, h3, h4⟩ := restart_exact hc hi he e'
  refine ⟨b', e', ?_, ?_, by rw [e2, hi.ban], by rw [e3, hi.disc], by rw [e4, hi.anch], ?_, ?_, ?_⟩
  · intro a; rw [hi'.ts.new.mem_iter, hi.ts.new.mem_iter]; exact h3 a
  · intro a; rw [hi'.ts.tried.mem_iter, hi.ts.tried.mem_iter]; exact h4 a
  · intro a
    rw [List.mem_append, hi.ts.new.mem_iter, hi.ts.tried.mem_iter]
    unfold BMap.contains
    constructor
    · intro hs
      have : b'.addresses.get a ≠ none := fun h => by rw [h] at hs; cases hs
      exact (h2 a this).imp (h3 a).1 (h4 a).1
    · intro hs
      obtain ⟨d, hd⟩ := hi'.known a (hs.imp (h3 a).2 (h4 a).2)
      rw [hd]; rfl
  · intro a ha
    have ha := hi.ts.new.mem_iter.1 ha
    obtain ⟨d, h5⟩ := hi'.known a (.inl ((h3 a).2 ha))
    obtain ⟨w, h6, h7⟩ := hd a d h5
    rw [h5, h6, h7 false (he.new' a ha)]; rfl
  · intro a ha
    have ha := hi.ts.tried.mem_iter.1 ha
    obtain ⟨d, h5⟩ := hi'.known a (.inr ((h4 a).2 ha))
    obtain ⟨w, h6, h7⟩ := hd a d h5
    rw [h5, h6, h7 true (hi.triedSt a ha)]; rfl

example : ∀ s ∈ exSteps, s.ev.Plain := by decide +kernel

/-- **C75** without boot nodes and reserved nodes, and as long as what is reported of a connection is about an address that the book knows,
every known address is in a table: it can be selected, displaced and forgotten -/
theorem C75_none_stranded {c : Cfg} (hc : c.WF) {T t0 : Nat} {steps : List Step} (hr : Runs T t0 steps) (hp : ∀ s ∈ steps, s.ev.Plain)
    (hpol : ∀ b, start c Store.init [] [] t0 = .ok b → Polite c b steps) {b : Book} (e : run c [] [] t0 steps = .ok b) (a : Addr) :
    b.addresses.contains a = true ↔ a ∈ b.tables.new.addrIter ++ b.tables.tried.addrIter := by
  have hi := run_ok' hc hr e
  have hf := run_full hc hr hp hpol e
  rw [List.mem_append, hi.ts.new.mem_iter, hi.ts.tried.mem_iter]
  unfold BMap.contains
  constructor
  · intro hs
    exact hf a fun h => by rw [h] at hs; cases hs
  · intro hs
    obtain ⟨d, hd⟩ := hi.known a hs
    rw [hd]; rfl

/-- `Polite`, decided -/
def politeB (c : Cfg) : Book → List Step → Bool
  | _, [] => true
  | b, s :: l => (match s.ev with
      | .failed a | .disconnected a | .hadActivity a | .removeReserved a => b.addresses.contains a
      | _ => true) && match b.step c s with
        | .ok b' => politeB c b' l
        | .error _ => true

theorem politeB_sound (c : Cfg) : ∀ (l : List Step) (b : Book), politeB c b l = true → Polite c b l := by
  intro l
  induction l with
  | nil => intro _ _; trivial
  | cons s l ih =>
    intro b h
    unfold politeB at h
    rw [Bool.and_eq_true] at h
    refine ⟨?_, fun b' e => ih b' ?_⟩
    · have h1 := h.1
      unfold Event.Polite
      split at h1 <;> simp_all
    · have h2 := h.2
      rw [e] at h2; exact h2

theorem exSteps_polite : ∀ b, start exC Store.init [] [] 0 = .ok b → Polite exC b exSteps := by
  intro b e
  have h : okAnd (start exC Store.init [] [] 0) (fun b => politeB exC b exSteps) = true := by decide +kernel
  rw [e] at h
  exact politeB_sound _ _ _ (by simpa [okAnd] using h)

/-! ## Where the book falls short -/

/-- whether address `a` is known but in neither table -/
def Book.Stranded (c : Cfg) (b : Book) (a : Addr) : Prop :=
  b.addresses.contains a = true ∧ b.reserved.contains a = false ∧ ¬ b.tables.New c a ∧ ¬ b.tables.Tried c a

instance (c : Cfg) (b : Book) (a : Addr) : Decidable (b.Stranded c a) := inferInstanceAs (Decidable (_ ∧ _ ∧ _ ∧ _))

/-- **C75** a stranded address is never selected, and hearing of it again changes nothing -/
theorem C75_stranded {c : Cfg} (hc : c.WF) {T t0 : Nat} {steps : List Step} (hr : Runs T t0 steps) {boot res : List Addr} {b : Book}
    (e : run c boot res t0 steps = .ok b) {a : Addr} (hs : b.Stranded c a) :
    (∀ now r, b.step c ⟨.discovered a, now, r⟩ = .ok b) ∧
    ∀ groups extra count now sample coin, Samples count sample → a ∉ b.select c groups extra count now sample coin := by
  have hi := run_ok' hc hr e
  refine ⟨?_, ?_⟩
  · intro now r
    change b.discovered c a now = .ok b
    unfold Book.discovered
    rw [if_pos hs.1]
  · intro groups extra count now sample coin hsam hm
    rcases ((select_spec hi groups extra count now hsam coin).2.2.1 a hm).2 with h | h
    · exact hs.2.2.1 h
    · exact hs.2.2.2 h

/-- **C75** a peer to which there is a connection is forgotten when two other connections take its slots: three connections with the same
slot of the tried table, two of them with the same slot of the new table.  When that connection ends, the transition is one that the code
calls unexpected (it panics in a debug build), and the address is stranded. -/
theorem C75_connected_forgotten :
    okAnd (run exC [] [] 0 [at' 0 (.connected 0 .fullRelay), at' 0 (.connected 4 .fullRelay)])
      (fun b => b.addresses.get 0 = some ⟨.connected false .fullRelay, false, 0⟩) ∧
    okAnd (run exC [] [] 0 [at' 0 (.connected 0 .fullRelay), at' 0 (.connected 4 .fullRelay), at' 0 (.connected 2 .fullRelay)])
      (fun b => b.addresses.get 0 = none ∧ b.store.known.get 0 = none) ∧
    okAnd (run exC [] [] 0 [at' 0 (.connected 0 .fullRelay), at' 0 (.connected 4 .fullRelay), at' 0 (.connected 2 .fullRelay),
        at' 1 (.disconnected 0)])
      (fun b => b.Stranded exC 0 ∧ b.addresses.get 0 = some (Data.new false false 1)) := by decide +kernel

/-- **C75** a reserved node that is displaced from the tables stays on disk; when it is not reserved after a restart, it is stranded, in
memory and on disk – and a boot node strands the address whose slot it takes -/
theorem C75_restart_strands :
    okAnd (run exC [] [0] 0 [at' 0 (.connected 0 .reserved), at' 0 (.connected 4 .fullRelay), at' 0 (.connected 2 .fullRelay),
        at' 1 (.restart [] [])])
      (fun b => b.Stranded exC 0 ∧ b.store.known.get 0 = some false) ∧
    okAnd (run exC [] [] 0 [at' 0 (.discovered 0), at' 1 (.restart [4] [])])
      (fun b => b.Stranded exC 0 ∧ b.store.known.get 0 = some false ∧ b.tables.New exC 4) := by decide +kernel

/-- **C75** a reserved node that is no longer one is stranded if it was never connected to -/
theorem C75_unreserved_stranded :
    okAnd (run exC [] [] 0 [at' 0 (.addReserved 7), at' 1 (.removeReserved 7)]) (fun b => b.Stranded exC 7) := by decide +kernel

/-- **C75** a second, shorter ban shortens the first -/
theorem C75_ban_shortened :
    okAnd (run exC [] [] 0 [at' 0 (.ban 5 1000), at' 1 (.ban 5 10), at' 11 .heartbeat]) (fun b => b.banned.contains 5 = false) := by
  decide +kernel

end Verif.PeerDb
