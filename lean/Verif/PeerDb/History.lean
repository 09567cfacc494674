import Verif.PeerDb.Spec

/-! The state of the address book as a function of what has happened. -/

namespace Verif.PeerDb

open Verif

theorem run_inv {c : Cfg} (hc : c.WF) {T t0 : Nat} {steps : List Step} (hr : Runs T t0 steps) (boot res : List Addr)
    (Q : List Step → Book → Prop)
    (h0 : ∀ b, start c Store.init boot res t0 = .ok b → Inv c 0 T b → Q [] b)
    (hs : ∀ pre s post b b', steps = pre ++ s :: post → Inv c pre.length T b → Q pre b → b.step c s = .ok b' →
      Inv c (pre.length + 1) T b' → Q (pre ++ [s]) b') :
    ∃ b, run c boot res t0 steps = .ok b ∧ Inv c steps.length T b ∧ Q steps b := by
  obtain ⟨b0, e0, i0, _⟩ := start_spec hc 0 hr.start Store.init boot res
  obtain ⟨b, e, h⟩ := foldlM_inv (Book.step c) (fun pre b => Inv c pre.length T b ∧ Q pre b) steps [] b0 ⟨i0, h0 b0 e0 i0⟩ (by
    intro pre post s b e ⟨hi, hq⟩
    have hl : pre.length + 1 < 2 ^ 32 := by
      have := hr.count
      have e : steps = pre ++ s :: post := by simpa using e
      rw [e] at this
      simp only [List.length_append, List.length_cons] at this
      omega
    have e : steps = pre ++ s :: post := by simpa using e
    obtain ⟨b', h1, h2⟩ := inv_step hc hi (hr.fits s (by rw [e]; simp)) (by have := hr.clock; unfold longest; exact this) hl
    exact ⟨b', h1, by simpa using h2, hs pre s post b b' e hi hq h1 h2⟩)
  refine ⟨b, ?_, h⟩
  unfold run
  rw [e0, ok_bind]; exact e

/-- the invariant holds after any run -/
theorem run_ok {c : Cfg} (hc : c.WF) {T t0 : Nat} {steps : List Step} (hr : Runs T t0 steps) (boot res : List Addr) :
    ∃ b, run c boot res t0 steps = .ok b ∧ Inv c steps.length T b := by
  obtain ⟨b, h1, h2, _⟩ := run_inv hc hr boot res (fun _ _ => True) (fun _ _ _ => trivial) (fun _ _ _ _ _ _ _ _ _ _ => trivial)
  exact ⟨b, h1, h2⟩

theorem run_ok' {c : Cfg} (hc : c.WF) {T t0 : Nat} {steps : List Step} (hr : Runs T t0 steps) {boot res : List Addr} {b : Book}
    (e : run c boot res t0 steps = .ok b) : Inv c steps.length T b := by
  obtain ⟨b', h1, h2⟩ := run_ok hc hr boot res
  rw [e] at h1; cases h1; exact h2

theorem run_Q {c : Cfg} (hc : c.WF) {T t0 : Nat} {steps : List Step} (hr : Runs T t0 steps) {boot res : List Addr}
    (Q : List Step → Book → Prop)
    (h0 : ∀ b, start c Store.init boot res t0 = .ok b → Inv c 0 T b → Q [] b)
    (hs : ∀ pre s post b b', steps = pre ++ s :: post → Inv c pre.length T b → Q pre b → b.step c s = .ok b' →
      Inv c (pre.length + 1) T b' → Q (pre ++ [s]) b') {b : Book} (e : run c boot res t0 steps = .ok b) : Q steps b := by
  obtain ⟨b', h1, _, h2⟩ := run_inv hc hr boot res Q h0 hs
  rw [e] at h1; cases h1; exact h2

/-- the first step of a run -/
theorem run_snoc {c : Cfg} {t0 : Nat} {steps : List Step} {boot res : List Addr} {s : Step} {b' : Book}
    (e : run c boot res t0 (steps ++ [s]) = .ok b') : ∃ b, run c boot res t0 steps = .ok b ∧ b.step c s = .ok b' := by
  unfold run at e ⊢
  obtain ⟨b0, h1, h2⟩ := bind_eq_ok.1 e
  rw [List.foldlM_append] at h2
  obtain ⟨b1, h3, h4⟩ := bind_eq_ok.1 h2
  refine ⟨b1, by rw [h1, ok_bind]; exact h3, ?_⟩
  rw [List.foldlM_cons] at h4
  obtain ⟨b2, h5, h6⟩ := bind_eq_ok.1 h4
  cases h6
  exact h5

theorem run_append {c : Cfg} {t0 : Nat} {steps : List Step} {boot res : List Addr} {s : Step} {b b' : Book}
    (e : run c boot res t0 steps = .ok b) (h : b.step c s = .ok b') : run c boot res t0 (steps ++ [s]) = .ok b' := by
  unfold run at e ⊢
  obtain ⟨b0, h1, h2⟩ := bind_eq_ok.1 e
  rw [h1, ok_bind, List.foldlM_append]
  change (steps.foldlM (Book.step c) b0 >>= fun b => _) = _
  have h2 : steps.foldlM (Book.step c) b0 = .ok b := h2
  rw [h2, ok_bind, List.foldlM_cons, h]; rfl

/-! ### What an event does to the other parts -/

theorem change_rest {b b' : Book} {a : Addr} {tr : To} {now rand : Nat} (h : b.change a tr now rand = .ok b') :
    ∃ d, b' = { b with addresses := b.addresses.insert a d } := by
  unfold Book.change at h
  obtain ⟨d, _, h⟩ := bind_eq_ok.1 h
  cases h
  exact ⟨d, rfl⟩

theorem moveToTried_rest {c : Cfg} {b b' : Book} {a : Addr} (h : b.moveToTried c a = .ok b') :
    b'.reserved = b.reserved ∧ b'.banned = b.banned ∧ b'.discouraged = b.discouraged ∧ b'.anchors = b.anchors := by
  unfold Book.moveToTried at h
  obtain ⟨⟨ts, r⟩, _, h⟩ := bind_eq_ok.1 h
  cases r with
  | none => cases h; exact ⟨rfl, rfl, rfl, rfl⟩
  | some x =>
    obtain ⟨p, g⟩ := x
    cases h
    obtain ⟨_, e2, e3, e4, e5, _⟩ := drop_rest { b with tables := ts, store := { b.store with known := (b.store.known.insert a true).insert p false } } g
    exact ⟨e2, e3, e4, e5⟩

theorem discovered_rest {c : Cfg} {b b' : Book} {a : Addr} {now : Nat} (h : b.discovered c a now = .ok b') :
    b'.reserved = b.reserved ∧ b'.banned = b.banned ∧ b'.discouraged = b.discouraged ∧ b'.anchors = b.anchors := by
  unfold Book.discovered at h
  split at h
  · cases h; exact ⟨rfl, rfl, rfl, rfl⟩
  · obtain ⟨⟨ts, r⟩, _, h⟩ := bind_eq_ok.1 h
    cases r with
    | none => cases h; exact ⟨rfl, rfl, rfl, rfl⟩
    | some g =>
      cases h
      obtain ⟨_, e2, e3, e4, e5, _⟩ := drop_rest { b with tables := ts, store := { b.store with known := b.store.known.insert a false } } g
      exact ⟨e2, e3, e4, e5⟩

theorem heartbeat_rest {c : Cfg} {b b' : Book} {now : Nat} (h : b.heartbeat c now = .ok b') :
    b'.reserved = b.reserved ∧ b'.banned = (b.banned.filter fun _ till => decide (now < till)) ∧
    b'.discouraged = (b.discouraged.filter fun _ till => decide (now < till)) ∧ b'.anchors = b.anchors := by
  unfold Book.heartbeat at h
  obtain ⟨ts, _, h⟩ := bind_eq_ok.1 h
  cases h
  exact ⟨rfl, rfl, rfl, rfl⟩

theorem remove_rest {c : Cfg} {b b' : Book} {a : Addr} (h : b.removeAddress c a = .ok b') :
    b'.reserved = b.reserved ∧ b'.banned = b.banned ∧ b'.discouraged = b.discouraged ∧ b'.anchors = b.anchors := by
  unfold Book.removeAddress at h
  obtain ⟨ts, _, h⟩ := bind_eq_ok.1 h
  cases h
  exact ⟨rfl, rfl, rfl, rfl⟩

theorem start_rest {c : Cfg} {s : Store} {boot res : List Addr} {now : Nat} {b : Book} (h : start c s boot res now = .ok b) :
    b.reserved = setOf res ∧ b.banned = s.banned ∧ b.discouraged = s.discouraged ∧ b.anchors = s.anchors ∧ b.store = s := by
  unfold start at h
  dsimp only at h
  obtain ⟨x, _, h⟩ := bind_eq_ok.1 h
  obtain ⟨y, _, h⟩ := bind_eq_ok.1 h
  cases h
  exact ⟨rfl, rfl, rfl, rfl, rfl⟩

theorem setAnchors_rest (b : Book) (l : List Addr) :
    (b.setAnchors l).reserved = b.reserved ∧ (b.setAnchors l).banned = b.banned ∧ (b.setAnchors l).discouraged = b.discouraged ∧
    (b.setAnchors l).anchors = setOf l ∧ (b.setAnchors l).addresses = b.addresses ∧ (b.setAnchors l).tables = b.tables ∧
    (b.setAnchors l).store.known = b.store.known := by
  unfold Book.setAnchors
  dsimp only
  split
  · next h => exact ⟨rfl, rfl, rfl, h, rfl, rfl, rfl⟩
  · exact ⟨rfl, rfl, rfl, rfl, rfl, rfl, rfl⟩

theorem filter_till (o : Option Nat) (now : Nat) : (o.filter fun till => decide (now < till)) =
    match o with
    | some t => if now < t then some t else none
    | none => none := by
  cases o with
  | none => rfl
  | some t => by_cases h : now < t <;> simp [Option.filter, h]

/-- one event, on the parts that do not depend on the tables -/
theorem step_rest {c : Cfg} {k T : Nat} {b b' : Book} {s : Step} (hi : Inv c k T b) (h : b.step c s = .ok b') :
    (∀ i, b'.banned.get i = banStep i (b.banned.get i) s) ∧
    (∀ i, b'.discouraged.get i = discourageStep c.discourageTime i (b.discouraged.get i) s) ∧
    (∀ a, b'.reserved.contains a = reservedStep a (b.reserved.contains a) s) ∧
    (∀ l, b.anchors = setOf l → b'.anchors = setOf (anchorStep l s)) := by
  obtain ⟨ev, now, rand⟩ := s
  have same : b'.reserved = b.reserved ∧ b'.banned = b.banned ∧ b'.discouraged = b.discouraged ∧ b'.anchors = b.anchors →
      (∀ i x, banStep i x ⟨ev, now, rand⟩ = x) → (∀ i x, discourageStep c.discourageTime i x ⟨ev, now, rand⟩ = x) →
      (∀ i x, reservedStep i x ⟨ev, now, rand⟩ = x) → (∀ l, anchorStep l ⟨ev, now, rand⟩ = l) →
      (∀ i, b'.banned.get i = banStep i (b.banned.get i) ⟨ev, now, rand⟩) ∧
      (∀ i, b'.discouraged.get i = discourageStep c.discourageTime i (b.discouraged.get i) ⟨ev, now, rand⟩) ∧
      (∀ a, b'.reserved.contains a = reservedStep a (b.reserved.contains a) ⟨ev, now, rand⟩) ∧
      (∀ l, b.anchors = setOf l → b'.anchors = setOf (anchorStep l ⟨ev, now, rand⟩)) := by
    rintro ⟨h1, h2, h3, h4⟩ g1 g2 g3 g4
    refine ⟨fun i => by rw [g1, h2], fun i => by rw [g2, h3], fun a => by rw [g3, h1], fun l hl => by rw [g4, h4, hl]⟩
  cases ev with
  | discovered a => exact same (discovered_rest h) (fun _ _ => rfl) (fun _ _ => rfl) (fun _ _ => rfl) (fun _ => rfl)
  | failed a =>
    obtain ⟨d, rfl⟩ := change_rest h
    exact same ⟨rfl, rfl, rfl, rfl⟩ (fun _ _ => rfl) (fun _ _ => rfl) (fun _ _ => rfl) (fun _ => rfl)
  | disconnected a =>
    obtain ⟨d, rfl⟩ := change_rest h
    exact same ⟨rfl, rfl, rfl, rfl⟩ (fun _ _ => rfl) (fun _ _ => rfl) (fun _ _ => rfl) (fun _ => rfl)
  | hadActivity a =>
    obtain ⟨d, rfl⟩ := change_rest h
    exact same ⟨rfl, rfl, rfl, rfl⟩ (fun _ _ => rfl) (fun _ _ => rfl) (fun _ _ => rfl) (fun _ => rfl)
  | connected a role =>
    have h : b.connected c a role now rand = .ok b' := h
    unfold Book.connected at h
    obtain ⟨b1, h1, h2⟩ := bind_eq_ok.1 h
    obtain ⟨d, rfl⟩ := change_rest h1
    have hm := moveToTried_rest h2
    exact same hm (fun _ _ => rfl) (fun _ _ => rfl) (fun _ _ => rfl) (fun _ => rfl)
  | remove a => exact same (remove_rest h) (fun _ _ => rfl) (fun _ _ => rfl) (fun _ _ => rfl) (fun _ => rfl)
  | addReserved a =>
    obtain ⟨b1, h1, h2⟩ := bind_eq_ok.1 (show (b.change a .setReserved now rand >>= _) = _ from h)
    obtain ⟨d, rfl⟩ := change_rest h1
    cases h2
    refine ⟨fun _ => rfl, fun _ => rfl, ?_, fun l hl => hl⟩
    intro x
    change (b.reserved.insert a ()).contains x = (b.reserved.contains x || decide (a = x))
    unfold BMap.contains
    rw [BMap.get_insert]
    by_cases e : x = a
    · simp [e]
    · have : ¬ a = x := fun h => e h.symm
      simp [e, this]
  | removeReserved a =>
    obtain ⟨b1, h1, h2⟩ := bind_eq_ok.1 (show (b.change a .unsetReserved now rand >>= _) = _ from h)
    obtain ⟨d, rfl⟩ := change_rest h1
    cases h2
    refine ⟨fun _ => rfl, fun _ => rfl, ?_, fun l hl => hl⟩
    intro x
    change (b.reserved.erase a).contains x = (b.reserved.contains x && !decide (a = x))
    unfold BMap.contains
    rw [BMap.get_erase]
    by_cases e : x = a
    · simp [e]
    · have : ¬ a = x := fun h => e h.symm
      simp [e, this]
  | ban j dur =>
    cases h
    refine ⟨?_, fun _ => rfl, fun _ => rfl, fun l hl => hl⟩
    intro i
    change (b.banned.insert j _).get i = if j = i then _ else _
    rw [BMap.get_insert]
    by_cases e : i = j
    · simp [e]
    · rw [if_neg e, if_neg fun h => e h.symm]
  | unban j =>
    cases h
    refine ⟨?_, fun _ => rfl, fun _ => rfl, fun l hl => hl⟩
    intro i
    change (b.banned.erase j).get i = if j = i then _ else _
    rw [BMap.get_erase]
    by_cases e : i = j
    · simp [e]
    · rw [if_neg e, if_neg fun h => e h.symm]
  | discourage j =>
    cases h
    refine ⟨fun _ => rfl, ?_, fun _ => rfl, fun l hl => hl⟩
    intro i
    change (b.discouraged.insert j _).get i = if j = i then _ else _
    rw [BMap.get_insert]
    by_cases e : i = j
    · simp [e]
    · rw [if_neg e, if_neg fun h => e h.symm]
  | undiscourage j =>
    cases h
    refine ⟨fun _ => rfl, ?_, fun _ => rfl, fun l hl => hl⟩
    intro i
    change (b.discouraged.erase j).get i = if j = i then _ else _
    rw [BMap.get_erase]
    by_cases e : i = j
    · simp [e]
    · rw [if_neg e, if_neg fun h => e h.symm]
  | setAnchors l =>
    cases h
    obtain ⟨e1, e2, e3, e4, _⟩ := setAnchors_rest b l
    exact ⟨fun i => by rw [e2]; rfl, fun i => by rw [e3]; rfl, fun a => by rw [e1]; rfl, fun _ _ => e4⟩
  | heartbeat =>
    obtain ⟨e1, e2, e3, e4⟩ := heartbeat_rest (show b.heartbeat c now = .ok b' from h)
    refine ⟨?_, ?_, fun a => by rw [e1]; rfl, fun l hl => by rw [e4, hl]; rfl⟩
    · intro i
      rw [e2, BMap.get_filter, filter_till]; rfl
    · intro i
      rw [e3, BMap.get_filter, filter_till]; rfl
  | restart boot res =>
    obtain ⟨e1, e2, e3, e4, _⟩ := start_rest (show start c b.store boot res now = .ok b' from h)
    refine ⟨fun i => by rw [e2, hi.ban]; rfl, fun i => by rw [e3, hi.disc]; rfl, ?_, fun l hl => by rw [e4, hi.anch, hl]; rfl⟩
    intro a
    rw [e1]
    change (setOf res).contains a = decide (a ∈ res)
    rw [Bool.eq_iff_iff, contains_eq, setOf_get]
    simp

theorem run_rest {c : Cfg} (hc : c.WF) {T t0 : Nat} {steps : List Step} (hr : Runs T t0 steps) {boot res : List Addr} {b : Book}
    (e : run c boot res t0 steps = .ok b) :
    (∀ i, b.banned.get i = steps.foldl (banStep i) none) ∧
    (∀ i, b.discouraged.get i = steps.foldl (discourageStep c.discourageTime i) none) ∧
    (∀ a, b.reserved.contains a = steps.foldl (reservedStep a) (decide (a ∈ res))) ∧
    b.anchors = setOf (steps.foldl anchorStep []) := by
  refine run_Q hc hr (fun pre b => (∀ i, b.banned.get i = pre.foldl (banStep i) none) ∧
    (∀ i, b.discouraged.get i = pre.foldl (discourageStep c.discourageTime i) none) ∧
    (∀ a, b.reserved.contains a = pre.foldl (reservedStep a) (decide (a ∈ res))) ∧
    b.anchors = setOf (pre.foldl anchorStep [])) ?_ ?_ e
  · intro b h _
    obtain ⟨e1, e2, e3, e4, _⟩ := start_rest h
    refine ⟨fun i => by rw [e2]; rfl, fun i => by rw [e3]; rfl, ?_, by rw [e4]; rfl⟩
    intro a
    rw [e1]
    change (setOf res).contains a = decide (a ∈ res)
    rw [Bool.eq_iff_iff, contains_eq, setOf_get]
    simp
  · rintro pre s post b b' - hi ⟨h1, h2, h3, h4⟩ hs -
    obtain ⟨g1, g2, g3, g4⟩ := step_rest hi hs
    simp only [List.foldl_append, List.foldl_cons, List.foldl_nil]
    exact ⟨fun i => by rw [g1, h1], fun i => by rw [g2, h2], fun a => by rw [g3, h3], g4 _ h4⟩

/-! ### Where the known addresses come from -/

theorem change_known {b b' : Book} {a : Addr} {tr : To} {now rand : Nat} (h : b.change a tr now rand = .ok b') :
    b'.store = b.store ∧ b'.tables = b.tables ∧ ∀ x, x ≠ a → b'.addresses.get x = b.addresses.get x := by
  obtain ⟨d, rfl⟩ := change_rest h
  exact ⟨rfl, rfl, fun x hx => BMap.get_insert_ne _ _ hx⟩

/-- what one event does to the addresses on disk and in memory -/
theorem step_known {c : Cfg} (hc : c.WF) {k T : Nat} {b b' : Book} {s : Step} (hi : Inv c k T b) (h : b.step c s = .ok b') :
    (∀ x, b'.store.known.get x = some true → b.store.known.get x = some true ∨ ∃ role, s.ev = .connected x role) ∧
    (∀ x, b'.store.known.get x ≠ none → b.store.known.get x ≠ none ∨ s.ev.Names x) ∧
    (∀ x, b'.addresses.get x ≠ none → b.addresses.get x ≠ none ∨ b.store.known.get x ≠ none ∨ s.ev.Names x) := by
  obtain ⟨ev, now, rand⟩ := s
  have chg : ∀ {a : Addr} {tr : To} {b1 : Book}, b.change a tr now rand = .ok b1 → b1.store = b.store ∧
      ∀ x, b1.addresses.get x ≠ none → b.addresses.get x ≠ none ∨ b.store.known.get x ≠ none ∨ a = x := by
    intro a tr b1 h
    obtain ⟨h1, _, h3⟩ := change_known h
    refine ⟨h1, ?_⟩
    intro x hx
    by_cases e : x = a
    · exact .inr (.inr e.symm)
    · rw [h3 x e] at hx; exact .inl hx
  have simple : b'.store.known = b.store.known → b'.addresses = b.addresses →
    (∀ x, b'.store.known.get x = some true → b.store.known.get x = some true ∨ ∃ role, ev = .connected x role) ∧
    (∀ x, b'.store.known.get x ≠ none → b.store.known.get x ≠ none ∨ ev.Names x) ∧
    (∀ x, b'.addresses.get x ≠ none → b.addresses.get x ≠ none ∨ b.store.known.get x ≠ none ∨ ev.Names x) := by
    intro e1 e2
    rw [e1, e2]
    exact ⟨fun _ h => .inl h, fun _ h => .inl h, fun _ h => .inl h⟩
  cases ev with
  | discovered a =>
    cases ha : b.addresses.get a with
    | some d =>
      have h : b.discovered c a now = .ok b' := h
      unfold Book.discovered at h
      rw [if_pos (by simp [BMap.contains, ha])] at h
      cases h
      exact simple rfl rfl
    | none =>
      obtain ⟨ts, r, _, _, h3, h4⟩ := discovered_eff hc hi now ha
      rw [show b.discovered c a now = .ok b' from h] at h4
      by_cases hra : r = some a
      · rw [if_pos hra] at h4
        cases h4
        exact simple rfl rfl
      · rw [if_neg hra] at h4
        cases h4
        have e := drop_eff { b with tables := ts, store := { b.store with known := b.store.known.insert a false } } r
        dsimp only at e ⊢
        refine ⟨?_, ?_, ?_⟩
        · intro x hx
          rw [(e x).2] at hx
          split at hx
          · cases hx
          · rw [BMap.get_insert] at hx
            split at hx
            · cases hx
            · exact .inl hx
        · intro x hx
          rw [(e x).2] at hx
          split at hx
          · exact absurd rfl hx
          · rw [BMap.get_insert] at hx
            split at hx
            · next ex => exact .inr ex.symm
            · exact .inl hx
        · intro x hx
          rw [BMap.get_insert] at hx
          split at hx
          · next ex => exact .inr (.inr ex.symm)
          · rw [(e x).1] at hx
            split at hx
            · exact absurd rfl hx
            · exact .inl hx
  | failed a =>
    obtain ⟨h1, h2⟩ := chg h
    exact ⟨fun x hx => .inl (by rw [← h1]; exact hx), fun x hx => .inl (by rw [← h1]; exact hx), h2⟩
  | disconnected a =>
    obtain ⟨h1, h2⟩ := chg h
    exact ⟨fun x hx => .inl (by rw [← h1]; exact hx), fun x hx => .inl (by rw [← h1]; exact hx), h2⟩
  | hadActivity a =>
    obtain ⟨h1, h2⟩ := chg h
    exact ⟨fun x hx => .inl (by rw [← h1]; exact hx), fun x hx => .inl (by rw [← h1]; exact hx), h2⟩
  | addReserved a =>
    obtain ⟨b1, h1, h2⟩ := bind_eq_ok.1 (show (b.change a .setReserved now rand >>= _) = _ from h)
    cases h2
    obtain ⟨h1, h2⟩ := chg h1
    exact ⟨fun x hx => .inl (by rw [← h1]; exact hx), fun x hx => .inl (by rw [← h1]; exact hx), h2⟩
  | removeReserved a =>
    obtain ⟨b1, h1, h2⟩ := bind_eq_ok.1 (show (b.change a .unsetReserved now rand >>= _) = _ from h)
    cases h2
    obtain ⟨h1, h2⟩ := chg h1
    exact ⟨fun x hx => .inl (by rw [← h1]; exact hx), fun x hx => .inl (by rw [← h1]; exact hx), h2⟩
  | connected a role =>
    have h : b.connected c a role now rand = .ok b' := h
    unfold Book.connected at h
    obtain ⟨b1, h1, h2⟩ := bind_eq_ok.1 h
    obtain ⟨g1, g2⟩ := chg h1
    obtain ⟨_, g3, _⟩ := change_known h1
    unfold Book.moveToTried at h2
    obtain ⟨ts, r, e1, e2, e3⟩ := moveToTried_holds hc (by rw [g3]; exact hi.ts : b1.tables.Ok c) a
    rw [e1, ok_bind] at h2
    cases e3 with
    | none _ _ =>
      cases h2
      refine ⟨?_, ?_, g2⟩
      · intro x hx
        change (b1.store.known.insert a true).get x = _ at hx
        rw [BMap.get_insert] at hx
        split at hx
        · next ex => exact .inr ⟨role, by rw [ex]⟩
        · exact .inl (by rw [← g1]; exact hx)
      · intro x hx
        change (b1.store.known.insert a true).get x ≠ _ at hx
        rw [BMap.get_insert] at hx
        split at hx
        · next ex => exact .inr ex.symm
        · exact .inl (by rw [← g1]; exact hx)
    | some p g ne was _ _ _ _ =>
      cases h2
      have e := drop_eff { b1 with tables := ts, store := { b1.store with known := (b1.store.known.insert a true).insert p false } } g
      have hp : b.store.known.get p = some true := hi.triedSt p (by rw [g3] at was; exact was)
      dsimp only at e ⊢
      refine ⟨?_, ?_, ?_⟩
      · intro x hx
        rw [(e x).2] at hx
        split at hx
        · cases hx
        · rw [BMap.get_insert, BMap.get_insert] at hx
          split at hx
          · cases hx
          · split at hx
            · next ex => exact .inr ⟨role, by rw [ex]⟩
            · exact .inl (by rw [← g1]; exact hx)
      · intro x hx
        rw [(e x).2] at hx
        split at hx
        · exact absurd rfl hx
        · rw [BMap.get_insert, BMap.get_insert] at hx
          split at hx
          · next ex => rw [ex, hp]; exact .inl nofun
          · split at hx
            · next ex => exact .inr ex.symm
            · exact .inl (by rw [← g1]; exact hx)
      · intro x hx
        rw [(e x).1] at hx
        split at hx
        · exact absurd rfl hx
        · exact g2 x hx
  | remove a =>
    obtain ⟨ts, _, _, _, e⟩ := removeAddress_eff hc hi a
    rw [show b.removeAddress c a = .ok b' from h] at e
    cases e
    dsimp only
    refine ⟨?_, ?_, ?_⟩
    · intro x hx
      rw [BMap.get_erase] at hx
      split at hx
      · cases hx
      · exact .inl hx
    · intro x hx
      rw [BMap.get_erase] at hx
      split at hx
      · exact absurd rfl hx
      · exact .inl hx
    · intro x hx
      by_cases hr : b.reserved.contains a = true
      · rw [if_pos hr] at hx; exact .inl hx
      · rw [if_neg hr, BMap.get_erase] at hx
        split at hx
        · exact absurd rfl hx
        · exact .inl hx
  | ban i dur => cases h; exact simple rfl rfl
  | unban i => cases h; exact simple rfl rfl
  | discourage i => cases h; exact simple rfl rfl
  | undiscourage i => cases h; exact simple rfl rfl
  | setAnchors l =>
    cases h
    obtain ⟨_, _, _, _, e1, _, e3⟩ := setAnchors_rest b l
    exact simple e3 e1
  | heartbeat =>
    obtain ⟨b1, e, _, _, _, h4, _, _, _, _, _, _, _, h12⟩ := heartbeat_eff hc hi now
    rw [show b.heartbeat c now = .ok b' from h] at e
    cases e
    refine ⟨?_, ?_, ?_⟩
    · intro x hx
      rw [h12] at hx
      split at hx
      · cases hx
      · exact .inl hx
    · intro x hx
      rw [h12] at hx
      split at hx
      · exact absurd rfl hx
      · exact .inl hx
    · intro x hx
      rw [h4] at hx
      refine .inl fun e => hx ?_
      rw [e]; rfl
  | restart boot res =>
    obtain ⟨b1, e, _, _, _, _, _, hst, _, hadd, _⟩ := start_spec hc 0 (Nat.le_refl now) b.store boot res
    rw [show start c b.store boot res now = .ok b' from h] at e
    cases e
    rw [hst]
    refine ⟨fun _ h => .inl h, fun _ h => .inl h, ?_⟩
    intro x hx
    cases ex : b'.addresses.get x with
    | none => exact absurd ex hx
    | some d =>
      rcases hadd x d ex with ⟨t, ht⟩ | h1
      · rw [ht]; exact .inr (.inl nofun)
      · exact .inr (.inr h1)

theorem run_known {c : Cfg} (hc : c.WF) {T t0 : Nat} {steps : List Step} (hr : Runs T t0 steps) {boot res : List Addr} {b : Book}
    (e : run c boot res t0 steps = .ok b) :
    (∀ x, b.store.known.get x = some true → ∃ s ∈ steps, ∃ role, s.ev = .connected x role) ∧
    (∀ x, b.store.known.get x ≠ none → ∃ s ∈ steps, s.ev.Names x) ∧
    (∀ x, b.addresses.get x ≠ none → x ∈ boot ∨ x ∈ res ∨ ∃ s ∈ steps, s.ev.Names x) := by
  refine run_Q hc hr (fun pre b => (∀ x, b.store.known.get x = some true → ∃ s ∈ pre, ∃ role, s.ev = .connected x role) ∧
    (∀ x, b.store.known.get x ≠ none → ∃ s ∈ pre, s.ev.Names x) ∧
    (∀ x, b.addresses.get x ≠ none → x ∈ boot ∨ x ∈ res ∨ ∃ s ∈ pre, s.ev.Names x)) ?_ ?_ e
  · intro b h _
    obtain ⟨b1, e, _, _, _, _, _, hst, _, hadd, _⟩ := start_spec hc 0 (Nat.le_refl t0) Store.init boot res
    rw [h] at e
    cases e
    rw [hst]
    refine ⟨fun x hx => (by cases hx), fun x hx => absurd rfl hx, ?_⟩
    intro x hx
    cases ex : b.addresses.get x with
    | none => exact absurd ex hx
    | some d =>
      rcases hadd x d ex with ⟨t, ht⟩ | h1 | h1
      · cases ht
      · exact .inl h1
      · exact .inr (.inl h1)
  · rintro pre s post b b' - hi ⟨h1, h2, h3⟩ hs -
    obtain ⟨g1, g2, g3⟩ := step_known hc hi hs
    have old : ∀ {P : Step → Prop}, (∃ s ∈ pre, P s) → ∃ s' ∈ pre ++ [s], P s' :=
      fun ⟨x, hx, hp⟩ => ⟨x, List.mem_append_left _ hx, hp⟩
    have last : s ∈ pre ++ [s] := by simp
    refine ⟨?_, ?_, ?_⟩
    · intro x hx
      rcases g1 x hx with hx | hx
      · exact old (h1 x hx)
      · exact ⟨s, last, hx⟩
    · intro x hx
      rcases g2 x hx with hx | hx
      · exact old (h2 x hx)
      · exact ⟨s, last, hx⟩
    · intro x hx
      rcases g3 x hx with hx | hx | hx
      · exact (h3 x hx).imp_right (Or.imp_right old)
      · exact .inr (.inr (old (h2 x hx)))
      · exact .inr (.inr ⟨s, last, hx⟩)

end Verif.PeerDb
