import Verif.PeerDb.History

/-! Without boot nodes and reserved nodes, the disk holds exactly what is in the tables. -/

namespace Verif.PeerDb

open Verif

structure Exact (c : Cfg) (b : Book) : Prop where
  none : ∀ a, b.reserved.get a = none
  tried : ∀ a, b.store.known.get a = some true → b.tables.Tried c a
  new : ∀ a, b.store.known.get a = some false → b.tables.New c a
  new' : ∀ a, b.tables.New c a → b.store.known.get a = some false

/-- every known address is in a table -/
def Full (c : Cfg) (b : Book) : Prop := ∀ a, b.addresses.get a ≠ none → b.tables.New c a ∨ b.tables.Tried c a

/-! ### Start -/

structure LoadedAll (c : Cfg) (done : List (Addr × Bool)) (ts : Tables) : Prop where
  tried : ∀ a, (a, true) ∈ done → ts.Tried c a
  new : ∀ a, (a, false) ∈ done → ts.New c a

/-- an address that meets no other one in its slot displaces none -/
theorem Put.keeps {c : Hash} {t t' : Table} {a : Addr} {r : Option Addr} (p : Put c t t' a (fun _ => true) r)
    (h : ∀ y, t.Holds c y → c.slot y = c.slot a → y = a) : ∀ x, t'.Holds c x ↔ x = a ∨ t.Holds c x := by
  cases p with
  | fresh _ eff => exact eff
  | swap y ne holds slot _ _ => exact absurd (h y holds slot) ne
  | keep y _ _ _ no _ => cases no

theorem start_exact {c : Cfg} (hc : c.WF) {now : Nat} {s : Store}
    (ht : ∀ a b, s.known.get a = some true → s.known.get b = some true → c.triedH.slot a = c.triedH.slot b → a = b)
    (hn : ∀ a b, s.known.get a = some false → s.known.get b = some false → c.newH.slot a = c.newH.slot b → a = b) {b : Book}
    (e : start c s [] [] now = .ok b) : Exact c b ∧ Full c b := by
  have l0 : Loaded c (setOf []) now [] (BMap.empty, ⟨Table.new c.newH, Table.new c.triedH⟩) :=
    ⟨⟨Table.new_ok _, Table.new_ok _⟩, fun a d => by constructor <;> [nofun; (rintro ⟨_, h, _⟩; cases h)],
      fun a h => absurd h (new_holds _ _), fun a h => absurd h (new_holds _ _)⟩
  obtain ⟨x1, e1, h1, h1'⟩ := foldlM_inv (loadOne c (setOf []) now) (fun done x => Loaded c (setOf []) now done x ∧ LoadedAll c done x.2)
    s.known.entries [] _ ⟨l0, fun _ h => (by cases h), fun _ h => (by cases h)⟩ (by
    rintro pre post ⟨a, t⟩ x e ⟨h, h'⟩
    have e : s.known.entries = pre ++ (a, t) :: post := by simpa using e
    obtain ⟨y, g1, g2, g3, g4⟩ := loadOne_spec hc (l := s.known.entries) s.known.sorted e h
    refine ⟨y, g1, g2, ?_⟩
    have mem : ∀ z ∈ pre, s.known.get z.1 = some z.2 := fun z hz => BMap.mem_entries.1 (by rw [e]; exact List.mem_append_left _ hz)
    have mema : s.known.get a = some t := BMap.mem_entries.1 (by rw [e]; simp)
    cases t with
    | true =>
      obtain ⟨k1, q, k2⟩ := g3 rfl
      have k3 := k2.keeps (fun z hz hs => ht z a (mem (z, true) (h.tried z hz)) mema hs)
      constructor
      · intro z hz
        refine (k3 z).2 ?_
        rcases List.mem_append.1 hz with hz | hz
        · exact .inr (h'.tried z hz)
        · exact .inl (by simpa using hz)
      · intro z hz
        rcases List.mem_append.1 hz with hz | hz
        · have := h'.new z hz
          unfold Tables.New at this ⊢
          rw [k1]; exact this
        · simp at hz
    | false =>
      obtain ⟨k1, q, k2⟩ := g4 rfl
      have k3 := k2.keeps (fun z hz hs => hn z a (mem (z, false) (h.new z hz)) mema hs)
      constructor
      · intro z hz
        rcases List.mem_append.1 hz with hz | hz
        · have := h'.tried z hz
          unfold Tables.Tried at this ⊢
          rw [k1]; exact this
        · simp at hz
      · intro z hz
        refine (k3 z).2 ?_
        rcases List.mem_append.1 hz with hz | hz
        · exact .inr (h'.new z hz)
        · exact .inl (by simpa using hz))
  rw [List.nil_append] at h1 h1'
  have e' : start c s [] [] now = .ok ⟨x1.1, setOf [], x1.2, s.banned, s.discouraged, s.anchors, s⟩ := by
    unfold start
    dsimp only
    rw [e1, ok_bind]; rfl
  rw [e] at e'
  cases e'
  refine ⟨⟨fun a => rfl, fun a h => h1'.tried a (BMap.mem_entries.2 h), fun a h => h1'.new a (BMap.mem_entries.2 h),
    fun a h => BMap.mem_entries.1 (h1.new a h)⟩, ?_⟩
  intro a ha
  dsimp only at ha ⊢
  cases ea : x1.1.get a with
  | none => exact absurd ea ha
  | some d =>
    obtain ⟨t, ht, _⟩ := (h1.addr a d).1 ea
    cases t with
    | true => exact .inr (h1'.tried a ht)
    | false => exact .inl (h1'.new a ht)

/-- a restart of a book that matches its disk -/
theorem restart_exact {c : Cfg} (hc : c.WF) {k T now : Nat} {b b' : Book} (hi : Inv c k T b) (he : Exact c b)
    (e : start c b.store [] [] now = .ok b') :
    Exact c b' ∧ Full c b' ∧ (∀ a, b'.tables.New c a ↔ b.tables.New c a) ∧ ∀ a, b'.tables.Tried c a ↔ b.tables.Tried c a := by
  obtain ⟨h1, h2⟩ := start_exact hc (fun x y hx hy hs => hi.ts.tried.uniq (he.tried x hx) (he.tried y hy) hs)
    (fun x y hx hy hs => hi.ts.new.uniq (he.new x hx) (he.new y hy) hs) e
  obtain ⟨b1, e1, hi', _, _, _, _, hst, _⟩ := start_spec hc 0 (Nat.le_refl now) b.store [] []
  rw [e] at e1
  cases e1
  refine ⟨h1, h2, ?_, ?_⟩
  · intro a
    constructor
    · intro h; exact he.new a (by rw [← hst]; exact h1.new' a h)
    · intro h; exact h1.new a (by rw [hst]; exact he.new' a h)
  · intro a
    constructor
    · intro h; exact he.tried a (by rw [← hst]; exact hi'.triedSt a h)
    · intro h; exact h1.tried a (by rw [hst]; exact hi.triedSt a h)

/-! ### Events -/

theorem exact_change {c : Cfg} {b b' : Book} {a : Addr} {tr : To} {now rand : Nat} (he : Exact c b)
    (h : b.change a tr now rand = .ok b') : Exact c b' ∧ (Full c b → b.addresses.contains a = true → Full c b') := by
  obtain ⟨d, rfl⟩ := change_rest h
  refine ⟨⟨he.none, he.tried, he.new, he.new'⟩, ?_⟩
  intro hf ha x hx
  refine hf x ?_
  change (b.addresses.insert a d).get x ≠ _ at hx
  rw [BMap.get_insert] at hx
  split at hx
  · next ex =>
    rw [ex]
    intro hn
    unfold BMap.contains at ha
    rw [hn] at ha; cases ha
  · exact hx

theorem exact_moveToTried {c : Cfg} (hc : c.WF) {k T : Nat} {b b' : Book} {a : Addr} (hi : Inv c k T b) (he : Exact c b)
    (h : b.moveToTried c a = .ok b') :
    Exact c b' ∧ ((∀ x, x ≠ a → b.addresses.get x ≠ none → b.tables.New c x ∨ b.tables.Tried c x) → Full c b') := by
  obtain ⟨ts, r, m, hts, e⟩ := moveToTried_eff hc hi a
  rw [h] at e
  cases m with
  | none tried new =>
    cases e
    refine ⟨⟨he.none, ?_, ?_, ?_⟩, ?_⟩
    · intro x hx
      change (b.store.known.insert a true).get x = _ at hx
      refine (tried x).2 ?_
      rw [BMap.get_insert] at hx
      split at hx
      · next ex => exact .inl ex
      · exact .inr (he.tried x hx)
    · intro x hx
      change (b.store.known.insert a true).get x = _ at hx
      rw [BMap.get_insert] at hx
      split at hx
      · cases hx
      · next ex => exact (new x).2 ⟨he.new x hx, ex⟩
    · intro x hx
      obtain ⟨h1, h2⟩ := (new x).1 hx
      change (b.store.known.insert a true).get x = _
      rw [BMap.get_insert_ne _ _ h2]; exact he.new' x h1
    · intro hf x hx
      by_cases ex : x = a
      · exact .inr ((tried x).2 (.inl ex))
      · rcases hf x ex hx with h1 | h1
        · exact .inl ((new x).2 ⟨h1, ex⟩)
        · exact .inr ((tried x).2 (.inr h1))
  | some p g ne was slot tried new gone =>
    have e := Except.ok.inj e
    subst e
    have ed := drop_eff { b with tables := ts, store := { b.store with known := (b.store.known.insert a true).insert p false } } g
    obtain ⟨e1, e2, _⟩ := drop_rest { b with tables := ts, store := { b.store with known := (b.store.known.insert a true).insert p false } } g
    dsimp only at ed e1 e2
    refine ⟨⟨by rw [e2]; exact he.none, ?_, ?_, ?_⟩, ?_⟩
    · intro x hx
      rw [e1]
      rw [(ed x).2] at hx
      split at hx
      · cases hx
      · rw [BMap.get_insert, BMap.get_insert] at hx
        split at hx
        · cases hx
        · next ep =>
          split at hx
          · next ex => exact (tried x).2 (.inl ex)
          · exact (tried x).2 (.inr ⟨he.tried x hx, ep⟩)
    · intro x hx
      rw [e1]
      rw [(ed x).2] at hx
      split at hx
      · cases hx
      · next hg =>
        rw [BMap.get_insert, BMap.get_insert] at hx
        split at hx
        · next ep => exact (new x).2 (.inl ep)
        · split at hx
          · cases hx
          · next ea => exact (new x).2 (.inr ⟨he.new x hx, ea, fun e => hg ⟨e, he.none x⟩⟩)
    · intro x hx
      rw [e1] at hx
      rw [(ed x).2]
      rcases (new x).1 hx with rfl | ⟨h1, h2, h3⟩
      · rw [if_neg fun h => (gone x h.1).2.2.1 rfl, BMap.get_insert, if_pos rfl]
      · rw [if_neg fun h => h3 h.1, BMap.get_insert]
        split
        · rfl
        · rw [BMap.get_insert_ne _ _ h2]; exact he.new' x h1
    · intro hf x hx
      rw [e1]
      rw [(ed x).1] at hx
      split at hx
      · exact absurd rfl hx
      · next hg =>
        by_cases ex : x = a
        · exact .inr ((tried x).2 (.inl ex))
        · rcases hf x ex hx with h1 | h1
          · exact .inl ((new x).2 (.inr ⟨h1, ex, fun e => hg ⟨e, he.none x⟩⟩))
          · by_cases ep : x = p
            · exact .inl ((new x).2 (.inl ep))
            · exact .inr ((tried x).2 (.inr ⟨h1, ep⟩))

theorem exact_step {c : Cfg} (hc : c.WF) {k T : Nat} {b b' : Book} {s : Step} (hi : Inv c k T b) (he : Exact c b) (hp : s.ev.Plain)
    (hfit : s.Fits T) (hT : T + longest false < maxTime) (hk : k + 1 < 2 ^ 32)
    (h : b.step c s = .ok b') : Exact c b' ∧ (Full c b → s.ev.Polite b → Full c b') := by
  obtain ⟨ev, now, rand⟩ := s
  have simple : b'.store.known = b.store.known → b'.addresses = b.addresses → b'.tables = b.tables → b'.reserved = b.reserved →
      Exact c b' ∧ (Full c b → ev.Polite b → Full c b') := by
    intro e1 e2 e3 e4
    refine ⟨⟨by rw [e4]; exact he.none, by rw [e1, e3]; exact he.tried, by rw [e1, e3]; exact he.new, by rw [e1, e3]; exact he.new'⟩, ?_⟩
    intro hf _
    unfold Full
    rw [e2, e3]; exact hf
  cases ev with
  | discovered a =>
    cases ha : b.addresses.get a with
    | some d =>
      have h : b.discovered c a now = .ok b' := h
      unfold Book.discovered at h
      rw [if_pos (by simp [BMap.contains, ha])] at h
      cases h
      exact simple rfl rfl rfl rfl
    | none =>
      obtain ⟨ts, r, h1, h2, h3, h4⟩ := discovered_eff hc hi now ha
      rw [show b.discovered c a now = .ok b' from h] at h4
      by_cases hra : r = some a
      · rw [if_pos hra] at h4
        cases h4
        subst hra
        cases h3 with
        | swap _ ne _ _ _ _ => exact absurd rfl ne
        | keep y _ _ _ _ eff =>
          refine ⟨⟨he.none, fun x hx => (h2 x).2 (he.tried x hx), fun x hx => (eff x).2 (he.new x hx),
            fun x hx => he.new' x ((eff x).1 hx)⟩, ?_⟩
          intro hf _ x hx
          exact (hf x hx).imp (fun h => (eff x).2 h) (fun h => (h2 x).2 h)
      · rw [if_neg hra] at h4
        have h4 := Except.ok.inj h4
        subst h4
        have ed := drop_eff { b with tables := ts, store := { b.store with known := b.store.known.insert a false } } r
        obtain ⟨e1, e2, _⟩ := drop_rest { b with tables := ts, store := { b.store with known := b.store.known.insert a false } } r
        dsimp only at ed e1 e2 ⊢
        have new : ∀ x, ts.New c x ↔ x = a ∨ (b.tables.New c x ∧ r ≠ some x) := by
          intro x
          cases h3 with
          | fresh _ eff => exact (eff x).trans (by simp)
          | swap y _ _ _ _ eff => exact (eff x).trans (by simp [eq_comm])
          | keep y _ _ _ _ _ => exact absurd rfl hra
        have hntr : ¬ b.tables.Tried c a := by
          intro ht
          obtain ⟨d, hd⟩ := hi.known a (.inr ht)
          rw [ha] at hd; cases hd
        have hrn : ∀ x, r = some x → b.tables.New c x := by
          intro x hx
          subst hx
          cases h3 with
          | swap _ _ holds _ _ _ => exact holds
          | keep y _ _ _ _ _ => exact absurd rfl hra
        refine ⟨⟨by dsimp only; rw [e2]; exact he.none, ?_, ?_, ?_⟩, ?_⟩
        · intro x hx
          dsimp only at hx ⊢
          rw [e1]
          rw [(ed x).2] at hx
          split at hx
          · cases hx
          · rw [BMap.get_insert] at hx
            split at hx
            · cases hx
            · exact (h2 x).2 (he.tried x hx)
        · intro x hx
          dsimp only at hx ⊢
          rw [e1]
          rw [(ed x).2] at hx
          split at hx
          · cases hx
          · next hg =>
            rw [BMap.get_insert] at hx
            split at hx
            · next ex => exact (new x).2 (.inl ex)
            · exact (new x).2 (.inr ⟨he.new x hx, fun e => hg ⟨e, he.none x⟩⟩)
        · intro x hx
          dsimp only at hx ⊢
          rw [e1] at hx
          rw [(ed x).2]
          rcases (new x).1 hx with rfl | ⟨g1, g2⟩
          · rw [if_neg fun h => hra h.1, BMap.get_insert, if_pos rfl]
          · rw [if_neg fun h => g2 h.1, BMap.get_insert]
            split
            · rfl
            · exact he.new' x g1
        · intro hf _ x hx
          dsimp only at hx ⊢
          rw [e1]
          rw [BMap.get_insert] at hx
          split at hx
          · next ex => exact .inl ((new x).2 (.inl ex))
          · rw [(ed x).1] at hx
            split at hx
            · exact absurd rfl hx
            · next hg =>
              rcases hf x hx with g | g
              · exact .inl ((new x).2 (.inr ⟨g, fun e => hg ⟨e, he.none x⟩⟩))
              · exact .inr ((h2 x).2 g)
  | failed a => obtain ⟨h1, h2⟩ := exact_change he h; exact ⟨h1, h2⟩
  | disconnected a => obtain ⟨h1, h2⟩ := exact_change he h; exact ⟨h1, h2⟩
  | hadActivity a => obtain ⟨h1, h2⟩ := exact_change he h; exact ⟨h1, h2⟩
  | addReserved a => exact absurd hp id
  | removeReserved a =>
    obtain ⟨b1, h1, h2⟩ := bind_eq_ok.1 (show (b.change a .unsetReserved now rand >>= _) = _ from h)
    cases h2
    obtain ⟨h1, h2⟩ := exact_change he h1
    refine ⟨⟨?_, h1.tried, h1.new, h1.new'⟩, h2⟩
    intro x
    change (b1.reserved.erase a).get x = none
    rw [BMap.get_erase]
    split
    · rfl
    · exact h1.none x
  | connected a role =>
    have h : b.connected c a role now rand = .ok b' := h
    unfold Book.connected at h
    obtain ⟨b1, h1, h2⟩ := bind_eq_ok.1 h
    obtain ⟨d, g1, g2, _, g3⟩ := change_eff hi a (.connected role) hfit.1 hT hfit.2 hk
    have hi1 := inv_change_same hi g2 (by rw [g3]; exact flag_of_get hi a)
    rw [show b.change a (.connected role) now rand = .ok b1 from h1] at g1
    cases g1
    obtain ⟨he1, _⟩ := exact_change he h1
    obtain ⟨k1, k2⟩ := exact_moveToTried hc hi1 he1 h2
    refine ⟨k1, fun hf _ => k2 ?_⟩
    intro x hx hg
    refine hf x ?_
    change (b.addresses.insert a d).get x ≠ _ at hg
    rw [BMap.get_insert_ne _ _ hx] at hg
    exact hg
  | remove a =>
    obtain ⟨ts, h2, h3, h4, e⟩ := removeAddress_eff hc hi a
    rw [show b.removeAddress c a = .ok b' from h] at e
    cases e
    have hnr : ¬ b.reserved.contains a = true := by
      unfold BMap.contains
      rw [he.none]; nofun
    refine ⟨⟨he.none, ?_, ?_, ?_⟩, ?_⟩
    · intro x hx
      change (b.store.known.erase a).get x = _ at hx
      rw [BMap.get_erase] at hx
      split at hx
      · cases hx
      · next ex => exact (h3 x).2 ⟨he.tried x hx, ex⟩
    · intro x hx
      change (b.store.known.erase a).get x = _ at hx
      rw [BMap.get_erase] at hx
      split at hx
      · cases hx
      · next ex => exact (h4 x).2 ⟨he.new x hx, ex⟩
    · intro x hx
      obtain ⟨g1, g2⟩ := (h4 x).1 hx
      change (b.store.known.erase a).get x = _
      rw [BMap.get_erase_ne _ g2]; exact he.new' x g1
    · intro hf _ x hx
      dsimp only at hx ⊢
      rw [if_neg hnr, BMap.get_erase] at hx
      split at hx
      · exact absurd rfl hx
      · next ex => exact (hf x hx).imp (fun g => (h4 x).2 ⟨g, ex⟩) (fun g => (h3 x).2 ⟨g, ex⟩)
  | ban i dur => cases h; exact simple rfl rfl rfl rfl
  | unban i => cases h; exact simple rfl rfl rfl rfl
  | discourage i => cases h; exact simple rfl rfl rfl rfl
  | undiscourage i => cases h; exact simple rfl rfl rfl rfl
  | setAnchors l =>
    cases h
    obtain ⟨e0, _, _, _, e1, e2, e3⟩ := setAnchors_rest b l
    exact simple e3 e1 e2 e0
  | heartbeat =>
    obtain ⟨b1, e, _, h2, h3, h4, h5, _, _, _, _, _, _, h12⟩ := heartbeat_eff hc hi now
    rw [show b.heartbeat c now = .ok b' from h] at e
    cases e
    refine ⟨⟨by rw [h5]; exact he.none, ?_, ?_, ?_⟩, ?_⟩
    · intro x hx
      rw [h12] at hx
      split at hx
      · cases hx
      · next hg => exact (h2 x).2 ⟨he.tried x hx, hg⟩
    · intro x hx
      rw [h12] at hx
      split at hx
      · cases hx
      · next hg => exact (h3 x).2 ⟨he.new x hx, hg⟩
    · intro x hx
      obtain ⟨g1, g2⟩ := (h3 x).1 hx
      rw [h12, if_neg g2]; exact he.new' x g1
    · intro hf _ x hx
      rw [h4] at hx
      have hg : ¬ ∃ d, b.addresses.get x = some d ∧ d.retain now = false := by
        rintro ⟨d, hd, hr⟩
        rw [hd] at hx
        exact hx (by simp [Option.filter, hr])
      have hne : b.addresses.get x ≠ none := fun e => hx (by rw [e]; rfl)
      exact (hf x hne).imp (fun g => (h3 x).2 ⟨g, hg⟩) (fun g => (h2 x).2 ⟨g, hg⟩)
  | restart boot res =>
    obtain ⟨rfl, rfl⟩ : boot = [] ∧ res = [] := hp
    obtain ⟨h1, h2, _⟩ := restart_exact hc hi he (show start c b.store [] [] now = .ok b' from h)
    exact ⟨h1, fun _ _ => h2⟩

theorem run_exact {c : Cfg} (hc : c.WF) {T t0 : Nat} {steps : List Step} (hr : Runs T t0 steps) (hp : ∀ s ∈ steps, s.ev.Plain)
    {b : Book} (e : run c [] [] t0 steps = .ok b) : Exact c b := by
  refine run_Q hc hr (fun _ b => Exact c b) ?_ ?_ e
  · intro b h _
    exact (start_exact hc (fun x y hx => (by cases hx)) (fun x y hx => (by cases hx)) h).1
  · intro pre s post b b' es hi he hs _
    have hl : pre.length + 1 < 2 ^ 32 := by
      have := hr.count
      rw [es] at this
      simp only [List.length_append, List.length_cons] at this
      omega
    have hm : s ∈ steps := by rw [es]; simp
    exact (exact_step hc hi he (hp s hm) (hr.fits s hm) (by have := hr.clock; unfold longest; exact this) hl hs).1

theorem full_steps {c : Cfg} (hc : c.WF) {T : Nat} (hT : T + longest false < maxTime) : ∀ (steps : List Step) {k : Nat} {b b' : Book},
    Inv c k T b → Exact c b → Full c b → (∀ s ∈ steps, s.ev.Plain) → (∀ s ∈ steps, s.Fits T) → k + steps.length < 2 ^ 32 →
    Polite c b steps → steps.foldlM (Book.step c) b = .ok b' → Full c b' := by
  intro steps
  induction steps with
  | nil => intro k b b' _ _ hf _ _ _ _ h; cases h; exact hf
  | cons s l ih =>
    intro k b b' hi he hf hp hfit hk hpol h
    rw [List.foldlM_cons] at h
    obtain ⟨b1, h1, h2⟩ := bind_eq_ok.1 h
    have hk : k + (l.length + 1) < 2 ^ 32 := hk
    obtain ⟨b2, g1, g2⟩ := inv_step hc hi (hfit s (by simp)) hT (by omega)
    rw [h1] at g1
    cases g1
    obtain ⟨k1, k2⟩ := exact_step hc hi he (hp s (by simp)) (hfit s (by simp)) hT (by omega) h1
    exact ih g2 k1 (k2 hf hpol.1) (fun x hx => hp x (by simp [hx])) (fun x hx => hfit x (by simp [hx])) (by omega) (hpol.2 b1 h1) h2

theorem run_full {c : Cfg} (hc : c.WF) {T t0 : Nat} {steps : List Step} (hr : Runs T t0 steps) (hp : ∀ s ∈ steps, s.ev.Plain)
    (hpol : ∀ b, start c Store.init [] [] t0 = .ok b → Polite c b steps) {b : Book} (e : run c [] [] t0 steps = .ok b) : Full c b := by
  unfold run at e
  obtain ⟨b0, h1, h2⟩ := bind_eq_ok.1 e
  obtain ⟨b1, e1, hi, _⟩ := start_spec hc 0 hr.start Store.init [] []
  rw [h1] at e1
  cases e1
  obtain ⟨he, hf⟩ := start_exact hc (fun x y hx => (by cases hx)) (fun x y hx => (by cases hx)) h1
  have := hr.count
  exact full_steps hc (by have := hr.clock; unfold longest; exact this) steps hi he hf hp hr.fits (by omega) (hpol b0 h1) h2

end Verif.PeerDb
