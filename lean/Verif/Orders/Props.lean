import Verif.Orders.Invariant

/-!
# Orders: C12 (price), C13 (conservation), C14 (undo), C15 (freeze), C37 (flush)
-/

namespace Verif.Orders
open Verif Verif.Accounting

/-! ### Concrete data used by the examples -/

/-- 10 coins asked for 25 units of token 7 -/
def exOrder : OrderData := { concludeKey := 1, ask := .coin 10, give := .tokenV1 7 25, isFrozen := false }

def exOps : List Op := [.create 5 exOrder, .fill 5 3 .v1, .fill 5 4 .v0, .freeze 5]

/-- `Cache.new emptyDB.view` after `exOps`: the run succeeds, 3 coins bought 7 tokens, 4 more bought 10 -/
example : ∃ c us, run (Cache.new emptyDB.view) exOps = .ok (c, us) ∧
    c.view.ask 5 = .ok 3 ∧ c.view.give 5 = .ok 8 ∧
    us.map (fun | .fill _ a b => (a, b) | _ => (0, 0)) = [(0, 0), (3, 7), (4, 10), (0, 0)] := by
  refine ⟨_, _, rfl, ?_, ?_, ?_⟩ <;> decide +kernel

/-! ### Starting states -/

/-- the state with no orders at all is sound (so everything below applies from genesis) -/
theorem sound_empty : SoundView emptyDB.view := by
  intro id
  exact ⟨none, 0, 0, by simp [DB.view, emptyDB], by simp [DB.view, emptyDB, bal], by simp [DB.view, emptyDB, bal], rfl, rfl⟩

/-- a fresh cache shows exactly what its parent shows (for a sound parent) -/
theorem new_view (p : View) (hp : SoundView p) : (Cache.new p).view = p := by
  unfold Cache.view Cache.new
  cases p with
  | mk data ask give =>
  have e0 : ∀ (parent : OrderId → Except Err Nat) (k : OrderId) (v : Nat), parent k = .ok v →
      getBal .accounting parent (BMap.empty) k = .ok v := by
    intro parent k v h
    refine getBal_ok.2 ⟨v, h, ?_, ?_⟩ <;> simp
  congr 1
  · funext id
    obtain ⟨_, a, g, _, h2, h3, _⟩ := hp id
    simp only at h2
    simp only [Delta.empty]
    rw [h2]; exact e0 _ _ _ h2
  · funext id
    obtain ⟨_, a, g, _, h2, h3, _⟩ := hp id
    simp only at h3
    simp only [Delta.empty]
    rw [h3]; exact e0 _ _ _ h3

theorem new_WF (p : View) : WF (Cache.new p) := ⟨WFA.empty, WFA.empty⟩

/-- **C13 (soundness is an invariant).**  Whatever operations succeed, on top of any sound parent, every order
stays readable, its balances never exceed the original amounts and never go negative (they are natural numbers
read back successfully), and what remains offered covers what remains asked at the original price. -/
theorem C13_sound_invariant (p : View) (hp : SoundView p) (ops : List Op) (c : Cache) (us : List Undo)
    (h : run (Cache.new p) ops = .ok (c, us)) : SoundView c.view := by
  exact (run_inv hp (by rw [new_view p hp]; exact hp) (new_WF p) h).2.1

/-! ### C12 -/

/-- **C12 (current version).**  In any state reached from a sound one, a successful fill of `fill` reports a
payout `r` (in its undo record) with `r * asked ≤ fill * offered < (r + 1) * asked` for the original amounts, and
neither side exceeds what remains. -/
theorem C12_fill_price_v1 (p : View) (hp : SoundView p) (ops : List Op) (c c' : Cache) (us : List Undo)
    (hrun : run (Cache.new p) ops = .ok (c, us)) (id : OrderId) (fill : Nat) (u : Undo)
    (h : fillOrder c id fill .v1 = .ok (c', u)) :
    ∃ d asked offered a g r, c.view.data id = .ok (some d) ∧
      amountOf d.ask = some asked ∧ amountOf d.give = some offered ∧
      c.view.ask id = .ok a ∧ c.view.give id = .ok g ∧ u = .fill id fill r ∧
      r * asked ≤ fill * offered ∧ fill * offered < (r + 1) * asked ∧ fill ≤ a ∧ r ≤ g ∧ 0 < r ∧
      c'.view.ask id = .ok (a - fill) ∧ c'.view.give id = .ok (g - r) := by
  obtain ⟨hpar, hs, hw⟩ := run_inv hp (by rw [new_view p hp]; exact hp) (new_WF p) hrun
  have hp' : SoundView c.parent := by rw [hpar]; exact hp
  rcases step_obs (op := .fill id fill .v1) hp' hs h with
    ⟨id, d, oa, og, du, e, -⟩ | ⟨id, d, a', g', du, e, -⟩ |
    ⟨id', fill', ver, d, a, g, r, e, rfl, h1, h2, h3, h4, h5, h6, h7, h8, v1, v2, v3⟩ |
    ⟨id, d, du, e, -⟩
  · cases e
  · cases e
  · cases e
    obtain ⟨d', oa, og, a', e1, e2, e3, e4, e5, e6, _, e7, e8⟩ := fillV1_ok.1 h5
    rw [h1] at e1; cases e1
    refine ⟨d, oa, og, a, g, r, h1, outputValueAmount_ok.1 e2, outputValueAmount_ok.1 e3, h3, h4, rfl, ?_, ?_,
      h6, h7, e8, ?_, ?_⟩
    · rw [e7, Nat.mul_comm fill]; exact Nat.div_mul_le_self _ _
    · rw [e7, Nat.mul_comm fill, Nat.mul_comm _ oa]
      exact Nat.lt_mul_div_succ _ (Nat.pos_of_ne_zero e6)
    · rw [v2]; simp
    · rw [v3]; simp
  · cases e

/-- **C12 (old version).**  Same with the remaining balances in place of the original amounts. -/
theorem C12_fill_price_v0 (p : View) (hp : SoundView p) (ops : List Op) (c c' : Cache) (us : List Undo)
    (hrun : run (Cache.new p) ops = .ok (c, us)) (id : OrderId) (fill : Nat) (u : Undo)
    (h : fillOrder c id fill .v0 = .ok (c', u)) :
    ∃ a g r, c.view.ask id = .ok a ∧ c.view.give id = .ok g ∧ u = .fill id fill r ∧
      r * a ≤ fill * g ∧ fill * g < (r + 1) * a ∧ fill ≤ a ∧ r ≤ g ∧
      c'.view.ask id = .ok (a - fill) ∧ c'.view.give id = .ok (g - r) := by
  obtain ⟨hpar, hs, hw⟩ := run_inv hp (by rw [new_view p hp]; exact hp) (new_WF p) hrun
  have hp' : SoundView c.parent := by rw [hpar]; exact hp
  rcases step_obs (op := .fill id fill .v0) hp' hs h with
    ⟨id, d, oa, og, du, e, -⟩ | ⟨id, d, a', g', du, e, -⟩ |
    ⟨id', fill', ver, d, a, g, r, e, rfl, h1, h2, h3, h4, h5, h6, h7, h8, v1, v2, v3⟩ |
    ⟨id, d, du, e, -⟩
  · cases e
  · cases e
  · cases e
    obtain ⟨a', g', e1, e2, e5, e6, _, e7⟩ := fillV0_ok.1 h5
    rw [h3] at e1; cases e1
    rw [h4] at e2; cases e2
    refine ⟨a, g, r, h3, h4, rfl, ?_, ?_, h6, h7, ?_, ?_⟩
    · rw [e7, Nat.mul_comm fill]; exact Nat.div_mul_le_self _ _
    · rw [e7, Nat.mul_comm fill, Nat.mul_comm _ a]
      exact Nat.lt_mul_div_succ _ (Nat.pos_of_ne_zero e6)
    · rw [v2]; simp
    · rw [v3]; simp
  · cases e

/-- **C12 (never a spurious refusal on price).**  A fill of an existing, unfrozen order for at most what is asked
is refused by the current version only if it would buy nothing. -/
theorem C12_fill_v1_accepts (p : View) (hp : SoundView p) (ops : List Op) (c : Cache) (us : List Undo)
    (hrun : run (Cache.new p) ops = .ok (c, us)) (id : OrderId) (fill : Nat) (d : OrderData) (asked offered a : Nat)
    (hd : c.view.data id = .ok (some d)) (hf : d.isFrozen = false)
    (h1 : amountOf d.ask = some asked) (h2 : amountOf d.give = some offered)
    (ha : c.view.ask id = .ok a) (hle : fill ≤ a) (hpos : asked ≤ fill * offered) :
    ∃ c' u, fillOrder c id fill .v1 = .ok (c', u) := by
  obtain ⟨hpar, hs, hw⟩ := run_inv hp (by rw [new_view p hp]; exact hp) (new_WF p) hrun
  obtain ⟨od, a', g', e1, e2, e3, e4⟩ := hs id
  rw [hd] at e1; cases e1
  rw [ha] at e2; cases e2
  have hsound := e4
  obtain ⟨oa, og, m1, m2, m3, m4, m5, m6, m7, m8, m9⟩ := e4
  rw [h1] at m1; cases m1
  rw [h2] at m2; cases m2
  suffices hc : ∃ r, calculateFillOrder c.view id fill .v1 = .ok r by
    obtain ⟨r, hr⟩ := hc
    obtain ⟨f1, f2, f3⟩ := fill_sound hd ha e3 hsound hr
    obtain ⟨ask, k1⟩ := subUnsigned_isOk ha f1 hsound.ask_lt
    obtain ⟨give, k2⟩ := subUnsigned_isOk e3 f2 hsound.give_lt
    refine ⟨{ c with delta := { c.delta with ask := ask, give := give } }, .fill id fill r, ?_⟩
    · simp only [fillOrder, bind_eq_ok, okOr_eq_ok, ensure_eq_ok, lift_ok, pure_eq_ok]
      exact ⟨_, hd, d, rfl, (), hf, r, hr, give, k2, ask, k1, rfl⟩
  refine ⟨offered * fill / asked, fillV1_ok.2 ⟨d, asked, offered, a, hd, outputValueAmount_ok.2 h1,
    outputValueAmount_ok.2 h2, ha, hle, by omega, ?_, rfl, ?_⟩⟩
  · have : offered * fill / asked ≤ offered := by
      apply Nat.div_le_of_le_mul
      rw [Nat.mul_comm]
      exact Nat.mul_le_mul_right _ (le_trans hle m7)
    refine lt_of_le_of_lt this (lt_trans m6 ?_)
    norm_num [U128]
  · apply Nat.div_pos _ m3
    rw [Nat.mul_comm]; exact hpos

/-- non-vacuity: filling 3 of 10 coins against 25 tokens pays 7 -/
example : ∃ c u us, run (Cache.new emptyDB.view) [.create 5 exOrder] = .ok (c, us) ∧
    (∃ c', fillOrder c 5 3 .v1 = .ok (c', u)) ∧ u = .fill 5 3 7 := by
  refine ⟨_, _, _, rfl, ⟨_, rfl⟩, ?_⟩
  decide +kernel

/-! ### C13 -/

/-- **C13 (conservation).**  Let an observer keep books from the reported results only.  If the books agree with
the parent state, they agree after any history: for every open order `remaining ask + filled = asked`,
`remaining give + paid = offered`; ids without an open order have no data and zero balances. -/
theorem C13_conservation (p : View) (hp : SoundView p) (b : Books) (hb : MatchesView b p)
    (ops : List Op) (c : Cache) (us : List Undo) (h : run (Cache.new p) ops = .ok (c, us)) :
    MatchesView (us.foldl book b) c.view := by
  have gen : ∀ (ops : List Op) (c0 : Cache) (b : Books) (us : List Undo), SoundView c0.parent →
      SoundView c0.view → MatchesView b c0.view → run c0 ops = .ok (c, us) →
      MatchesView (us.foldl book b) c.view := by
    intro ops
    induction ops with
    | nil => intro c0 b us _ _ hb h; cases h; exact hb
    | cons op ops ih =>
      intro c0 b us hp hs hb h
      obtain ⟨c1, u, us', h1, h2, rfl⟩ := run_cons_ok h
      exact ih c1 (book b u) us' (by rw [step_parent h1]; exact hp) (step_sound hp hs h1)
        (step_matches hp hs hb h1) h2
  exact gen ops (Cache.new p) b us hp (by rw [new_view p hp]; exact hp) (by rw [new_view p hp]; exact hb) h

/-- from genesis: the books start empty -/
theorem C13_conservation_genesis (ops : List Op) (c : Cache) (us : List Undo)
    (h : run (Cache.new emptyDB.view) ops = .ok (c, us)) :
    MatchesView (us.foldl book (fun _ => none)) c.view := by
  refine C13_conservation _ sound_empty _ ?_ ops c us h
  intro id
  exact ⟨none, 0, 0, by simp [DB.view, emptyDB], by simp [DB.view, emptyDB, bal], by simp [DB.view, emptyDB, bal], rfl, rfl⟩

/-- **C13 (conclude).**  Concluding reports exactly the remainders (`asked - filled`, `offered - paid`), and
afterwards the order has no data and no balance. -/
theorem C13_conclude (p : View) (hp : SoundView p) (b : Books) (hb : MatchesView b p)
    (ops : List Op) (c c' : Cache) (us : List Undo) (h : run (Cache.new p) ops = .ok (c, us))
    (id : OrderId) (u : Undo) (hc : concludeOrder c id = .ok (c', u)) :
    ∃ l du a g, us.foldl book b id = some l ∧ u = .conclude id du a g ∧
      a + l.filled = l.asked ∧ g + l.paid = l.offered ∧
      c'.view.data id = .ok none ∧ c'.view.ask id = .ok 0 ∧ c'.view.give id = .ok 0 := by
  have hm := C13_conservation p hp b hb ops c us h id
  obtain ⟨hpar, hs, hw⟩ := run_inv hp (by rw [new_view p hp]; exact hp) (new_WF p) h
  obtain ⟨od, a, g, e1, e2, e3, e4⟩ := hm
  obtain ⟨d, ab, gb, data, du, ask, give, h1, h2, h3, h7, h8, h9, rfl, rfl⟩ := concludeOrder_ok hc
  rw [h1] at e1; cases e1
  rw [h2] at e2; cases e2
  rw [h3] at e3; cases e3
  cases hl : us.foldl book b id with
  | none => rw [hl] at e4; exact e4.elim
  | some l =>
    rw [hl] at e4
    refine ⟨l, du, _, _, rfl, rfl, e4.2.2.1, e4.2.2.2, ?_, getBal_sub_all h2 h8, getBal_sub_all h3 h9⟩
    exact (getVal_merged h7 id).trans (if_pos rfl)

/-- **C13 (finality).**  An id without an order (never created, or concluded) cannot be filled, frozen or
concluded, whatever else happens, until an order with that very id is created. -/
theorem C13_absent_is_inert (c : Cache) (id : OrderId) (hd : c.view.data id = .ok none)
    (ops : List Op) (hno : ∀ d, Op.create id d ∉ ops) (c' : Cache) (us : List Undo)
    (h : run c ops = .ok (c', us)) :
    c'.view.data id = .ok none ∧
    Op.conclude id ∉ ops ∧ Op.freeze id ∉ ops ∧ (∀ a v, Op.fill id a v ∉ ops) := by
  induction ops generalizing c us with
  | nil => cases h; simp [hd]
  | cons op ops ih =>
    obtain ⟨c1, u, us', h1, h2, rfl⟩ := run_cons_ok h
    have key : c1.view.data id = .ok none ∧ op ≠ .conclude id ∧ op ≠ .freeze id ∧
        ∀ a v, op ≠ .fill id a v := by
      cases op with
      | create id' d =>
        obtain ⟨_, _, _, _, _, _, _, _, _, _, _, _, h7, _, _, rfl, _⟩ := createOrder_ok h1
        refine ⟨?_, by simp, by simp, by simp⟩
        have : id ≠ id' := by rintro rfl; exact hno d (by simp)
        exact ((getVal_merged h7 id).trans (if_neg this)).trans hd
      | conclude id' =>
        obtain ⟨d, _, _, _, _, _, _, g1, _, _, h7, _, _, rfl, _⟩ := concludeOrder_ok h1
        have : id ≠ id' := by rintro rfl; rw [hd] at g1; cases g1
        exact ⟨((getVal_merged h7 id).trans (if_neg this)).trans hd, by simpa using Ne.symm this, by simp, by simp⟩
      | fill id' a v =>
        obtain ⟨d, _, _, _, g1, _, _, _, _, rfl, _⟩ := fillOrder_ok h1
        have : id ≠ id' := by rintro rfl; rw [hd] at g1; cases g1
        exact ⟨hd, by simp, by simp, by intro a v e; cases e; exact this rfl⟩
      | freeze id' =>
        obtain ⟨d, _, _, g1, _, h7, rfl, _⟩ := freezeOrder_ok h1
        have : id ≠ id' := by rintro rfl; rw [hd] at g1; cases g1
        exact ⟨((getVal_merged h7 id).trans (if_neg this)).trans hd, by simp, by simpa using Ne.symm this, by simp⟩
    obtain ⟨i1, i2, i3, i4⟩ := ih c1 key.1 (fun d hd => hno d (by simp [hd])) us' h2
    refine ⟨i1, ?_, ?_, ?_⟩
    · simp only [List.mem_cons, not_or]; exact ⟨Ne.symm key.2.1, i2⟩
    · simp only [List.mem_cons, not_or]; exact ⟨Ne.symm key.2.2.1, i3⟩
    · intro a v; simp only [List.mem_cons, not_or]; exact ⟨Ne.symm (key.2.2.2 a v), i4 a v⟩

/-- non-vacuity: create, fill, conclude returns the remainders 7 and 18 and leaves nothing -/
example : ∃ c us, run (Cache.new emptyDB.view) [.create 5 exOrder, .fill 5 3 .v1, .conclude 5] = .ok (c, us) ∧
    us.map (fun | .conclude _ _ a b => (a, b) | _ => (0, 0)) = [(0, 0), (0, 0), (7, 18)] ∧
    c.view.data 5 = .ok none ∧ (fillOrder c 5 1 .v1).isOk = false := by
  refine ⟨_, _, rfl, ?_, ?_, ?_⟩ <;> decide +kernel

/-! ### C14 -/

/-- **C14.**  After any successful history, undoing newest-first succeeds and every query answers as before. -/
theorem C14_undo_history (p : View) (hp : SoundView p) (c0 : Cache) (hpar : c0.parent = p)
    (hs : SoundView c0.view) (hw : WF c0) (ops : List Op) (c : Cache) (us : List Undo)
    (h : run c0 ops = .ok (c, us)) : ∃ t, undoAll c us = .ok t ∧ t.view = c0.view := by
  subst hpar
  obtain ⟨t, h1, h2⟩ := undoable.undoAll ⟨hp, hs, hw⟩ h (Ext.refl c)
  exact ⟨t, h1, h2.view⟩

/-- the form used by a fresh cache: everything is undone back to the parent -/
theorem C14_undo_to_parent (p : View) (hp : SoundView p) (ops : List Op) (c : Cache) (us : List Undo)
    (h : run (Cache.new p) ops = .ok (c, us)) : ∃ t, undoAll c us = .ok t ∧ t.view = p := by
  obtain ⟨t, h1, h2⟩ := C14_undo_history p hp (Cache.new p) rfl (by rw [new_view p hp]; exact hp) (new_WF p) ops c us h
  exact ⟨t, h1, h2.trans (new_view p hp)⟩

/-- **C14 (any interleaving).**  With undos at arbitrary points, the state always answers as if only the operations
not undone had been performed, it is sound, and an undo is never refused. -/
theorem C14_interleaved (p : View) (hp : SoundView p) (as : List (History.Act Op)) (c : Cache) (st : List Undo)
    (h : History.runActs step undo (Cache.new p, []) as = .ok (c, st)) :
    (∃ ops c1, run (Cache.new p) ops = .ok (c1, st.reverse) ∧ c.view = c1.view) ∧ SoundView c.view ∧
    (∀ u st', st = u :: st' → ∃ c', undo c u = .ok c') := by
  have hi : Inv (Cache.new p) := ⟨hp, by rw [new_view p hp]; exact hp, new_WF p⟩
  obtain ⟨ops, c1, h1, h2, -⟩ := undoable.acts hi h
  refine ⟨⟨ops, c1, h1, h2.view⟩, ?_, ?_⟩
  · rw [h2.view]; exact C13_sound_invariant p hp ops c1 _ h1
  · rintro u st' rfl
    exact undoable.undo_never_fails hi h

/-- non-vacuity: undo in the middle of a history -/
example : ∃ c st, History.runActs step undo (Cache.new emptyDB.view, [])
    [.perform (.create 5 exOrder), .perform (.fill 5 3 .v1), .perform (.conclude 5), .undoLast, .undoLast,
     .perform (.fill 5 4 .v1)] = .ok (c, st) ∧ c.view.ask 5 = .ok 6 ∧ c.view.give 5 = .ok 15 := by
  refine ⟨_, _, rfl, ?_, ?_⟩ <;> decide +kernel

/-- non-vacuity -/
example : ∃ c us t, run (Cache.new emptyDB.view) exOps = .ok (c, us) ∧ undoAll c us = .ok t ∧
    t.view.data 5 = .ok none ∧ t.view.give 5 = .ok 0 := by
  refine ⟨_, _, _, rfl, rfl, ?_, ?_⟩ <;> decide +kernel

/-! ### C15 -/

/-- **C15.**  Once an order is frozen, any history that succeeds either contains its conclusion, or leaves the very
same (frozen) order in place and contains no fill of it. -/
theorem C15_frozen_is_final (c : Cache) (id : OrderId) (d : OrderData)
    (hd : c.view.data id = .ok (some d)) (hf : d.isFrozen = true)
    (ops : List Op) (c' : Cache) (us : List Undo) (h : run c ops = .ok (c', us))
    (hno : Op.conclude id ∉ ops) :
    c'.view.data id = .ok (some d) ∧ ∀ a v, Op.fill id a v ∉ ops := by
  induction ops generalizing c us with
  | nil => cases h; simp [hd]
  | cons op ops ih =>
    obtain ⟨c1, u, us', h1, h2, rfl⟩ := run_cons_ok h
    simp only [List.mem_cons, not_or] at hno
    have key : c1.view.data id = .ok (some d) ∧ ∀ a v, op ≠ .fill id a v := by
      cases op with
      | create id' d' =>
        obtain ⟨_, _, _, _, _, _, g1, _, _, _, _, _, h7, _, _, rfl, _⟩ := createOrder_ok h1
        have : id ≠ id' := by rintro rfl; rw [hd] at g1; cases g1
        exact ⟨((getVal_merged h7 id).trans (if_neg this)).trans hd, by simp⟩
      | conclude id' =>
        obtain ⟨d', _, _, _, _, _, _, g1, _, _, h7, _, _, rfl, _⟩ := concludeOrder_ok h1
        have : id ≠ id' := by rintro rfl; exact hno.1 rfl
        exact ⟨((getVal_merged h7 id).trans (if_neg this)).trans hd, by simp⟩
      | fill id' a v =>
        obtain ⟨d', _, _, _, g1, g2, _, _, _, rfl, _⟩ := fillOrder_ok h1
        have : id ≠ id' := by
          rintro rfl; rw [hd] at g1; cases g1; rw [hf] at g2; cases g2
        exact ⟨hd, by intro a v e; cases e; exact this rfl⟩
      | freeze id' =>
        obtain ⟨d', _, _, g1, g2, h7, rfl, _⟩ := freezeOrder_ok h1
        have : id ≠ id' := by
          rintro rfl; rw [hd] at g1; cases g1; rw [hf] at g2; cases g2
        exact ⟨((getVal_merged h7 id).trans (if_neg this)).trans hd, by simp⟩
    obtain ⟨i1, i2⟩ := ih c1 key.1 us' h2 hno.2
    refine ⟨i1, fun a v => ?_⟩
    simp only [List.mem_cons, not_or]
    exact ⟨Ne.symm (key.2 a v), i2 a v⟩

/-- a successful freeze makes the order frozen, keeping everything else -/
theorem C15_freeze_freezes (c c' : Cache) (id : OrderId) (u : Undo) (h : freezeOrder c id = .ok (c', u)) :
    ∃ d, c.view.data id = .ok (some d) ∧ d.isFrozen = false ∧
      c'.view.data id = .ok (some { d with isFrozen := true }) ∧
      (∀ i, i ≠ id → c'.view.data i = c.view.data i) ∧ c'.view.ask = c.view.ask ∧ c'.view.give = c.view.give := by
  obtain ⟨d, data, du, h1, h2, h7, rfl, rfl⟩ := freezeOrder_ok h
  exact ⟨d, h1, h2, (getVal_merged h7 id).trans (if_pos rfl),
    fun i hi => (getVal_merged h7 i).trans (if_neg hi), rfl, rfl⟩

/-- non-vacuity: after `exOps` the order is frozen and a fill is refused, conclude still works -/
example : ∃ c us, run (Cache.new emptyDB.view) exOps = .ok (c, us) ∧
    (∃ d, c.view.data 5 = .ok (some d) ∧ d.isFrozen = true) ∧
    (fillOrder c 5 1 .v1).isOk = false ∧ (concludeOrder c 5).isOk = true := by
  refine ⟨_, _, rfl, ⟨{ exOrder with isFrozen := true }, ?_, rfl⟩, ?_, ?_⟩ <;> decide +kernel

/-! ### C37 -/

/-- **C37 (flush to the database).**  Any history of operations on a fresh cache over a sound database can be
flushed (the flush does not fail and does not panic) and the database then answers every query exactly as the
cache did. -/
theorem C37_flush_to_db (db : DB) (hp : SoundView db.view) (ops : List Op) (c : Cache) (us : List Undo)
    (h : run (Cache.new db.view) ops = .ok (c, us)) :
    ∃ db' u, db.mergeWithDelta c.delta = .ok (db', u) ∧ db'.view = c.view := by
  obtain ⟨hpar, hs, hw⟩ := run_inv hp (by rw [new_view _ hp]; exact hp) (new_WF _) h
  have hA := run_anchored (c := Cache.new db.view) (by intro k e he; simp [Cache.new, Delta.empty] at he) h
  have hpar' : c.parent = db.view := hpar
  obtain ⟨data, du, h1⟩ := dbMergeData_isOk (store := db.data) (d := c.delta.data) (by
    intro k e he
    have := hA k e he
    rw [hpar'] at this
    simpa [DB.view] using this)
  obtain ⟨ask, au, h2⟩ := dbMergeBalances_isOk (store := db.ask) (d := c.delta.ask) (by
    intro k
    obtain ⟨_, a, _, _, e, _⟩ := hs k
    unfold Cache.view at e
    rw [hpar'] at e
    exact ⟨a, e⟩)
  obtain ⟨give, gu, h3⟩ := dbMergeBalances_isOk (store := db.give) (d := c.delta.give) (by
    intro k
    obtain ⟨_, _, g, _, _, e, _⟩ := hs k
    unfold Cache.view at e
    rw [hpar'] at e
    exact ⟨g, e⟩)
  refine ⟨⟨data, ask, give⟩, ⟨du, au, gu⟩, ?_, ?_⟩
  · simp only [DB.mergeWithDelta, bind_eq_ok, lift_ok, pure_eq_ok]
    exact ⟨_, h1, _, h2, _, h3, rfl⟩
  · unfold DB.view Cache.view
    rw [hpar']
    congr 1
    · funext k; exact (getVal_flush h1 k).symm
    · funext k; exact (getBal_flush h2 k).symm
    · funext k; exact (getBal_flush h3 k).symm

/-- **C37 (flush of a layer into the layer below).**  Merging an upper layer into a lower one does not change any
answer, whatever is below. -/
theorem C37_flush_to_layer (p : View) (d1 d2 m u : Delta) (h : d1.mergeWithDelta d2 = .ok (m, u))
    (hs : SoundView (Cache.mk (Cache.mk p d1).view d2).view) :
    (Cache.mk p m).view = (Cache.mk (Cache.mk p d1).view d2).view := by
  simp only [Delta.mergeWithDelta, bind_eq_ok, lift_ok, pure_eq_ok] at h
  obtain ⟨⟨data, du⟩, h1, ask, h2, give, h3, e⟩ := h
  cases e
  unfold Cache.view
  congr 1
  · funext k; exact (getVal_merge h1 k).symm
  · funext k
    obtain ⟨_, a, _, _, e, _⟩ := hs k
    unfold Cache.view at e
    simp only at e
    rw [e]; exact getBal_merge h2 e
  · funext k
    obtain ⟨_, _, g, _, _, e, _⟩ := hs k
    unfold Cache.view at e
    simp only at e
    rw [e]; exact getBal_merge h3 e

/-- non-vacuity: `exOps` flushed into the empty database -/
example : ∃ c us db' u, run (Cache.new emptyDB.view) exOps = .ok (c, us) ∧
    emptyDB.mergeWithDelta c.delta = .ok (db', u) ∧ db'.ask.get 5 = some 3 ∧ db'.give.get 5 = some 8 := by
  refine ⟨_, _, _, _, rfl, rfl, ?_, ?_⟩ <;> decide +kernel

end Verif.Orders
