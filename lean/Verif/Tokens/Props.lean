import Verif.Tokens.Lemmas
import Verif.Tokens.Spec

/-!
# Tokens: C08 (supply cap), C09 (locked supply), C10 (freezing), C11 (undo), C38 (flush)

Histories are lists of actions: perform an operation, or undo the newest operation not yet undone.
-/

namespace Verif.Tokens
open Verif Verif.Accounting Verif.History

/-- token with at most 100 units, freezable -/
def exFixed : Issuance := ⟨1, 2, 3, .fixed 100, 9, true⟩
/-- token with lockable supply -/
def exLockable : Issuance := ⟨1, 2, 3, .lockable, 9, false⟩
/-- token with unlimited supply -/
def exUnlimited : Issuance := ⟨1, 2, 3, .unlimited, 9, false⟩

def exActs : List (Act Op) :=
  [.perform (.issue 5 exFixed), .perform (.mint 5 60), .perform (.mint 5 40), .undoLast, .perform (.unmint 5 10),
   .perform (.issue 6 exLockable), .perform (.mint 6 7), .perform (.lock 6), .perform (.freeze 5 true)]

/-- the example history succeeds: supplies 50 and 7 -/
example : ∃ c st, runActs step undo (start emptyDB.view) exActs = .ok (c, st) ∧
    c.view.supply 5 = .ok 50 ∧ c.view.supply 6 = .ok 7 ∧
    netMinted 5 st = 50 ∧ netMinted 6 st = 7 := by
  refine ⟨_, _, rfl, ?_, ?_, ?_, ?_⟩ <;> decide +kernel

theorem new_inv {p : View} (hp : LockedOk p) : Inv (Cache.new p) := by
  refine ⟨WFA.empty, ?_⟩
  intro id d hd hl
  refine hp id d ?_ hl
  exact (getVal_none (BMap.get_empty id)).symm.trans hd

theorem new_data (p : View) (id : TokenId) : (Cache.new p).view.data id = p.data id := by
  exact getVal_none (BMap.get_empty id)

theorem new_supply (p : View) (id : TokenId) : (Cache.new p).view.supply id = p.supply id := by
  simp only [Cache.view, Cache.new, Delta.empty, getBal, BMap.get_empty, combineAmountDelta]
  cases p.supply id <;> rfl

theorem emptyDB_LockedOk : LockedOk emptyDB.view := by
  intro id d hd; simp [DB.view, emptyDB] at hd

/-! ### C08 -/

/-- **C08 (cap).**  Over any parent that respects the caps (for instance the empty database), after any history
of token operations and undos, the circulating supply of a fixed-supply token never exceeds its cap. -/
theorem C08_supply_never_exceeds_cap (p : View) (hl : LockedOk p) (hp : CapRespected p) (as : List (Act Op))
    (c : Cache) (st : List Undo) (h : runActs step undo (start p) as = .ok (c, st)) : CapRespected c.view := by
  obtain ⟨ops, c1, h1, h2, -⟩ := undoable.acts (new_inv hl) h
  rw [h2.view]
  refine run_inv (Inv := fun c => CapRespected c.view) ?_ ?_ h1
  · intro c op c' u hc hs i d limit s hd ht hsup
    rcases step_cases hs with ⟨id, cur, new, data, du, tr, g1, g2, rfl, -⟩ |
      ⟨id, a, d', supply, rfl, rfl, g1, g2, g3, g4, rfl⟩ | ⟨id, a, d', s', supply, rfl, rfl, g1, g2, g3, g4, g5, g6, rfl⟩
    · by_cases e : i = id
      · subst e
        have hnew : d = new := by
          have := (getVal_merged (parent := c.parent.data) g2 i).trans (if_pos rfl)
          simp only [Cache.view] at hd
          rw [this] at hd; cases hd; rfl
        subst hnew
        have hsup' : c.view.supply i = .ok s := hsup
        cases tr with
        | issue _ _ h0 => rw [h0] at hsup'; cases hsup'; omega
        | lock _ d => exact hc i d limit s g1 ht hsup'
        | freeze _ d => exact hc i d limit s g1 ht hsup'
        | unfreeze _ d => exact hc i d limit s g1 ht hsup'
        | changeAuthority _ d => exact hc i d limit s g1 ht hsup'
        | changeMetadataUri _ d => exact hc i d limit s g1 ht hsup'
      · refine hc i d limit s ?_ ht hsup
        exact ((getVal_merged g2 i).trans (if_neg e)).symm.trans hd
    · have hd' : c.view.data i = .ok (some d) := hd
      by_cases e : i = id
      · subst e
        rw [g1] at hd'; cases hd'
        unfold mintPolicy at g3
        rw [ht] at g3
        simp only [bind_eq_ok, okOr_eq_ok, ensure_eq_ok] at g3
        obtain ⟨s0, k1, ex, k2, k3⟩ := g3
        obtain ⟨-, rfl⟩ := Amt_add_some.1 k2
        have := getBal_add g4 k1 hsup
        omega
      · refine hc i d limit s hd' ht ?_
        exact (getBal_add_ne (wrap := Err.accounting) g4 e).symm.trans hsup
    · have hd' : c.view.data i = .ok (some d) := hd
      by_cases e : i = id
      · subst e
        have := getBal_sub g6 g4 hsup
        have := hc i d limit s' hd' ht g4
        omega
      · refine hc i d limit s hd' ht ?_
        exact (getBal_sub_ne (wrap := Err.accounting) g6 e).symm.trans hsup
  · intro id d limit s h1 h2 h3
    rw [new_data] at h1
    rw [new_supply] at h3
    exact hp id d limit s h1 h2 h3

/-- **C08 (accounting).**  The circulating supply is the parent's plus everything minted minus everything unminted
by the operations that were not undone. -/
theorem C08_supply_is_minted_minus_unminted (p : View) (hl : LockedOk p) (as : List (Act Op)) (c : Cache)
    (st : List Undo) (h : runActs step undo (start p) as = .ok (c, st)) (id : TokenId) (s0 s : Nat)
    (hs0 : p.supply id = .ok s0) (hs : c.view.supply id = .ok s) :
    (s : Int) = s0 + netMinted id st := by
  obtain ⟨ops, c1, h1, h2, -⟩ := undoable.acts (new_inv hl) h
  have hrev : ∀ l : List Undo, netMinted id l.reverse = netMinted id l := by
    have happ : ∀ a b : List Undo, netMinted id (a ++ b) = netMinted id a + netMinted id b := by
      intro a b
      induction a with
      | nil => simp [netMinted]
      | cons x a ih => cases x <;> simp [netMinted, ih] <;> ring
    intro l
    induction l with
    | nil => rfl
    | cons x l ih =>
      rw [List.reverse_cons, happ, ih]
      cases x <;> simp [netMinted] <;> ring
  have gen : ∀ (ops : List Op) (c : Cache) (us : List Undo), run step c ops = .ok (c1, us) →
      Accounting.dval (c1.delta.supply.get id) = Accounting.dval (c.delta.supply.get id) + netMinted id us ∧
      c1.parent = c.parent := by
    intro ops
    induction ops with
    | nil => intro c us h; cases h; simp [netMinted]
    | cons op ops ih =>
      intro c us h
      obtain ⟨c2, u, us', k1, k2, rfl⟩ := run_cons_ok h
      obtain ⟨i1, i2⟩ := ih c2 us' k2
      rw [i1, i2]
      rcases step_cases k1 with ⟨id', cur, new, data, du, tr, g1, g2, rfl, n1, n2, -⟩ |
        ⟨id', a, d', supply, rfl, rfl, g1, g2, g3, g4, rfl⟩ |
        ⟨id', a, d', s', supply, rfl, rfl, g1, g2, g3, g4, g5, g6, rfl⟩
      · refine ⟨?_, rfl⟩
        cases u <;> simp_all [netMinted]
      · refine ⟨?_, rfl⟩
        simp only [netMinted]
        rw [dval_add g4]
        simp only [eq_comm (a := id)]
        ring
      · refine ⟨?_, rfl⟩
        simp only [netMinted]
        rw [dval_sub g6]
        simp only [eq_comm (a := id)]
        split <;> ring
  obtain ⟨e1, e2⟩ := gen ops _ _ h1
  rw [h2.view] at hs
  obtain ⟨p0, f1, f2, -⟩ := getBal_ok.1 hs
  rw [e2] at f1
  rw [show (Cache.new p).parent.supply id = p.supply id from rfl, hs0] at f1
  cases f1
  rw [f2, e1, hrev]
  simp [Cache.new, Delta.empty]

/-- **C08 (readable).**  If all of the parent's supplies are below 2^127 then every fixed-supply token with a cap
below 2^127 always has a readable supply. -/
theorem C08_fixed_supply_readable (p : View) (hl : LockedOk p)
    (hp : ∀ id, ∃ s, p.supply id = .ok s ∧ s < 2^127) (as : List (Act Op))
    (c : Cache) (st : List Undo) (h : runActs step undo (start p) as = .ok (c, st))
    (id : TokenId) (d : TokenData) (limit : Nat) (hd : c.view.data id = .ok (some d))
    (ht : d.totalSupply = .fixed limit) (hlim : limit < 2^127) : ∃ s, c.view.supply id = .ok s := by
  obtain ⟨ops, c1, h1, h2, -⟩ := undoable.acts (new_inv hl) h
  rw [h2.view] at hd ⊢
  -- either the token is not of this kind, or it is readable
  have I : c1.parent = p ∧ ∀ d, c1.view.data id = .ok (some d) → ∀ limit, d.totalSupply = .fixed limit → limit < 2^127 →
      ∃ s, c1.view.supply id = .ok s := by
    refine run_inv (Inv := fun c => c.parent = p ∧ ∀ d, c.view.data id = .ok (some d) →
      ∀ limit, d.totalSupply = .fixed limit → limit < 2^127 → ∃ s, c.view.supply id = .ok s) ?_ ?_ h1
    · rintro c op c' u ⟨hpar, hc⟩ hs
      refine ⟨(step_parent hs).trans hpar, ?_⟩
      intro d hd limit ht hlim
      rcases step_cases hs with ⟨i, cur, new, data, du, tr, g1, g2, rfl, -⟩ |
        ⟨i, a, d', supply, rfl, rfl, g1, g2, g3, g4, rfl⟩ | ⟨i, a, d', s', supply, rfl, rfl, g1, g2, g3, g4, g5, g6, rfl⟩
      · by_cases e : id = i
        · subst e
          have hnew : d = new := by
            have := (getVal_merged (parent := c.parent.data) g2 id).trans (if_pos rfl)
            simp only [Cache.view] at hd
            rw [this] at hd; cases hd; rfl
          subst hnew
          cases tr with
          | issue _ _ h0 => exact ⟨0, h0⟩
          | lock _ d => exact hc d g1 limit ht hlim
          | freeze _ d => exact hc d g1 limit ht hlim
          | unfreeze _ d => exact hc d g1 limit ht hlim
          | changeAuthority _ d => exact hc d g1 limit ht hlim
          | changeMetadataUri _ d => exact hc d g1 limit ht hlim
        · refine hc d ?_ limit ht hlim
          exact ((getVal_merged g2 id).trans (if_neg e)).symm.trans hd
      · have hd' : c.view.data id = .ok (some d) := hd
        by_cases e : id = i
        · subst e
          rw [g1] at hd'; cases hd'
          unfold mintPolicy at g3
          rw [ht] at g3
          simp only [bind_eq_ok, okOr_eq_ok, ensure_eq_ok] at g3
          obtain ⟨s0, k1, ex, k2, k3⟩ := g3
          obtain ⟨-, rfl⟩ := Amt_add_some.1 k2
          obtain ⟨pp, m1, m2, m3⟩ := getBal_ok.1 k1
          obtain ⟨sp, q1, q2⟩ := hp id
          rw [hpar, q1] at m1; cases m1
          refine ⟨s0 + a, getBal_ok.2 ⟨pp, by rw [hpar]; exact q1, ?_, ?_⟩⟩
          · rw [dval_add g4]; simp only [if_true]; push_cast; omega
          · intro _
            rw [I128_eq]
            constructor
            · exact_mod_cast q2
            · have : s0 + a < 2^127 := by omega
              exact_mod_cast this
        · obtain ⟨s, hs'⟩ := hc d hd' limit ht hlim
          exact ⟨s, (getBal_add_ne (wrap := Err.accounting) g4 e).trans hs'⟩
      · have hd' : c.view.data id = .ok (some d) := hd
        by_cases e : id = i
        · subst e
          obtain ⟨pp, m1, m2, m3⟩ := getBal_ok.1 g4
          obtain ⟨sp, q1, q2⟩ := hp id
          rw [hpar, q1] at m1; cases m1
          have hlt : (s' : Int) < I128 := by
            cases hc0 : c.delta.supply.get id with
            | none => rw [hc0] at m2; simp at m2; rw [I128_eq, m2]; exact_mod_cast q2
            | some x => rw [hc0] at m3; exact (m3 rfl).2
          exact ⟨s' - a, getBal_sub_exists g6 g4 g5 hlt (by
            intro q hq; rw [hpar, q1] at hq; cases hq; rw [I128_eq]; exact_mod_cast q2)⟩
        · obtain ⟨s, hs'⟩ := hc d hd' limit ht hlim
          exact ⟨s, (getBal_sub_ne (wrap := Err.accounting) g6 e).trans hs'⟩
    · refine ⟨rfl, fun d _ _ _ _ => ?_⟩
      obtain ⟨s, q1, q2⟩ := hp id
      exact ⟨s, (new_supply p id).trans q1⟩
  exact I.2 d hd limit ht hlim

/-- **C08 (the gap for other tokens, proved counterexample).**  For an *unlimited* token the mint itself does not
look at the supply: over a database holding 2^127-1 units a further mint of 1 is accepted, after which the supply
cannot be read and the changes cannot be flushed. -/
theorem C08_unlimited_mint_overflow_detected_late :
    ∃ (db : DB) (c : Cache) (us : List Undo),
      run step (Cache.new db.view) [.mint 5 1] = .ok (c, us) ∧
      db.supply.get 5 = some (2^127 - 1) ∧
      (c.view.supply 5).isOk = false ∧ (db.mergeWithDelta c.delta).isOk = false := by
  refine ⟨⟨BMap.ofList [(5, TokenData.ofIssuance exUnlimited)], BMap.ofList [(5, 2^127 - 1)]⟩, _, _, rfl, ?_, ?_, ?_⟩ <;>
    decide +kernel

/-- and such a database is reachable: issue, mint 2^127-1, flush -/
example : ∃ c us db' u, run step (Cache.new emptyDB.view) [.issue 5 exUnlimited, .mint 5 (2^127 - 1)] = .ok (c, us) ∧
    emptyDB.mergeWithDelta c.delta = .ok (db', u) ∧ db'.supply.get 5 = some (2^127 - 1) := by
  refine ⟨_, _, _, _, rfl, rfl, ?_⟩
  decide +kernel

/-! ### C09 -/

/-- **C09.**  Once the supply of a token is locked, no history of operations and undos that starts there changes its
circulating supply, and it stays locked. -/
theorem C09_locked_supply_is_final (c : Cache) (hi : Inv c) (id : TokenId) (d : TokenData)
    (hd : c.view.data id = .ok (some d)) (hlock : d.locked = true) (as : List (Act Op)) (c' : Cache)
    (st : List Undo) (h : runActs step undo (c, []) as = .ok (c', st)) :
    c'.view.supply id = c.view.supply id ∧ ∃ d', c'.view.data id = .ok (some d') ∧ d'.locked = true := by
  obtain ⟨ops, c1, h1, h2, -⟩ := undoable.acts hi h
  rw [h2.view]
  have I : Inv c1 ∧ c1.view.supply id = c.view.supply id ∧
      ∃ d', c1.view.data id = .ok (some d') ∧ d'.locked = true := by
    refine run_inv (Inv := fun c1 => Inv c1 ∧ c1.view.supply id = c.view.supply id ∧
      ∃ d', c1.view.data id = .ok (some d') ∧ d'.locked = true) ?_ ⟨hi, rfl, d, hd, hlock⟩ h1
    rintro c1 op c2 u ⟨hi1, hs1, d1, hd1, hl1⟩ hs
    refine ⟨step_inv hi1 hs, ?_, ?_⟩
    · rw [← hs1]
      rcases step_cases hs with ⟨i, cur, new, data, du, tr, g1, g2, rfl, -⟩ |
        ⟨i, a, d', supply, rfl, rfl, g1, g2, g3, g4, rfl⟩ | ⟨i, a, d', s', supply, rfl, rfl, g1, g2, g3, g4, g5, g6, rfl⟩
      · rfl
      · have : id ≠ i := by
          rintro rfl
          rw [hd1] at g1; cases g1
          have := mint_not_locked hi1.2 hd1 g3
          rw [hl1] at this; cases this
        exact getBal_add_ne g4 this
      · have : id ≠ i := by
          rintro rfl
          rw [hd1] at g1; cases g1
          rw [hl1] at g3; cases g3
        exact getBal_sub_ne g6 this
    · rcases step_data hs id with e | ⟨cur, new, tr, e1, e2⟩
      · exact ⟨d1, e.trans hd1, hl1⟩
      · rw [hd1] at e1; cases e1
        refine ⟨new, e2, ?_⟩
        cases tr <;> first | rfl | exact hl1
  exact I.2

/-- a successful lock does lock -/
theorem C09_lock_locks (c c' : Cache) (id : TokenId) (u : Undo) (h : step c (.lock id) = .ok (c', u)) :
    ∃ d, c'.view.data id = .ok (some d) ∧ d.locked = true ∧ c'.view.supply = c.view.supply := by
  rcases step_cases h with ⟨i, cur, new, data, du, tr, g1, g2, rfl, -⟩ | ⟨_, _, _, _, e, -⟩ | ⟨_, _, _, _, _, e, -⟩
  · cases tr with
    | lock _ d a b e =>
      exact ⟨_, (getVal_merged g2 id).trans (if_pos rfl), rfl, rfl⟩
  · cases e
  · cases e

/-- non-vacuity: after issue, mint 7, lock, both mint and unmint are refused -/
example : ∃ c us, run step (Cache.new emptyDB.view) [.issue 6 exLockable, .mint 6 7, .lock 6] = .ok (c, us) ∧
    c.view.supply 6 = .ok 7 ∧ (mintTokens c 6 1).isOk = false ∧ (unmintTokens c 6 1).isOk = false ∧
    (changeAuthority c 6 4).isOk = true := by
  refine ⟨_, _, rfl, ?_, ?_, ?_, ?_⟩ <;> decide +kernel

/-! ### C10 -/

/-- **C10 (frozen).**  From a state in which a token is frozen, any history that does not unfreeze it leaves its
data and supply untouched and contains no operation still in effect on that token. -/
theorem C10_frozen_token_untouched (c : Cache) (hi : Inv c) (id : TokenId) (d : TokenData)
    (hd : c.view.data id = .ok (some d)) (hf : d.isFrozen = true) (as : List (Act Op)) (c' : Cache)
    (st : List Undo) (h : runActs step undo (c, []) as = .ok (c', st))
    (hno : Act.perform (Op.unfreeze id) ∉ as) :
    c'.view.data id = .ok (some d) ∧ c'.view.supply id = c.view.supply id := by
  obtain ⟨ops, c1, h1, h2, hmem⟩ := undoable.acts hi h
  rw [h2.view]
  have hno' : Op.unfreeze id ∉ ops := fun hm => hno (hmem _ hm)
  clear h hmem hno h2
  generalize hst : st.reverse = us at h1
  clear hst
  have gen : ∀ (ops : List Op) (c2 : Cache) (us : List Undo), Op.unfreeze id ∉ ops →
      c2.view.data id = .ok (some d) → run step c2 ops = .ok (c1, us) →
      c1.view.data id = .ok (some d) ∧ c1.view.supply id = c2.view.supply id := by
    intro ops
    induction ops with
    | nil => intro c2 us _ hd h; cases h; exact ⟨hd, rfl⟩
    | cons op ops ih =>
      intro c2 us hno hd h
      obtain ⟨c3, u, us', k1, k2, rfl⟩ := run_cons_ok h
      simp only [List.mem_cons, not_or] at hno
      have key : c3.view.data id = .ok (some d) ∧ c3.view.supply id = c2.view.supply id := by
        rcases step_cases k1 with ⟨i, cur, new, data, du, tr, g1, g2, rfl, -⟩ |
          ⟨i, a, d', supply, rfl, rfl, g1, g2, g3, g4, rfl⟩ |
          ⟨i, a, d', s', supply, rfl, rfl, g1, g2, g3, g4, g5, g6, rfl⟩
        · have : id ≠ i := by
            rintro rfl
            rw [hd] at g1; cases g1
            cases tr with
            | lock _ _ _ e => rw [hf] at e; cases e
            | freeze _ _ _ e => simp [TokenData.isFrozen, e] at hf
            | unfreeze => exact hno.1 rfl
            | changeAuthority _ _ _ e => rw [hf] at e; cases e
            | changeMetadataUri _ _ _ e => rw [hf] at e; cases e
          exact ⟨((getVal_merged g2 id).trans (if_neg this)).trans hd, rfl⟩
        · have : id ≠ i := by
            rintro rfl; rw [hd] at g1; cases g1; rw [hf] at g2; cases g2
          exact ⟨hd, getBal_add_ne g4 this⟩
        · have : id ≠ i := by
            rintro rfl; rw [hd] at g1; cases g1; rw [hf] at g2; cases g2
          exact ⟨hd, getBal_sub_ne g6 this⟩
      obtain ⟨i1, i2⟩ := ih c3 us' hno.2 key.1 k2
      exact ⟨i1, i2.trans key.2⟩
  exact gen ops c us hno' hd h1

/-- **C10 (single operations).**  Every operation on a frozen token other than unfreeze is refused; and unfreeze is
refused if the token was frozen irrevocably. -/
theorem C10_frozen_token_rejects (c : Cache) (op : Op) (d : TokenData)
    (hd : c.view.data op.token = .ok (some d)) (hf : d.isFrozen = true)
    (hop : op = .unfreeze op.token → d.frozen = .yes false) : ∃ e, step c op = .error e := by
  cases hs : step c op with
  | error e => exact ⟨e, rfl⟩
  | ok r =>
    exfalso
    obtain ⟨c', u⟩ := r
    rcases step_cases hs with ⟨i, cur, new, data, du, tr, g1, g2, rfl, -⟩ |
      ⟨i, a, d', supply, rfl, rfl, g1, g2, g3, g4, rfl⟩ |
      ⟨i, a, d', s', supply, rfl, rfl, g1, g2, g3, g4, g5, g6, rfl⟩
    · cases tr with
      | issue _ _ => simp only [Op.token] at hd; rw [hd] at g1; cases g1
      | lock _ _ _ e => simp only [Op.token] at hd; rw [hd] at g1; cases g1; rw [hf] at e; cases e
      | freeze _ _ _ e => simp only [Op.token] at hd; rw [hd] at g1; cases g1; simp [TokenData.isFrozen, e] at hf
      | unfreeze _ _ e =>
        simp only [Op.token] at hd; rw [hd] at g1; cases g1
        rw [hop rfl] at e; cases e
      | changeAuthority _ _ _ e => simp only [Op.token] at hd; rw [hd] at g1; cases g1; rw [hf] at e; cases e
      | changeMetadataUri _ _ _ e => simp only [Op.token] at hd; rw [hd] at g1; cases g1; rw [hf] at e; cases e
    · simp only [Op.token] at hd; rw [hd] at g1; cases g1; rw [hf] at g2; cases g2
    · simp only [Op.token] at hd; rw [hd] at g1; cases g1; rw [hf] at g2; cases g2

/-- **C10 (irrevocable).**  A token frozen as not unfreezable never changes again, whatever is attempted. -/
theorem C10_irrevocably_frozen_for_ever (c : Cache) (hi : Inv c) (id : TokenId) (d : TokenData)
    (hd : c.view.data id = .ok (some d)) (hf : d.frozen = .yes false) (as : List (Act Op)) (c' : Cache)
    (st : List Undo) (h : runActs step undo (c, []) as = .ok (c', st)) :
    c'.view.data id = .ok (some d) ∧ c'.view.supply id = c.view.supply id := by
  have hf' : d.isFrozen = true := by simp [TokenData.isFrozen, hf]
  obtain ⟨ops, c1, h1, h2, -⟩ := undoable.acts hi h
  rw [h2.view]
  have I := run_inv (Inv := fun c1 => c1.view.data id = .ok (some d) ∧ c1.view.supply id = c.view.supply id) (by
    rintro c1 op c2 u ⟨e1, e2⟩ hs
    rw [← e2]
    rcases step_cases hs with ⟨i, cur, new, data, du, tr, g1, g2, rfl, -⟩ |
      ⟨i, a, d', supply, rfl, rfl, g1, g2, g3, g4, rfl⟩ |
      ⟨i, a, d', s', supply, rfl, rfl, g1, g2, g3, g4, g5, g6, rfl⟩
    · have : id ≠ i := by
        rintro rfl
        rw [e1] at g1; cases g1
        cases tr with
        | lock _ _ _ e => rw [hf'] at e; cases e
        | freeze _ _ _ e => rw [hf] at e; cases e
        | unfreeze _ _ e => rw [hf] at e; cases e
        | changeAuthority _ _ _ e => rw [hf'] at e; cases e
        | changeMetadataUri _ _ _ e => rw [hf'] at e; cases e
      exact ⟨((getVal_merged g2 id).trans (if_neg this)).trans e1, rfl⟩
    · have : id ≠ i := by
        rintro rfl; rw [e1] at g1; cases g1; rw [hf'] at g2; cases g2
      exact ⟨e1, getBal_add_ne g4 this⟩
    · have : id ≠ i := by
        rintro rfl; rw [e1] at g1; cases g1; rw [hf'] at g2; cases g2
      exact ⟨e1, getBal_sub_ne g6 this⟩) ⟨hd, rfl⟩ h1
  exact I

/-- **C10 (not freezable).**  A token issued as not freezable can never become frozen. -/
theorem C10_not_freezable_never_frozen (c : Cache) (hi : Inv c) (id : TokenId) (d : TokenData)
    (hd : c.view.data id = .ok (some d)) (hf : d.frozen = .no false) (as : List (Act Op)) (c' : Cache)
    (st : List Undo) (h : runActs step undo (c, []) as = .ok (c', st)) :
    ∃ d', c'.view.data id = .ok (some d') ∧ d'.frozen = .no false := by
  obtain ⟨ops, c1, h1, h2, -⟩ := undoable.acts hi h
  rw [h2.view]
  refine run_inv (Inv := fun c1 => ∃ d', c1.view.data id = .ok (some d') ∧ d'.frozen = .no false) ?_ ⟨d, hd, hf⟩ h1
  rintro c1 op c2 u ⟨d1, e1, e2⟩ hs
  rcases step_data hs id with e | ⟨cur, new, tr, g1, g2⟩
  · exact ⟨d1, e.trans e1, e2⟩
  · rw [e1] at g1; cases g1
    refine ⟨new, g2, ?_⟩
    cases tr with
    | lock => exact e2
    | freeze _ _ _ e => rw [e2] at e; cases e
    | unfreeze _ _ e => rw [e2] at e; cases e
    | changeAuthority => exact e2
    | changeMetadataUri => exact e2

/-- non-vacuity: freeze irrevocably, everything is refused afterwards -/
example : ∃ c us, run step (Cache.new emptyDB.view) [.issue 5 exFixed, .mint 5 60, .freeze 5 false] = .ok (c, us) ∧
    (∃ d, c.view.data 5 = .ok (some d) ∧ d.frozen = .yes false) ∧
    (unfreezeToken c 5).isOk = false ∧ (mintTokens c 5 1).isOk = false := by
  refine ⟨_, _, rfl, ⟨{ TokenData.ofIssuance exFixed with frozen := .yes false }, ?_, rfl⟩, ?_, ?_⟩ <;> decide +kernel

/-- a token frozen as unfreezable can be unfrozen, and (unlike one might expect) frozen again -/
example : ∃ r, run step (Cache.new emptyDB.view)
    [.issue 5 exFixed, .freeze 5 true, .unfreeze 5, .mint 5 1, .freeze 5 true] = .ok r := ⟨_, rfl⟩

/-- **C10 (what issuing records).**  A newly issued token has exactly the terms stated at issuance, nothing is in
circulation, its supply is not locked, and it is not frozen but may be frozen later only if issued as freezable. -/
theorem C10_issue_records_terms (c c' : Cache) (id : TokenId) (i : Issuance) (u : Undo)
    (h : step c (.issue id i) = .ok (c', u)) :
    (∃ d, c'.view.data id = .ok (some d) ∧ d.ticker = i.ticker ∧ d.decimals = i.decimals ∧
      d.metadataUri = i.metadataUri ∧ d.totalSupply = i.totalSupply ∧ d.locked = false ∧
      d.frozen = .no i.isFreezable ∧ d.authority = i.authority) ∧
    c'.view.supply id = .ok 0 := by
  rcases step_cases h with ⟨j, cur, new, data, du, tr, g1, g2, rfl, -⟩ | ⟨_, _, _, _, e, -⟩ | ⟨_, _, _, _, _, e, -⟩
  · cases tr with
    | issue _ _ hs =>
      exact ⟨⟨_, (getVal_merged g2 id).trans (if_pos rfl), rfl, rfl, rfl, rfl, rfl, rfl, rfl⟩, hs⟩
  · cases e
  · cases e

/-- **C10 (issued as not freezable).**  No history after the issuance of a token that is not freezable freezes it. -/
theorem C10_issued_not_freezable (c c1 : Cache) (hi : Inv c) (id : TokenId) (i : Issuance) (u : Undo)
    (hn : i.isFreezable = false) (h1 : step c (.issue id i) = .ok (c1, u)) (as : List (Act Op)) (c' : Cache)
    (st : List Undo) (h : runActs step undo (c1, []) as = .ok (c', st)) :
    ∃ d', c'.view.data id = .ok (some d') ∧ d'.isFrozen = false := by
  obtain ⟨⟨d, e1, -, -, -, -, -, ef, -⟩, -⟩ := C10_issue_records_terms c c1 id i u h1
  obtain ⟨d', e2, e3⟩ := C10_not_freezable_never_frozen c1 (step_inv hi h1) id d e1 (by rw [ef, hn]) as c' st h
  exact ⟨d', e2, by simp [TokenData.isFrozen, e3]⟩

/-- non-vacuity: `exLockable` is not freezable; its freeze is refused -/
example : ∃ c us, run step (Cache.new emptyDB.view) [.issue 6 exLockable, .mint 6 7] = .ok (c, us) ∧
    (step c (.freeze 6 true)).isOk = false := by
  refine ⟨_, _, rfl, ?_⟩; decide +kernel

/-! ### C11 -/

/-- **C11.**  Undoing a whole successful history newest-first succeeds and every query answers as before it. -/
theorem C11_undo_history (c0 : Cache) (hi : Inv c0) (ops : List Op) (c : Cache) (us : List Undo)
    (h : run step c0 ops = .ok (c, us)) : ∃ t, undoAll undo c us = .ok t ∧ t.view = c0.view := by
  obtain ⟨t, h1, h2⟩ := undoable.undoAll hi h (Ext.refl c)
  exact ⟨t, h1, h2.view⟩

/-- **C11 (any interleaving).**  With undos at arbitrary points, the state always answers as if only the operations
not undone had been performed, and an undo is never refused. -/
theorem C11_interleaved (p : View) (hl : LockedOk p) (as : List (Act Op)) (c : Cache) (st : List Undo)
    (h : runActs step undo (start p) as = .ok (c, st)) :
    (∃ ops c1, run step (Cache.new p) ops = .ok (c1, st.reverse) ∧ c.view = c1.view) ∧
    (∀ u st', st = u :: st' → ∃ c', undo c u = .ok c') := by
  constructor
  · obtain ⟨ops, c1, h1, h2, -⟩ := undoable.acts (new_inv hl) h
    exact ⟨ops, c1, h1, h2.view⟩
  · rintro u st' rfl
    exact undoable.undo_never_fails (new_inv hl) h

/-- the invariant assumed above holds in every state reachable from a fresh cache over a parent without locked
non-lockable tokens, in particular from the empty database -/
theorem C11_invariant_reachable (p : View) (hl : LockedOk p) (ops : List Op) (c : Cache) (us : List Undo)
    (h : run step (Cache.new p) ops = .ok (c, us)) : Inv c :=
  run_inv step_inv (new_inv hl) h

/-- non-vacuity -/
example : ∃ c us t, run step (Cache.new emptyDB.view) [.issue 5 exFixed, .mint 5 60, .unmint 5 10, .freeze 5 false] = .ok (c, us) ∧
    undoAll undo c us = .ok t ∧ t.view.data 5 = .ok none ∧ t.view.supply 5 = .ok 0 := by
  refine ⟨_, _, _, rfl, rfl, ?_, ?_⟩ <;> decide +kernel

/-! ### C38 -/

/-- **C38 (flush to the database).**  A history over a database whose supplies remain readable can be flushed, and
the database then answers every query as the cache did. -/
theorem C38_flush_to_db (db : DB) (hl : LockedOk db.view) (as : List (Act Op)) (c : Cache) (st : List Undo)
    (h : runActs step undo (start db.view) as = .ok (c, st))
    (hr : ∀ id, ∃ s, c.view.supply id = .ok s) :
    ∃ db' u, db.mergeWithDelta c.delta = .ok (db', u) ∧ db'.view = c.view := by
  obtain ⟨ops, c1, h1, h2, -⟩ := undoable.acts (new_inv hl) h
  have hA1 := run_inv step_anchored (c := Cache.new db.view)
    (by intro k e he; simp [Cache.new, Delta.empty] at he) h1
  have hA := h2.anchored hA1
  have hpar1 : c1.parent = db.view := run_inv (Inv := fun c => c.parent = db.view)
    (fun hc hs => (step_parent hs).trans hc) rfl h1
  have hpar : c.parent = db.view := h2.1.trans hpar1
  obtain ⟨data, du, k1⟩ := dbMergeData_isOk (store := db.data) (d := c.delta.data) (by
    intro k e he
    have := hA k e he
    rw [hpar] at this
    simpa [DB.view] using this)
  obtain ⟨supply, su, k2⟩ := dbMergeBalances_isOk (wrap := Err.accounting) (store := db.supply) (d := c.delta.supply) (by
    intro k
    obtain ⟨s, e⟩ := hr k
    unfold Cache.view at e
    rw [hpar] at e
    exact ⟨s, e⟩)
  refine ⟨⟨data, supply⟩, ⟨du, su⟩, ?_, ?_⟩
  · simp only [DB.mergeWithDelta, bind_eq_ok, lift_ok, pure_eq_ok]
    exact ⟨_, k1, _, k2, rfl⟩
  · unfold DB.view Cache.view
    rw [hpar]
    congr 1
    · funext k; exact (getVal_flush k1 k).symm
    · funext k; exact (getBal_flush k2 k).symm

/-- **C38 (no other way).**  Whenever a flush succeeds, the database answers every query as the cache did (in
particular all supplies were readable). -/
theorem C38_flush_faithful (db db' : DB) (d u : Delta) (h : db.mergeWithDelta d = .ok (db', u)) :
    db'.view = (Cache.mk db.view d).view := by
  simp only [DB.mergeWithDelta, bind_eq_ok, lift_ok, pure_eq_ok] at h
  obtain ⟨⟨data, du⟩, h1, ⟨supply, su⟩, h2, e⟩ := h
  cases e
  unfold DB.view Cache.view
  congr 1
  · funext k; exact (getVal_flush h1 k).symm
  · funext k; exact (getBal_flush h2 k).symm

/-- **C38 (flush of a layer into the layer below).**  Merging an upper layer into a lower one changes no data answer,
and no supply answer that could be read. -/
theorem C38_flush_to_layer (p : View) (d1 d2 m u : Delta) (h : d1.mergeWithDelta d2 = .ok (m, u)) (id : TokenId) :
    (Cache.mk p m).view.data id = (Cache.mk (Cache.mk p d1).view d2).view.data id ∧
    ∀ s, (Cache.mk (Cache.mk p d1).view d2).view.supply id = .ok s → (Cache.mk p m).view.supply id = .ok s := by
  simp only [Delta.mergeWithDelta, bind_eq_ok, lift_ok, pure_eq_ok] at h
  obtain ⟨⟨data, du⟩, h1, supply, h2, e⟩ := h
  cases e
  exact ⟨(getVal_merge h1 id).symm, fun s hs => getBal_merge h2 hs⟩

/-- non-vacuity: the example history flushed into the empty database -/
example : ∃ c st db' u, runActs step undo (start emptyDB.view) exActs = .ok (c, st) ∧
    emptyDB.mergeWithDelta c.delta = .ok (db', u) ∧ db'.supply.get 5 = some 50 ∧ db'.supply.get 6 = some 7 := by
  refine ⟨_, _, _, _, rfl, rfl, ?_, ?_⟩ <;> decide +kernel

end Verif.Tokens
