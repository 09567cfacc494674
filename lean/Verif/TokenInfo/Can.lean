import Verif.TokenInfo.Lemmas

/-!
# When the ledger takes an operation
-/

namespace Verif.TokenInfo
open Verif Verif.Accounting
open Verif.Tokens (TokenId TokenData TotalSupply Frozen Cache Readable Sv Rep Trans step Op)

/-- the operation goes through and leaves every supply readable -/
def Can (c : Cache) (op : Op) : Prop := ∃ c' u, step c op = .ok (c', u) ∧ Readable c'

theorem takes_iff {c : Cache} {cmd : Command} {burns : List (TokenId × Nat)} {op : Op}
    (ho : cmd.op burns = some op) : Takes c ⟨[cmd], burns⟩ ↔ Can c op := by
  constructor
  · rintro ⟨c', h, hr⟩
    rcases connectTx_cases h with ⟨e, -⟩ | ⟨cmd', e, hc⟩
    · cases e
    · cases e
      rcases connectCommand_op hc with ⟨op', u, ho', hs⟩ | ⟨hn, -⟩
      · rw [ho] at ho'; cases ho'
        exact ⟨c', u, hs, hr⟩
      · rw [ho] at hn; cases hn
  · rintro ⟨c', u, hs, hr⟩
    refine ⟨c', ?_, hr⟩
    unfold connectTx
    rw [if_pos (by simp)]
    simp only [List.foldlM_cons, List.foldlM_nil, op_connectCommand ho hs]
    rfl

theorem can_data {c : Cache} {s : Sv} (h : Rep c s) {op : Op} {id : TokenId} {d new : TokenData}
    (ht : Trans c.view op id (some d) new) (hd : s.data id = some d) : Can c op := by
  obtain ⟨data, e, r⟩ := h.data.merge hd (some new)
  have h1 : c.view.data id = .ok (some d) := by rw [h.vData, hd]
  refine ⟨_, _, Tokens.step_of_trans ht h1 e, ?_⟩
  exact Rep.readable (s := { s with data := Function.update s.data id (some new) }) ⟨r, h.supply⟩

theorem can_mint {c : Cache} {s : Sv} (h : Rep c s) (hl : s.LockedOk) {id : TokenId} {d : TokenData} {a : Nat}
    (hd : s.data id = some d) : Can c (.mint id a) ↔ d.isFrozen = false ∧ d.locked = false ∧
      (∀ l, d.totalSupply = .fixed l → s.supply id + a ≤ l) ∧ (s.supply id : Int) + a < I128 := by
  constructor
  · rintro ⟨c', u, hs, hr⟩
    obtain ⟨s', -, -, nx⟩ := step_next h hl hs hr
    cases nx with
    | data hh => cases hh
    | mint h1 h2 h3 h4 h5 =>
      rw [hd] at h1; cases h1
      exact ⟨h2, h3, h4, h5⟩
  · rintro ⟨h2, h3, h4, h5⟩
    obtain ⟨sp, e1, r1⟩ := h.supply.add h5
    refine ⟨{ c with delta := { c.delta with supply := sp } }, .mint id a, ?_, ?_⟩
    · simp only [step, Tokens.mintTokens, bind_eq_ok, okOr_eq_ok, ensure_eq_ok, Tokens.lift_ok, pure_eq_ok]
      exact ⟨_, h.vData id, d, hd, (), h2, (), ok_policy h h4 (fun _ => h3) h5, sp, e1, rfl⟩
    · exact Rep.readable (s := { s with supply := Function.update s.supply id (s.supply id + a) }) ⟨h.data, r1⟩

theorem can_unmint {c : Cache} {s : Sv} (h : Rep c s) (hl : s.LockedOk) {id : TokenId} {d : TokenData} {a : Nat}
    (hd : s.data id = some d) :
    Can c (.unmint id a) ↔ d.isFrozen = false ∧ d.locked = false ∧ a ≤ s.supply id := by
  constructor
  · rintro ⟨c', u, hs, hr⟩
    obtain ⟨s', -, -, nx⟩ := step_next h hl hs hr
    cases nx with
    | data hh => cases hh
    | unmint h1 h2 h3 h4 =>
      rw [hd] at h1; cases h1
      exact ⟨h2, h3, h4⟩
  · rintro ⟨h2, h3, h4⟩
    obtain ⟨sp, e1, r1⟩ := h.supply.sub h4
    refine ⟨{ c with delta := { c.delta with supply := sp } }, .unmint id a, ?_, ?_⟩
    · simp only [step, Tokens.unmintTokens, bind_eq_ok, okOr_eq_ok, ensure_eq_ok, Tokens.lift_ok, pure_eq_ok]
      exact ⟨_, h.vData id, d, hd, (), h3, (), h2, _, h.vSupply id, (), by omega, sp, e1, rfl⟩
    · exact Rep.readable (s := { s with supply := Function.update s.supply id (s.supply id - a) }) ⟨h.data, r1⟩

theorem can_lock {c : Cache} {s : Sv} (h : Rep c s) (hl : s.LockedOk) {id : TokenId} {d : TokenData}
    (hd : s.data id = some d) :
    Can c (.lock id) ↔ d.isFrozen = false ∧ d.locked = false ∧ d.totalSupply = .lockable := by
  constructor
  · rintro ⟨c', u, hs, hr⟩
    obtain ⟨s', -, -, nx⟩ := step_next h hl hs hr
    cases nx with
    | data hh hc =>
      cases hh with
      | lock _ d1 e1 e2 e3 =>
        rw [hd] at hc; cases hc
        exact ⟨e2, e1, e3⟩
  · rintro ⟨h2, h3, h4⟩
    exact can_data h (.lock id d h3 h2 h4) hd

theorem can_freeze {c : Cache} {s : Sv} (h : Rep c s) (hl : s.LockedOk) {id : TokenId} {d : TokenData} {b : Bool}
    (hd : s.data id = some d) : Can c (.freeze id b) ↔ d.frozen = .no true := by
  constructor
  · rintro ⟨c', u, hs, hr⟩
    obtain ⟨s', -, -, nx⟩ := step_next h hl hs hr
    cases nx with
    | data hh hc =>
      cases hh with
      | freeze _ d1 _ e1 =>
        rw [hd] at hc; cases hc
        exact e1
  · exact fun h2 => can_data h (.freeze id d b h2) hd

theorem can_unfreeze {c : Cache} {s : Sv} (h : Rep c s) (hl : s.LockedOk) {id : TokenId} {d : TokenData}
    (hd : s.data id = some d) : Can c (.unfreeze id) ↔ d.frozen = .yes true := by
  constructor
  · rintro ⟨c', u, hs, hr⟩
    obtain ⟨s', -, -, nx⟩ := step_next h hl hs hr
    cases nx with
    | data hh hc =>
      cases hh with
      | unfreeze _ d1 e1 =>
        rw [hd] at hc; cases hc
        exact e1
  · exact fun h2 => can_data h (.unfreeze id d h2) hd

theorem can_authority {c : Cache} {s : Sv} (h : Rep c s) (hl : s.LockedOk) {id : TokenId} {d : TokenData} {a : Nat}
    (hd : s.data id = some d) : Can c (.changeAuthority id a) ↔ d.isFrozen = false := by
  constructor
  · rintro ⟨c', u, hs, hr⟩
    obtain ⟨s', -, -, nx⟩ := step_next h hl hs hr
    cases nx with
    | data hh hc =>
      cases hh with
      | changeAuthority _ d1 _ e1 =>
        rw [hd] at hc; cases hc
        exact e1
  · exact fun h2 => can_data h (.changeAuthority id d a h2) hd

theorem can_uri {c : Cache} {s : Sv} (h : Rep c s) (hl : s.LockedOk) {id : TokenId} {d : TokenData} {a : Nat}
    (hd : s.data id = some d) : Can c (.changeMetadataUri id a) ↔ d.isFrozen = false := by
  constructor
  · rintro ⟨c', u, hs, hr⟩
    obtain ⟨s', -, -, nx⟩ := step_next h hl hs hr
    cases nx with
    | data hh hc =>
      cases hh with
      | changeMetadataUri _ d1 _ e1 =>
        rw [hd] at hc; cases hc
        exact e1
  · exact fun h2 => can_data h (.changeMetadataUri id d a h2) hd

/-! ### The wallet's checks -/

theorem used_iff {d : TokenData} : checkCanBeUsed d.frozen = .ok () ↔ d.isFrozen = false := by
  unfold TokenData.isFrozen checkCanBeUsed
  cases d.frozen <;> simp

theorem freeze_iff {d : TokenData} : checkCanFreeze d.frozen = .ok () ↔ d.frozen = .no true := by
  unfold checkCanFreeze
  cases d.frozen with
  | no b => cases b <;> simp
  | yes b => simp

theorem unfreeze_iff {d : TokenData} : checkCanUnfreeze d.frozen = .ok () ↔ d.frozen = .yes true := by
  unfold checkCanUnfreeze
  cases d.frozen with
  | yes b => cases b <;> simp
  | no b => simp

theorem lock_iff {d : TokenData} {n : Nat} :
    (supplyOf d n).checkCanLock = .ok () ↔ d.locked = false ∧ d.totalSupply = .lockable := by
  unfold supplyOf
  cases d.totalSupply <;> cases d.locked <;> simp [Supply.checkCanLock]

theorem unmint_iff {d : TokenData} {n a : Nat} (hl : d.locked = true → d.totalSupply = .lockable) :
    (supplyOf d n).checkCanUnmint a = .ok () ↔ d.locked = false ∧ a ≤ n := by
  unfold supplyOf
  revert hl
  cases d.totalSupply <;> cases d.locked <;> simp [Supply.checkCanUnmint]

theorem mint_iff {d : TokenData} {n a : Nat} (hl : d.locked = true → d.totalSupply = .lockable)
    (ha : (n : Int) + a < I128) :
    (supplyOf d n).checkCanMint a = .ok () ↔ d.locked = false ∧ ∀ l, d.totalSupply = .fixed l → n + a ≤ l := by
  unfold supplyOf
  revert hl
  cases d.totalSupply <;> cases d.locked <;> simp [Supply.checkCanMint, add_ok ha, okOr]
  exact ensure_eq_ok

theorem isOk_unit {x : Except WErr Unit} : x.isOk = true ↔ x = .ok () := by
  cases x <;> simp [Except.isOk, Except.toBool]

theorem bind_unit {x y : Except WErr Unit} :
    (do x; y : Except WErr Unit) = .ok () ↔ x = .ok () ∧ y = .ok () := by
  simp only [bind_eq_ok]
  constructor
  · rintro ⟨_, h1, h2⟩; exact ⟨h1, h2⟩
  · rintro ⟨h1, h2⟩; exact ⟨_, h1, h2⟩

theorem burned_single {own : TokenId} {a : Nat} (ha : a < U128) : burned own [(own, a)] = some a := by
  simp [burned, Amt.add, ha]

end Verif.TokenInfo
