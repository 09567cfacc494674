import Verif.TokenInfo.Spec

/-!
# The wallet's step follows the ledger's step
-/

namespace Verif.TokenInfo
open Verif Verif.Accounting
open Verif.Tokens (TokenId TokenData TotalSupply Frozen Cache Readable Sv Rep Trans step Op)

/-- caps on the plain state -/
def Capped (s : Sv) : Prop := ∀ id d l, s.data id = some d → d.totalSupply = .fixed l → s.supply id ≤ l

/-- what a successful operation does to the plain state -/
inductive Next (c : Cache) (s : Sv) : Op → Sv → Prop
  | data {op id cur new} : Trans c.view op id cur new → s.data id = cur →
      Next c s op { s with data := Function.update s.data id (some new) }
  | mint {id a d} : s.data id = some d → d.isFrozen = false → d.locked = false →
      (∀ l, d.totalSupply = .fixed l → s.supply id + a ≤ l) → (s.supply id : Int) + a < I128 →
      Next c s (.mint id a) { s with supply := Function.update s.supply id (s.supply id + a) }
  | unmint {id a d} : s.data id = some d → d.isFrozen = false → d.locked = false → a ≤ s.supply id →
      Next c s (.unmint id a) { s with supply := Function.update s.supply id (s.supply id - a) }

theorem policy_ok {c : Cache} {s : Sv} (h : Rep c s) {id : TokenId} {d : TokenData} {a : Nat}
    (hp : Tokens.mintPolicy c id d a = .ok ()) :
    (∀ l, d.totalSupply = .fixed l → s.supply id + a ≤ l) ∧ (d.totalSupply = .lockable → d.locked = false) := by
  unfold Tokens.mintPolicy at hp
  split at hp
  · rename_i l e
    rw [h.vSupply] at hp
    simp only [bind_eq_ok, okOr_eq_ok, ensure_eq_ok] at hp
    obtain ⟨x, hx, y, hy, hz⟩ := hp
    cases hx
    unfold Amt.add at hy
    split at hy <;> cases hy
    refine ⟨fun l' e' => ?_, fun e' => by rw [e] at e'; cases e'⟩
    rw [e] at e'; cases e'
    omega
  · rename_i e
    simp only [ensure_eq_ok] at hp
    exact ⟨fun l' e' => by rw [e] at e'; (cases e'), fun _ => hp⟩
  · rename_i e
    exact ⟨fun l' e' => by rw [e] at e'; (cases e'), fun e' => by rw [e] at e'; (cases e')⟩

theorem ok_policy {c : Cache} {s : Sv} (h : Rep c s) {id : TokenId} {d : TokenData} {a : Nat}
    (h1 : ∀ l, d.totalSupply = .fixed l → s.supply id + a ≤ l) (h2 : d.totalSupply = .lockable → d.locked = false)
    (h3 : (s.supply id : Int) + a < I128) : Tokens.mintPolicy c id d a = .ok () := by
  unfold Tokens.mintPolicy
  split
  · rename_i l e
    rw [h.vSupply]
    simp only [bind_eq_ok, okOr_eq_ok, ensure_eq_ok]
    refine ⟨_, rfl, s.supply id + a, ?_, ?_⟩
    · unfold Amt.add
      rw [if_pos]
      unfold I128 at h3
      unfold U128
      omega
    · have := h1 l e
      omega
  · rename_i e
    simp only [ensure_eq_ok]
    exact h2 e
  · rfl

theorem step_next {c c' : Cache} {op : Op} {u : Tokens.Undo} {s : Sv} (h : Rep c s) (hl : s.LockedOk)
    (hs : step c op = .ok (c', u)) (hr : Readable c') : ∃ s', Rep c' s' ∧ s'.LockedOk ∧ Next c s op s' := by
  obtain ⟨s1, r1, l1, -⟩ := Tokens.step_move h hl hs hr
  suffices H : ∃ s', Rep c' s' ∧ Next c s op s' by
    obtain ⟨s', r', n'⟩ := H
    have e := r1.inj r'
    subst e
    exact ⟨_, r', l1, n'⟩
  rcases Tokens.step_cases hs with ⟨id, cur, new, data, du, ht, h1, h2, rfl, h3, h3', h4⟩ |
    ⟨id, a, d, supply, rfl, rfl, h1, h2, h3, h4, rfl⟩ | ⟨id, a, d, x, supply, rfl, rfl, h1, h2, h3, h4, h5, h6, rfl⟩
  · have hcur : s.data id = cur := Except.ok.inj ((h.vData id).symm.trans h1)
    exact ⟨{ s with data := Function.update s.data id (some new) }, ⟨(h.data.of_merge hcur h2).2, h.supply⟩,
      .data ht hcur⟩
  · have hd : s.data id = some d := Except.ok.inj ((h.vData id).symm.trans h1)
    obtain ⟨v, hv⟩ := hr id
    obtain ⟨hlt, hb⟩ := h.supply.of_add h4 hv
    obtain ⟨p1, p2⟩ := policy_ok h h3
    refine ⟨{ s with supply := Function.update s.supply id (s.supply id + a) }, ⟨h.data, hb⟩, .mint hd h2 ?_ p1 hlt⟩
    cases e : d.locked with
    | false => rfl
    | true =>
      have := p2 (hl id d hd e)
      rw [e] at this; exact this
  · have hd : s.data id = some d := Except.ok.inj ((h.vData id).symm.trans h1)
    have hx : s.supply id = x := Except.ok.inj ((h.vSupply id).symm.trans h4)
    subst hx
    obtain ⟨sp, e1, r2⟩ := h.supply.sub h5
    rw [h6] at e1; cases e1
    exact ⟨{ s with supply := Function.update s.supply id (s.supply id - a) }, ⟨h.data, r2⟩, .unmint hd h2 h3 h5⟩

/-- the token an operation is about -/
theorem Next.elsewhere {c : Cache} {s s' : Sv} {op : Op} (h : Next c s op s') {own : TokenId} (hn : op.token ≠ own) :
    s'.data own = s.data own ∧ s'.supply own = s.supply own := by
  cases h with
  | data ht hc =>
    refine ⟨?_, rfl⟩
    have : own ≠ _ := fun e => hn (by cases ht <;> exact e.symm)
    simp [Function.update_of_ne this]
  | mint => exact ⟨rfl, Function.update_of_ne (fun e => hn e.symm) _ _⟩
  | unmint => exact ⟨rfl, Function.update_of_ne (fun e => hn e.symm) _ _⟩

theorem Next.capped {c : Cache} {s s' : Sv} {op : Op} (hr : Rep c s) (h : Next c s op s') (hc : Capped s) :
    Capped s' := by
  intro id d l hd hl
  cases h with
  | @data op id' cur new ht hcur =>
    by_cases e : id = id'
    · subst e
      simp only [Function.update_self, Option.some.injEq] at hd
      subst hd
      cases ht with
      | issue _ i hs =>
        have : s.supply id = 0 := Except.ok.inj ((hr.vSupply id).symm.trans hs)
        show s.supply id ≤ l
        omega
      | lock _ d' e1 e2 e3 => exact hc id d' l hcur hl
      | freeze _ d' => exact hc id d' l hcur hl
      | unfreeze _ d' => exact hc id d' l hcur hl
      | changeAuthority _ d' => exact hc id d' l hcur hl
      | changeMetadataUri _ d' => exact hc id d' l hcur hl
    · simp only [Function.update_of_ne e] at hd
      exact hc id d l hd hl
  | @mint id' a d' h1 h2 h3 h4 h5 =>
    by_cases e : id = id'
    · subst e
      rw [h1] at hd; cases hd
      simp only [Function.update_self]
      exact h4 l hl
    · simp only [Function.update_of_ne e]
      exact hc id d l hd hl
  | @unmint id' a d' h1 h2 h3 h4 =>
    have := hc id d l hd hl
    by_cases e : id = id'
    · subst e
      simp only [Function.update_self]
      omega
    · simp only [Function.update_of_ne e]
      exact this

/-- the operation of a command -/
def Command.op (burns : List (TokenId × Nat)) : Command → Option Op
  | .mint id a => some (.mint id a)
  | .unmint id => (burned id burns).bind fun b => if b > 0 then some (.unmint id b) else none
  | .lock id => some (.lock id)
  | .freeze id u => some (.freeze id u)
  | .unfreeze id => some (.unfreeze id)
  | .authority id a => some (.changeAuthority id a)
  | .uri id u => some (.changeMetadataUri id u)
  | .order => none

theorem connectCommand_op {burns : List (TokenId × Nat)} {c c' : Cache} {cmd : Command}
    (h : connectCommand burns c cmd = .ok c') :
    (∃ op u, cmd.op burns = some op ∧ step c op = .ok (c', u)) ∨ (cmd.op burns = none ∧ c' = c) := by
  have key : ∀ op, (match step c op with | .ok (c', _) => Except.ok c' | .error e => .error (LErr.tokens e)) = .ok c' →
      ∃ u, step c op = .ok (c', u) := by
    intro op h
    split at h
    · rename_i c1 u e
      cases h
      exact ⟨u, e⟩
    · cases h
  unfold connectCommand at h
  cases cmd with
  | unmint id =>
    simp only at h
    simp only [Command.op]
    cases hb : burned id burns with
    | none => rw [hb] at h; cases h
    | some b =>
      rw [hb] at h
      simp only at h
      split at h
      · rename_i hp
        obtain ⟨u, hu⟩ := key _ h
        exact .inl ⟨_, u, by simp only [hb, Option.bind_some, if_pos hp], hu⟩
      · rename_i hp
        cases h
        exact .inr ⟨by simp only [hb, Option.bind_some, if_neg hp], rfl⟩
  | order => cases h; exact .inr ⟨rfl, rfl⟩
  | mint | lock | freeze | unfreeze | authority | uri =>
    obtain ⟨u, hu⟩ := key _ h
    exact .inl ⟨_, u, rfl, hu⟩

theorem op_connectCommand {burns : List (TokenId × Nat)} {c c' : Cache} {cmd : Command} {op : Op} {u : Tokens.Undo}
    (ho : cmd.op burns = some op) (h : step c op = .ok (c', u)) : connectCommand burns c cmd = .ok c' := by
  cases cmd with
  | unmint id =>
    simp only [Command.op] at ho
    unfold connectCommand
    cases hb : burned id burns with
    | none => rw [hb] at ho; cases ho
    | some b =>
      rw [hb] at ho
      simp only [Option.bind_some] at ho
      split at ho
      · rename_i hp
        cases ho
        simp only [hb, if_pos hp, h]
      · cases ho
  | order => cases ho
  | mint | lock | freeze | unfreeze | authority | uri =>
    cases ho
    unfold connectCommand
    simp only [h]

theorem op_token {burns : List (TokenId × Nat)} {cmd : Command} {op : Op} (h : cmd.op burns = some op) :
    cmd.token = some op.token := by
  cases cmd with
  | unmint id =>
    simp only [Command.op] at h
    cases hb : burned id burns with
    | none => rw [hb] at h; cases h
    | some b =>
      rw [hb] at h
      simp only [Option.bind_some] at h
      split at h <;> cases h
      rfl
  | order => cases h
  | mint | lock | freeze | unfreeze | authority | uri => cases h; rfl

theorem add_ok {a b : Nat} (h : (a : Int) + b < I128) : Amt.add a b = some (a + b) := by
  unfold Amt.add
  rw [if_pos]
  unfold I128 at h
  unfold U128
  omega

theorem sub_ok {a b : Nat} (h : b ≤ a) : Amt.sub a b = some (a - b) := by
  unfold Amt.sub
  rw [if_pos h]

theorem mint_supplyOf {d : TokenData} {n a : Nat} (hl : d.locked = false) (h : (n : Int) + a < I128)
    (hc : ∀ l, d.totalSupply = .fixed l → n + a ≤ l) : (supplyOf d n).mint a = .ok (supplyOf d (n + a)) := by
  unfold supplyOf
  rw [hl]
  cases e : d.totalSupply with
  | fixed l =>
    simp only [Supply.mint, add_ok h, bind_eq_ok, okOr_eq_ok, ensure_eq_ok, pure_eq_ok]
    exact ⟨_, rfl, (), hc l e, rfl⟩
  | lockable => simp [Supply.mint, add_ok h, okOr]
  | unlimited => simp [Supply.mint, add_ok h, okOr]

theorem unmint_supplyOf {d : TokenData} {n a : Nat} (hl : d.locked = false) (h : a ≤ n) :
    (supplyOf d n).unmint a = .ok (supplyOf d (n - a)) := by
  unfold supplyOf
  rw [hl]
  cases e : d.totalSupply with
  | fixed l => simp [Supply.unmint, sub_ok h, okOr]
  | lockable => simp [Supply.unmint, sub_ok h, okOr]
  | unlimited => simp [Supply.unmint, sub_ok h, okOr]

/-- the wallet follows a command about its token -/
theorem follow {burns : List (TokenId × Nat)} {c : Cache} {s s' : Sv} {cmd : Command} {op : Op} {own : TokenId}
    {d : TokenData} (ho : cmd.op burns = some op) (ht : op.token = own) (hn : Next c s op s')
    (hd : s.data own = some d) :
    ∃ d', s'.data own = some d' ∧ freezeCommand own d.frozen cmd = .ok d'.frozen ∧
      supplyCommand own burns (supplyOf d (s.supply own)) cmd = .ok (supplyOf d' (s'.supply own)) := by
  cases cmd with
  | mint id a =>
    cases ho
    have ht : id = own := ht
    subst ht
    cases hn with
    | data hh => cases hh
    | @mint _ _ d1 h1 h2 h3 h4 h5 =>
      rw [hd] at h1; cases h1
      refine ⟨d, hd, rfl, ?_⟩
      simp only [supplyCommand, if_pos]
      rw [mint_supplyOf h3 h5 h4]
      simp [Tokens.Op.token]
  | unmint id =>
    simp only [Command.op] at ho
    cases hb : burned id burns with
    | none => rw [hb] at ho; cases ho
    | some b =>
      rw [hb] at ho
      simp only [Option.bind_some] at ho
      split at ho <;> cases ho
      have ht : id = own := ht
      subst ht
      cases hn with
      | data hh => cases hh
      | @unmint _ _ d1 h1 h2 h3 h4 =>
        rw [hd] at h1; cases h1
        refine ⟨d, hd, rfl, ?_⟩
        have := unmint_supplyOf (d := d) h3 h4
        simp only [supplyCommand, hb, okOr]
        simp only [Tokens.Op.token, Function.update_self]
        exact this
  | lock id =>
    cases ho
    have ht : id = own := ht
    subst ht
    cases hn with
    | data hh hc =>
      cases hh with
      | lock _ d1 e1 e2 e3 =>
        rw [hc] at hd; cases hd
        refine ⟨{ d with locked := true }, by simp [Tokens.Op.token], rfl, ?_⟩
        simp [supplyCommand, supplyOf, e1, e3, Supply.lock, Tokens.Op.token]
  | freeze id b =>
    cases ho
    have ht : id = own := ht
    subst ht
    cases hn with
    | data hh hc =>
      cases hh with
      | freeze _ d1 b e1 =>
        rw [hc] at hd; cases hd
        refine ⟨{ d with frozen := .yes b }, by simp [Tokens.Op.token], ?_, rfl⟩
        simp [freezeCommand, freeze, e1, Tokens.Op.token]
  | unfreeze id =>
    cases ho
    have ht : id = own := ht
    subst ht
    cases hn with
    | data hh hc =>
      cases hh with
      | unfreeze _ d1 e1 =>
        rw [hc] at hd; cases hd
        refine ⟨{ d with frozen := .no true }, by simp [Tokens.Op.token], ?_, rfl⟩
        simp [freezeCommand, unfreeze, e1, Tokens.Op.token]
  | authority id a =>
    cases ho
    have ht : id = own := ht
    subst ht
    cases hn with
    | data hh hc =>
      cases hh with
      | changeAuthority _ d1 a e1 =>
        rw [hc] at hd; cases hd
        exact ⟨{ d with authority := a }, by simp [Tokens.Op.token], rfl, rfl⟩
  | uri id a =>
    cases ho
    have ht : id = own := ht
    subst ht
    cases hn with
    | data hh hc =>
      cases hh with
      | changeMetadataUri _ d1 a e1 =>
        rw [hc] at hd; cases hd
        exact ⟨{ d with metadataUri := a }, by simp [Tokens.Op.token], rfl, rfl⟩
  | order => cases ho

/-- a transaction the ledger took has no command, or one -/
theorem connectTx_cases {c c' : Cache} {tx : Tx} (h : connectTx c tx = .ok c') :
    (tx.commands = [] ∧ c' = c) ∨ ∃ cmd, tx.commands = [cmd] ∧ connectCommand tx.burns c cmd = .ok c' := by
  unfold connectTx at h
  split at h
  · rename_i hl
    match hc : tx.commands with
    | [] => rw [hc] at h; cases h; exact .inl ⟨rfl, rfl⟩
    | [cmd] =>
      rw [hc] at h
      refine .inr ⟨cmd, rfl, ?_⟩
      simp only [List.foldlM_cons, List.foldlM_nil, bind_eq_ok] at h
      obtain ⟨x, h1, h2⟩ := h
      cases h2
      exact h1
    | a :: b :: r => rw [hc] at hl; simp at hl
  · cases h

/-- a transaction keeps the ledger sound -/
theorem connectTx_sound {c c' : Cache} {tx : Tx} (h : Sound c) (ht : connectTx c tx = .ok c') (hr : Readable c') :
    Sound c' := by
  rcases connectTx_cases ht with ⟨-, rfl⟩ | ⟨cmd, -, hc⟩
  · exact h
  · rcases connectCommand_op hc with ⟨op, u, -, hs⟩ | ⟨-, rfl⟩
    · obtain ⟨s, r, l, cp⟩ := h
      obtain ⟨s', r', l', n⟩ := step_next r l hs hr
      exact ⟨s', r', l', n.capped r cp⟩
    · exact h

/-- one transaction of the run, seen by the wallet -/
theorem connectTx_follow {c c' : Cache} {tx : Tx} {own : TokenId} {d : TokenData} {n : Nat} (h : Sound c)
    (hs : Shows c own d n) (ht : connectTx c tx = .ok c') (hr : Readable c') (hb : Burning tx) :
    ∃ d' n', Shows c' own d' n' ∧
      if tx.commands.any (fun c => decide (c.token = some own)) then
        applyTx own (d.frozen, supplyOf d n) tx = .ok (d'.frozen, supplyOf d' n')
      else d'.frozen = d.frozen ∧ supplyOf d' n' = supplyOf d n := by
  rcases connectTx_cases ht with ⟨e, rfl⟩ | ⟨cmd, e, hc⟩
  · exact ⟨d, n, hs, by simp [e]⟩
  · obtain ⟨s, r, l, cp⟩ := h
    have hd : s.data own = some d := Except.ok.inj ((r.vData own).symm.trans hs.1)
    have hn : s.supply own = n := Except.ok.inj ((r.vSupply own).symm.trans hs.2)
    subst hn
    rcases connectCommand_op hc with ⟨op, u, ho, hstep⟩ | ⟨ho, rfl⟩
    · obtain ⟨s', r', l', nx⟩ := step_next r l hstep hr
      by_cases hto : op.token = own
      · obtain ⟨d', h1, h2, h3⟩ := follow ho hto nx hd
        refine ⟨d', s'.supply own, ⟨by rw [r'.vData, h1], r'.vSupply own⟩, ?_⟩
        rw [if_pos (by simp [e, op_token ho, hto])]
        simp only [applyTx, applyFreeze, applySupply, e, List.foldlM_cons, List.foldlM_nil, h2, h3]
        rfl
      · obtain ⟨h1, h2⟩ := nx.elsewhere hto
        refine ⟨d, s'.supply own, ⟨by rw [r'.vData, h1, hd], r'.vSupply own⟩, ?_⟩
        rw [if_neg (by simp [e, op_token ho, hto]), h2]
        exact ⟨rfl, rfl⟩
    · refine ⟨d, _, hs, ?_⟩
      cases cmd with
      | unmint id =>
        exfalso
        have hne := hb id (by simp [e])
        unfold connectCommand at hc
        simp only [Command.op] at ho
        cases hbb : burned id tx.burns with
        | none => simp [hbb] at hc
        | some b =>
          simp only [hbb, Option.bind_some] at ho
          split at ho
          · cases ho
          · exact hne (by rw [hbb]; congr; omega)
      | order => simp [e, Command.token]
      | mint | lock | freeze | unfreeze | authority | uri => cases ho

end Verif.TokenInfo
