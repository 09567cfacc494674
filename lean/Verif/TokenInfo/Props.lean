import Verif.TokenInfo.Can

/-!
# C84: the wallet's idea of its token is the ledger's

The wallet predicts the state a token will have once its own waiting transactions are in the ledger, and offers the
issuer exactly the operations that the ledger will take then.
-/

namespace Verif.TokenInfo
open Verif Verif.Accounting
open Verif.Tokens (TokenId TokenData TotalSupply Frozen Cache Readable)

set_option maxRecDepth 100000

/-- the empty ledger is sound -/
theorem C84_sound_start : Sound (Tokens.Cache.new Tokens.emptyDB.view) := by
  refine ⟨⟨fun _ => none, fun _ => 0⟩, ?_, ?_, ?_⟩
  · exact ⟨RepD.empty fun k => rfl, RepB.empty fun k => ⟨rfl, by show ((0 : Nat) : Int) < I128; unfold I128; omega⟩⟩
  · intro id d h
    cases h
  · intro id d l h
    cases h

/-- issuing a token keeps it sound -/
theorem C84_sound_issue {c c' : Cache} {id : TokenId} {i : Tokens.Issuance} {u : Tokens.Undo} (h : Sound c)
    (hs : Tokens.step c (.issue id i) = .ok (c', u)) (hr : Readable c') : Sound c' := by
  obtain ⟨s, r, l, cp⟩ := h
  obtain ⟨s', r', l', n⟩ := step_next r l hs hr
  exact ⟨s', r', l', n.capped r cp⟩

/-- transactions keep it sound -/
theorem C84_sound_run {c c' : Cache} {txs : List Tx} (h : Sound c) (hr : Run c txs c') : Sound c' := by
  induction hr with
  | nil => exact h
  | cons ht hr _ ih => exact ih (connectTx_sound h ht hr)

/-- what the wallet starts from is the state the node reports -/
theorem start_of {c : Cache} {own : TokenId} {d : TokenData} {n : Nat} (h : Sound c) (hs : Shows c own d n) :
    (do let s ← (Supply.ofTotal (rpcInfo d n).totalSupply).mint (rpcInfo d n).circulating
        if (rpcInfo d n).isLocked then s.lock else pure s : Except WErr Supply) = .ok (supplyOf d n) := by
  obtain ⟨s, r, l, cp⟩ := h
  have hd : s.data own = some d := Except.ok.inj ((r.vData own).symm.trans hs.1)
  have hn : s.supply own = n := Except.ok.inj ((r.vSupply own).symm.trans hs.2)
  have hlt := r.supply.lt own
  have hl := l own d hd
  have hc := cp own d
  rw [hn] at hlt hc
  have ha : Amt.add 0 n = some n := by rw [add_ok (by simpa using hlt), Nat.zero_add]
  simp only [rpcInfo, supplyOf]
  cases e : d.totalSupply with
  | fixed k =>
    have hk : d.locked = false := by
      cases hk : d.locked with
      | false => rfl
      | true => rw [e] at hl; cases hl hk
    simp only [hk, Supply.ofTotal, Supply.mint, ha, bind_eq_ok, okOr_eq_ok, ensure_eq_ok, pure_eq_ok]
    exact ⟨_, ⟨n, rfl, (), hc k hd e, rfl⟩, rfl⟩
  | lockable =>
    simp only [Supply.ofTotal, Supply.mint, ha, bind_eq_ok, okOr_eq_ok, pure_eq_ok]
    rcases Bool.eq_false_or_eq_true d.locked with hk | hk <;> simp only [hk] <;> exact ⟨_, ⟨n, rfl, rfl⟩, rfl⟩
  | unlimited =>
    have hk : d.locked = false := by
      cases hk : d.locked with
      | false => rfl
      | true => rw [e] at hl; cases hl hk
    simp only [hk, Supply.ofTotal, Supply.mint, ha, bind_eq_ok, okOr_eq_ok, pure_eq_ok]
    exact ⟨_, ⟨n, rfl, rfl⟩, rfl⟩

theorem run_follow {c c' : Cache} {all : List Tx} {own : TokenId} {d : TokenData} {n : Nat} (h : Sound c)
    (hs : Shows c own d n) (hr : Run c all c') (hb : ∀ tx ∈ all, Burning tx) :
    ∃ d' n', Shows c' own d' n' ∧
      (unconfirmedTxs own all).foldlM (applyTx own) (d.frozen, supplyOf d n) = .ok (d'.frozen, supplyOf d' n') := by
  induction hr generalizing d n with
  | nil => exact ⟨d, n, hs, rfl⟩
  | @cons c c1 c2 tx txs ht hrd hrun ih =>
    obtain ⟨d1, n1, hs1, hf⟩ := connectTx_follow h hs ht hrd (hb tx (by simp))
    obtain ⟨d', n', hs', hf'⟩ := ih (connectTx_sound h ht hrd) hs1 fun t m => hb t (by simp [m])
    refine ⟨d', n', hs', ?_⟩
    unfold unconfirmedTxs at hf' ⊢
    rw [List.filter_cons]
    by_cases hc : (tx.commands.any fun c => decide (c.token = some own)) = true
    · rw [if_pos hc] at hf ⊢
      rw [List.foldlM_cons, hf]
      exact hf'
    · rw [if_neg hc] at hf ⊢
      rw [← hf.1, ← hf.2]
      exact hf'

/-- **C84 (prediction)**: let the ledger be in any state in which the token exists, and let any transactions (about
this token and others, in the wallet's order) be such that the ledger takes them one after the other.  Then what the
wallet computes from the node's report and these transactions is the state of the token afterwards: frozen or not and
whether that can be changed, kind of supply, locked or not, units in circulation. -/
theorem C84_prediction {c c' : Cache} {all : List Tx} {own : TokenId} {d : TokenData} {n : Nat} (h : Sound c)
    (hs : Shows c own d n) (hr : Run c all c') (hb : ∀ tx ∈ all, Burning tx) :
    ∃ d' n', Shows c' own d' n' ∧
      unconfirmedInfo true own (rpcInfo d n) all = .ok (.own d'.frozen (supplyOf d' n')) := by
  obtain ⟨d', n', hs', hf⟩ := run_follow h hs hr hb
  refine ⟨d', n', hs', ?_⟩
  have := start_of h hs
  simp only [bind_eq_ok] at this
  obtain ⟨s, h1, h2⟩ := this
  unfold unconfirmedInfo
  rw [if_pos rfl]
  simp only [bind_eq_ok, pure_eq_ok]
  refine ⟨s, h1, ?_⟩
  split at h2
  · rename_i hk
    rw [if_pos hk, h2]
    simp only [bind_eq_ok, pure_eq_ok]
    exact ⟨_, rfl, _, hf, rfl⟩
  · rename_i hk
    rw [if_neg hk]
    cases h2
    simp only [bind_eq_ok, pure_eq_ok]
    exact ⟨_, rfl, _, hf, rfl⟩

/-- what the wallet knows about a token in state `d`, `n` makes it carry out exactly the requests the ledger takes -/
theorem permits_iff {c : Cache} {own : TokenId} {d : TokenData} {n : Nat} (h : Sound c) (hs : Shows c own d n)
    (r : Request) (hm : ∀ a, r = .mint a → (n : Int) + a < 2 ^ 127)
    (hu : ∀ a, r = .unmint a → 0 < a ∧ a < 2 ^ 128) :
    (permits (.own d.frozen (supplyOf d n)) r).isOk ↔ Takes c (requestTx own r) := by
  obtain ⟨s, rp, l, cp⟩ := h
  have hd : s.data own = some d := Except.ok.inj ((rp.vData own).symm.trans hs.1)
  have hn : s.supply own = n := Except.ok.inj ((rp.vSupply own).symm.trans hs.2)
  subst hn
  have hl := l own d hd
  rw [isOk_unit]
  cases r with
  | mint a =>
    have ha : (s.supply own : Int) + a < I128 := by
      have := hm a rfl
      unfold I128
      omega
    simp only [requestTx]
    rw [takes_iff (op := .mint own a) rfl, can_mint rp l hd]
    simp only [permits]
    rw [bind_unit, used_iff, mint_iff hl ha]
    exact ⟨fun x => ⟨x.1, x.2.1, x.2.2, ha⟩, fun x => ⟨x.1, x.2.1, x.2.2.1⟩⟩
  | unmint a =>
    obtain ⟨h0, h1⟩ := hu a rfl
    replace h1 : a < U128 := by unfold U128; omega
    have hop : (Command.unmint own).op [(own, a)] = some (.unmint own a) := by
      simp [Command.op, burned_single (own := own) (a := a) h1, h0]
    simp only [requestTx]
    rw [takes_iff hop, can_unmint rp l hd]
    simp only [permits]
    rw [bind_unit, used_iff, unmint_iff hl]
  | lock =>
    simp only [requestTx]
    rw [takes_iff (op := .lock own) rfl, can_lock rp l hd]
    simp only [permits]
    rw [bind_unit, used_iff, lock_iff]
  | freeze b =>
    simp only [requestTx]
    rw [takes_iff (op := .freeze own b) rfl, can_freeze rp l hd]
    simp only [permits]
    rw [bind_unit, used_iff, freeze_iff]
    refine ⟨fun x => x.2, fun x => ⟨by simp [TokenData.isFrozen, x], x⟩⟩
  | unfreeze =>
    simp only [requestTx]
    rw [takes_iff (op := .unfreeze own) rfl, can_unfreeze rp l hd]
    simp only [permits]
    rw [unfreeze_iff]
  | authority a =>
    simp only [requestTx]
    rw [takes_iff (op := .changeAuthority own a) rfl, can_authority rp l hd]
    simp only [permits]
    rw [used_iff]
  | uri a =>
    simp only [requestTx]
    rw [takes_iff (op := .changeMetadataUri own a) rfl, can_uri rp l hd]
    simp only [permits]
    rw [used_iff]

/-- **C84 (offers)**: in the situation of `C84_prediction`, the wallet carries out a request of the issuer exactly
when the ledger, once it has taken the waiting transactions, takes the transaction made for it.  Minting is meant
within what a supply can hold, unminting with a positive amount. -/
theorem C84_offers {c c' : Cache} {all : List Tx} {own : TokenId} {d : TokenData} {n : Nat} (h : Sound c)
    (hs : Shows c own d n) (hr : Run c all c') (hb : ∀ tx ∈ all, Burning tx) (r : Request)
    (hm : ∀ a, r = .mint a → ∀ n', c'.view.supply own = .ok n' → (n' : Int) + a < 2 ^ 127)
    (hu : ∀ a, r = .unmint a → 0 < a ∧ a < 2 ^ 128) :
    ∃ i, unconfirmedInfo true own (rpcInfo d n) all = .ok i ∧
      ((permits i r).isOk ↔ Takes c' (requestTx own r)) := by
  obtain ⟨d', n', hs', hi⟩ := C84_prediction h hs hr hb
  exact ⟨_, hi, permits_iff (C84_sound_run h hr) hs' r (fun a e => hm a e n' hs'.2) hu⟩

/-- **C84 (order)**: a request carried out joins the waiting transactions, and the prediction stays right -/
theorem C84_again {c c' : Cache} {all : List Tx} {own : TokenId} {d : TokenData} {n : Nat} (h : Sound c)
    (hs : Shows c own d n) (hr : Run c all c') (hb : ∀ tx ∈ all, Burning tx) (r : Request) {i : Info}
    (hi : unconfirmedInfo true own (rpcInfo d n) all = .ok i) (hp : (permits i r).isOk)
    (hm : ∀ a, r = .mint a → ∀ n', c'.view.supply own = .ok n' → (n' : Int) + a < 2 ^ 127)
    (hu : ∀ a, r = .unmint a → 0 < a ∧ a < 2 ^ 128) :
    ∃ c'' d'' n'', Run c (all ++ [requestTx own r]) c'' ∧ Shows c'' own d'' n'' ∧
      unconfirmedInfo true own (rpcInfo d n) (all ++ [requestTx own r]) = .ok (.own d''.frozen (supplyOf d'' n'')) := by
  obtain ⟨i', hi', hiff⟩ := C84_offers h hs hr hb r hm hu
  rw [hi] at hi'; cases hi'
  obtain ⟨c'', ht, hrd⟩ := hiff.1 hp
  have hrun : Run c (all ++ [requestTx own r]) c'' := by
    clear hi hp hiff hm hs h hb
    induction hr with
    | nil => exact .cons ht hrd (.nil _)
    | cons a b _ ih => exact .cons a b (ih ht)
  have hb' : ∀ tx ∈ all ++ [requestTx own r], Burning tx := by
    intro tx hx
    rcases List.mem_append.1 hx with hx | hx
    · exact hb tx hx
    · rw [List.mem_singleton.1 hx]
      intro id hid
      cases r with
      | unmint a =>
        obtain ⟨h0, h1⟩ := hu a rfl
        replace h1 : a < U128 := by unfold U128; omega
        simp only [requestTx, List.mem_singleton, Command.unmint.injEq] at hid
        subst hid
        simp only [requestTx]
        rw [burned_single h1]
        simp
        omega
      | _ => simp [requestTx] at hid
  obtain ⟨d'', n'', hs'', hi''⟩ := C84_prediction h hs hrun hb'
  exact ⟨c'', d'', n'', hrun, hs'', hi''⟩

/-- **C84 (others)**: nothing can be done with the token of somebody else -/
theorem C84_not_mine (own : TokenId) (info : RpcInfo) (all : List Tx) (r : Request) :
    ∃ i, unconfirmedInfo false own info all = .ok i ∧ (permits i r).isOk = false := by
  refine ⟨.other info.frozen, rfl, ?_⟩
  cases info.frozen <;> cases r <;> rfl

/-- the bound on minting is needed: beyond 2^127 units the ledger takes nothing, but the wallet of a token without
cap still builds the transaction -/
theorem C84_mint_beyond {c : Cache} {own : TokenId} {d : TokenData} {n a : Nat} (h : Sound c) (hs : Shows c own d n)
    (hf : d.isFrozen = false) (hl : d.locked = false) (hk : ∀ l, d.totalSupply ≠ .fixed l)
    (ha : 2 ^ 127 ≤ n + a) :
    (permits (.own d.frozen (supplyOf d n)) (.mint a)).isOk ∧ ¬ Takes c (requestTx own (.mint a)) := by
  obtain ⟨s, rp, l, cp⟩ := h
  have hd : s.data own = some d := Except.ok.inj ((rp.vData own).symm.trans hs.1)
  have hn : s.supply own = n := Except.ok.inj ((rp.vSupply own).symm.trans hs.2)
  subst hn
  constructor
  · rw [isOk_unit]
    simp only [permits]
    rw [bind_unit, used_iff]
    refine ⟨hf, ?_⟩
    unfold supplyOf
    rw [hl]
    cases e : d.totalSupply with
    | fixed l => exact absurd e (hk l)
    | lockable => rfl
    | unlimited => rfl
  · simp only [requestTx]
    rw [takes_iff (op := .mint own a) rfl, can_mint rp l hd]
    rintro ⟨-, -, -, h4⟩
    unfold I128 at h4
    omega

/-! ### Concrete cases -/

/-- two tokens: 1 with at most 100 units, 2 of lockable supply, both freezable -/
def exDB : Tokens.DB :=
  ⟨(BMap.empty.insert 1 ⟨0, 0, 0, .fixed 100, false, .no true, 5⟩).insert 2 ⟨0, 0, 0, .lockable, false, .no true, 5⟩,
   (BMap.empty.insert 1 40).insert 2 7⟩

def exLedger : Cache := Tokens.Cache.new exDB.view

theorem exLedger_sound : Sound exLedger := by
  have hg : ∀ k, exDB.data.get k = if k = 2 then some ⟨0, 0, 0, .lockable, false, .no true, 5⟩ else
      if k = 1 then some ⟨0, 0, 0, .fixed 100, false, .no true, 5⟩ else none := by
    intro k
    simp only [exDB, BMap.get_insert]
    rfl
  have hb : ∀ k, bal exDB.supply k = if k = 2 then 7 else if k = 1 then 40 else 0 := by
    intro k
    simp only [exDB, bal, BMap.get_insert]
    split
    · rfl
    · split <;> rfl
  refine ⟨⟨exDB.data.get, bal exDB.supply⟩, ⟨RepD.empty fun k => rfl, RepB.empty fun k => ⟨rfl, ?_⟩⟩, ?_, ?_⟩
  · show ((bal exDB.supply k : Nat) : Int) < I128
    rw [hb]
    unfold I128
    split
    · omega
    · split <;> omega
  · intro id d h
    simp only [hg] at h
    split at h
    · cases h; exact fun h => by cases h
    · split at h <;> cases h
      exact fun h => by cases h
  · intro id d l h e
    simp only [hg] at h
    simp only [hb]
    split at h
    · cases h; cases e
    · split at h <;> cases h
      cases e
      simp_all

/-- mint 10 of token 1, lock token 2, burn 5 of token 1, freeze token 1 -/
def exTxs : List Tx :=
  [⟨[.mint 1 10], []⟩, ⟨[.lock 2], []⟩, ⟨[.unmint 1], [(1, 3), (2, 1), (1, 2)]⟩, ⟨[.freeze 1 true], []⟩]

example : (exTxs.foldlM connectTx exLedger).toOption.isSome = true := by decide +kernel

example : (unconfirmedInfo true 1 ⟨40, .fixed 100, false, .no true⟩ exTxs).toOption =
    some (.own (.yes true) (.fixed 100 45)) := by decide +kernel

example : (unconfirmedInfo true 2 ⟨7, .lockable, false, .no true⟩ exTxs).toOption =
    some (.own (.no true) (.locked 7)) := by decide +kernel

/-- the one-command rule of the ledger is needed: the wallet applies lock commands of other tokens to its own, so with
two commands in one transaction its prediction fails (here for a token that cannot be locked) -/
theorem C84_needs_single_commands :
    (unconfirmedInfo true 1 ⟨40, .fixed 100, false, .no true⟩ [⟨[.mint 1 10, .lock 2], []⟩]).toOption = none ∧
    (unconfirmedInfo true 1 ⟨40, .lockable, false, .no true⟩ [⟨[.mint 1 10, .lock 2], []⟩]).toOption =
      some (.own (.no true) (.locked 50)) ∧
    (connectTx exLedger ⟨[.mint 1 10, .lock 2], []⟩).toOption.isSome = false := by decide +kernel

/-- burning is needed: the ledger takes an unmint command that burns nothing even when the supply is locked, after
which the wallet knows no state of the token until a block has it -/
theorem C84_needs_burning :
    ([⟨[.lock 2], []⟩, ⟨[.unmint 2], []⟩].foldlM connectTx exLedger).toOption.isSome = true ∧
    (unconfirmedInfo true 2 ⟨7, .lockable, false, .no true⟩ [⟨[.lock 2], []⟩, ⟨[.unmint 2], []⟩]).toOption = none := by
  decide +kernel

end Verif.TokenInfo
