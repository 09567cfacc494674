import Verif.Cache.Check

/-!
# C67: the outputs a wallet shows as unspent; C68: giving up transactions

`Run` (in `Verif.Cache.Spec`) are the histories of a wallet account beside the best chain of the node, `utxos c states keep` is what `OutputCache::utxos` lists.  The theorems say what is listed in
terms of the chain and of the transactions the wallet was told of.  After them come concrete histories, and then the ones that leave the limits of the theorems, with what the code does there.
-/

set_option maxRecDepth 100000

namespace Verif.Cache
open Verif

/-- **C67**: the confirmed outputs an account lists are exactly the outputs of the best chain that are unspent on it and that are kept by the filter – which has to be one for outputs to keys of the
account.  This holds after any history: blocks, reorganisations, transactions of the mempool and of the user, abandoning, restarts. -/
theorem C67_confirmed {cfg : Cfg} {G : Cache → Prop} {chain : List WTx} {c : Cache} (h : Run cfg G chain c) {keep : Option (Nat × Nat) → OutPoint × Out → Bool}
    (hk : ∀ b x, keep b x = true → seen cfg x.2.dests = true) (x : OutPoint × Out) :
    x ∈ utxos c onlyConfirmed keep ↔ ∃ t ∈ chain, t.Creates x ∧ Unspent chain x.1 ∧ keep t.block x = true := by
  have hi := h.inv
  rw [mem_utxos hi.keyed]
  constructor
  · rintro ⟨t, h1, h2, h3, h4, h5⟩
    have htc := hi.conf t h1 ((onlyConfirmed_iff _).1 h2)
    refine ⟨t, htc, h3, ?_, h5⟩
    intro t' ht' hsp
    have hkn := hi.spend t htc t' ht' x.1 x.2 h3 (hk _ _ h5) hsp
    have := (isConsumed_iff hi.tracks onlyConfirmed_iff x.1).2 ⟨t', hkn, hi.valid.confirmed t' ht', hsp⟩
    rw [this] at h4
    cases h4
  · rintro ⟨t, h1, h2, h3, h4⟩
    have hkn := hi.own t h1 ⟨x.2, List.mem_of_getElem? h2.2, hk _ _ h4⟩
    refine ⟨t, hkn, (onlyConfirmed_iff _).2 (hi.valid.confirmed t h1), h2, ?_, h4⟩
    cases hc : isConsumed c onlyConfirmed x.1 with
    | false => rfl
    | true =>
      obtain ⟨t', h5, h6, h7⟩ := (isConsumed_iff hi.tracks onlyConfirmed_iff x.1).1 hc
      exact absurd h7 (h3 t' (hi.conf t' h5 h6))

/-- **C67**: no output is listed twice, so that amounts are not counted twice -/
theorem C67_once {cfg : Cfg} {G : Cache → Prop} {chain : List WTx} {c : Cache} (h : Run cfg G chain c) (states : Kind → Bool) (keep : Option (Nat × Nat) → OutPoint × Out → Bool) :
    ((utxos c states keep).map (·.1)).Nodup :=
  utxos_nodup h.inv.keyed states keep

/-- **C67**: as long as no two transactions the wallet knows spend the same output, the outputs it lists for spending (those of blocks, of the mempool, and of waiting transactions) are exactly the
outputs of such transactions that are spent by no such transaction -/
theorem C67_spendable {cfg : Cfg} {chain : List WTx} {c : Cache} (h : Run cfg NoDoubleSpend chain c) (keep : Option (Nat × Nat) → OutPoint × Out → Bool) (x : OutPoint × Out) :
    x ∈ utxos c live keep ↔ ∃ t, c.Knows t ∧ t.state.IsLive ∧ t.Creates x ∧ keep t.block x = true ∧ ∀ t', c.Knows t' → t'.state.IsLive → ¬ t'.Spends x.1 := by
  have ht := h.live.1
  rw [mem_utxos h.inv.keyed]
  constructor
  · rintro ⟨t, h1, h2, h3, h4, h5⟩
    refine ⟨t, h1, (live_iff _).1 h2, h3, h5, ?_⟩
    intro t' hk hl hs
    have := (isConsumed_iff ht live_iff x.1).2 ⟨t', hk, hl, hs⟩
    rw [this] at h4
    cases h4
  · rintro ⟨t, h1, h2, h3, h4, h5⟩
    refine ⟨t, h1, (live_iff _).2 h2, h3, ?_, h4⟩
    cases hc : isConsumed c live x.1 with
    | false => rfl
    | true =>
      obtain ⟨t', h6, h7, h8⟩ := (isConsumed_iff ht live_iff x.1).1 hc
      exact absurd h8 (h5 t' h6 h7)

/-- **C67**: among the outputs of the chain to keys of the account, those listed for spending are the ones that are unspent on the chain and not spent by a waiting transaction of the wallet -/
theorem C67_spendable_on_chain {cfg : Cfg} {chain : List WTx} {c : Cache} (h : Run cfg NoDoubleSpend chain c) {keep : Option (Nat × Nat) → OutPoint × Out → Bool}
    (hk : ∀ b x, keep b x = true → seen cfg x.2.dests = true) {t : WTx} {x : OutPoint × Out} (ht : t ∈ chain) (hx : t.Creates x) (hkeep : keep t.block x = true) :
    x ∈ utxos c live keep ↔ Unspent chain x.1 ∧ ∀ t', c.Knows t' → t'.state.IsPending → ¬ t'.Spends x.1 := by
  have hi := h.inv
  have hkn := hi.own t ht ⟨x.2, List.mem_of_getElem? hx.2, hk _ _ hkeep⟩
  rw [C67_spendable h]
  constructor
  · rintro ⟨_, _, _, _, _, h5⟩
    refine ⟨?_, fun t' h1 h2 => h5 t' h1 (pending_live h2).1⟩
    intro t' ht' hs
    have hc := hi.valid.confirmed t' ht'
    refine h5 t' (hi.spend t ht t' ht' x.1 x.2 hx (hk _ _ hkeep) hs) ?_ hs
    revert hc
    cases t'.state <;> simp [St.IsConfirmed, St.IsLive]
  · rintro ⟨h1, h2⟩
    have hc := hi.valid.confirmed t ht
    refine ⟨t, hkn, ?_, hx, hkeep, ?_⟩
    · revert hc
      cases t.state <;> simp [St.IsConfirmed, St.IsLive]
    · intro t' h3 h4 h5
      by_cases hc' : t'.state.IsConfirmed
      · exact h1 t' (hi.conf t' h3 hc') h5
      · refine h2 t' h3 ?_ h5
        revert h4 hc'
        cases t'.state <;> simp [St.IsConfirmed, St.IsLive, St.IsPending]

/-- **C67**: closing and opening the wallet changes nothing of what it lists, in whatever order the stored transactions are loaded -/
theorem C67_restart {cfg : Cfg} {G : Cache → Prop} {chain : List WTx} {c c' : Cache} (h : Run cfg G chain c) {best : Nat} {l : List WTx} (hl : Stored c l)
    (hu : ∀ t, c.Knows t → Undisputed c t) (hr : reload cfg best l = .ok c') (keep : Option (Nat × Nat) → OutPoint × Out → Bool) (x : OutPoint × Out) :
    x ∈ utxos c' onlyConfirmed keep ↔ x ∈ utxos c onlyConfirmed keep := by
  have hi := h.inv
  obtain ⟨a1, a2, a3⟩ := reload_effect Class.confirmed hl hr hu
  have hkn : ∀ t, t.state.IsConfirmed → (c'.Knows t ↔ c.Knows t) := by
    intro t hc
    rw [a3 t, ← reset_knows, reset_knows_confirmed hc]
  have hcons : isConsumed c' onlyConfirmed x.1 = isConsumed c onlyConfirmed x.1 := by
    rw [Bool.eq_iff_iff, isConsumed_iff a2 onlyConfirmed_iff, isConsumed_iff hi.tracks onlyConfirmed_iff]
    constructor
    · rintro ⟨t, h1, h2, h3⟩
      exact ⟨t, (hkn t h2).1 h1, h2, h3⟩
    · rintro ⟨t, h1, h2, h3⟩
      exact ⟨t, (hkn t h2).2 h1, h2, h3⟩
  rw [mem_utxos a1, mem_utxos hi.keyed, hcons]
  constructor
  · rintro ⟨t, h1, h2, h3⟩
    exact ⟨t, (hkn t ((onlyConfirmed_iff _).1 h2)).1 h1, h2, h3⟩
  · rintro ⟨t, h1, h2, h3⟩
    exact ⟨t, (hkn t ((onlyConfirmed_iff _).1 h2)).2 h1, h2, h3⟩

theorem reset_live (s : St) : s.reset.IsLive ↔ s.IsLive := by cases s <;> simp [St.reset, St.IsLive]

theorem reset_block (t : WTx) : ({ t with state := t.state.reset } : WTx).block = t.block := by
  rcases t with ⟨_, _, s, _, _⟩
  cases s <;> rfl

/-- **C67**: the same for the outputs listed for spending -/
theorem C67_restart_spendable {cfg : Cfg} {chain : List WTx} {c c' : Cache} (h : Run cfg NoDoubleSpend chain c) {best : Nat} {l : List WTx} (hl : Stored c l)
    (hr : reload cfg best l = .ok c') (keep : Option (Nat × Nat) → OutPoint × Out → Bool) (x : OutPoint × Out) :
    x ∈ utxos c' live keep ↔ x ∈ utxos c live keep := by
  obtain ⟨a1, a2, a3⟩ := reload_effect Class.live hl hr (fun t ht => h.live.2.free _ ht)
  have hcons : isConsumed c' live x.1 = isConsumed c live x.1 := by
    rw [Bool.eq_iff_iff, isConsumed_iff a2 live_iff, isConsumed_iff h.live.1 live_iff]
    constructor
    · rintro ⟨e, h1, h2, h3⟩
      obtain ⟨t, h4, rfl⟩ := (a3 e).1 h1
      exact ⟨t, h4, (reset_live _).1 h2, h3⟩
    · rintro ⟨t, h1, h2, h3⟩
      exact ⟨_, (a3 _).2 ⟨t, h1, rfl⟩, (reset_live _).2 h2, h3⟩
  rw [mem_utxos a1, mem_utxos h.inv.keyed, hcons]
  constructor
  · rintro ⟨e, h1, h2, h3, h4, h5⟩
    obtain ⟨t, h6, rfl⟩ := (a3 e).1 h1
    rw [reset_block] at h5
    exact ⟨t, h6, (live_iff _).2 ((reset_live _).1 ((live_iff _).1 h2)), h3, h4, h5⟩
  · rintro ⟨t, h1, h2, h3, h4, h5⟩
    refine ⟨{ t with state := t.state.reset }, (a3 _).2 ⟨t, h1, rfl⟩, (live_iff _).2 ((reset_live _).2 ((live_iff _).1 h2)), h3, h4, ?_⟩
    rw [reset_block]
    exact h5

/-- **C68**: when a transaction is abandoned or loses against the chain, everything that depends on it goes with it: no waiting transaction spends an output of one that was given up -/
theorem C68_no_orphans {cfg : Cfg} {c : Cache} (h : Calm cfg c) {t p : WTx} (ht : c.Knows t) (hp : c.Knows p) (hw : t.state.IsPending) {o : OutPoint} (hs : t.Spends o) (ho : (ofLex o).1 = p.id) :
    p.state.IsLive := by
  by_contra hd
  refine pending_alive (h.linked.link t p ht hp hw ?_ o hs ho).1 hd
  revert hd
  cases p.state <;> simp [St.IsLive, St.isUnconfirmed]

/-- **C68**: abandoning succeeds only by giving the transaction up; every other transaction stays as it is or is an unconfirmed one that is given up, with the same contents -/
theorem C68_abandon {cfg : Cfg} {c c' : Cache} {id : Nat} (h : abandon cfg c id = .ok c') :
    (∃ e, c'.txs.get id = some e ∧ e.state.IsDead) ∧
    (∀ i, (c'.txs.get i).isSome = (c.txs.get i).isSome) ∧
    ∀ i e e', c.txs.get i = some e → c'.txs.get i = some e' →
      e' = e ∨ (¬ e.state.IsConfirmed ∧ e'.state.IsDead ∧ e'.id = e.id ∧ e'.inputs = e.inputs ∧ e'.outputs = e.outputs) := by
  obtain ⟨hk, hd⟩ := abandon_kill h
  refine ⟨hd, ?_, ?_⟩
  · intro i
    rcases hk.txs i with h1 | ⟨e, d, h1, _, h3, _⟩
    · rw [h1]
    · rw [h1, h3]; rfl
  · intro i e e' h1 h2
    rcases hk.txs i with h3 | ⟨e1, d, h3, h4, h5, h6⟩
    · rw [h1, h2] at h3
      exact .inl (Option.some.inj h3)
    · rw [h1] at h3
      rw [h2] at h5
      cases h3
      cases h5
      refine .inr ⟨?_, h6, rfl, rfl, rfl⟩
      rw [confirmed_unconfirmed, h4]
      exact Bool.noConfusion

/-! ### Histories -/

/-- one key, 1 -/
def cfg1 : Cfg := { mine := fun d => d = 1, watched := fun _ => false, v1At := fun _ => true }

/-- a transfer to a destination -/
def pay (dest : Nat) : Out := { kind := .plain, dests := [dest] }

/-- outputs to the key -/
def own : Option (Nat × Nat) → OutPoint × Out → Bool := fun _ x => decide (x.2.dests = [1])

theorem own_seen (b : Option (Nat × Nat)) (x : OutPoint × Out) (h : own b x = true) : seen cfg1 x.2.dests = true := by
  have h1 : x.2.dests = [1] := by simpa [own] using h
  rw [h1]
  rfl

def op (t i : Nat) : OutPoint := toLex (t, i)

def tx (id : Nat) (s : St) (inputs : List Inp) (outputs : List Out) : WTx := { id := id, state := s, inputs := inputs, outputs := outputs }

/-- the outputs listed, by their outpoints -/
def listed (c : Cache) (states : Kind → Bool) : List (Nat × Nat) := (utxos c states own).map fun x => ofLex x.1

/-- a state of a transaction -/
def stateOf (c : Cache) (id : Nat) : Option St := (c.txs.get id).map (·.state)

/-- a block reward and two transactions; one of these is replaced in a reorganisation, one is in the mempool, one is made by the user and abandoned, and the wallet is restarted in the middle -/
def history : List Op :=
  [.connect { id := 100, isBlock := true, state := .confirmed 0 0 0, inputs := [], outputs := [pay 1, pay 1, pay 1, pay 2] } 100,
   .connect (tx 1 (.confirmed 1 5 0) [.utxo (op 100 0)] [pay 2, pay 1]) 101,
   .connect (tx 2 (.confirmed 2 6 0) [.utxo (op 1 1)] [pay 1]) 102,
   .unconfirmed (tx 3 (.inMempool 0) [.utxo (op 2 0)] [pay 1, pay 7]),
   .cut 1,
   .connect (tx 4 (.confirmed 2 7 0) [.utxo (op 1 1)] [pay 3, pay 1]) 103,
   .unconfirmed (tx 5 (.inactive 0) [.utxo (op 100 1)] [pay 1]),
   .unconfirmed (tx 6 (.inactive 1) [.utxo (op 5 0)] [pay 9]),
   .restart,
   .abandon 5,
   .unconfirmed (tx 7 (.inMempool 2) [.utxo (op 100 2), .utxo (op 4 1)] [pay 1]),
   .offline]

/-- what a history that `Run` allows ends in -/
def endsIn (strict : Bool) (ops : List Op) (p : List WTx → Cache → Bool) : Bool := match execAll cfg1 strict ops with
  | some s => p s.1 s.2
  | none => false

theorem endsIn_spec {ops : List Op} {p : List WTx → Cache → Bool} (h : endsIn true ops p = true) : ∃ chain c, Run cfg1 NoDoubleSpend chain c ∧ p chain c = true := by
  unfold endsIn at h
  cases he : execAll cfg1 true ops with
  | none => rw [he] at h; cases h
  | some s =>
    rw [he] at h
    exact ⟨s.1, s.2, execAll_strict he, h⟩

theorem endsIn_spec' {ops : List Op} {p : List WTx → Cache → Bool} (h : endsIn false ops p = true) : ∃ chain c, Run cfg1 (fun _ => True) chain c ∧ p chain c = true := by
  unfold endsIn at h
  cases he : execAll cfg1 false ops with
  | none => rw [he] at h; cases h
  | some s =>
    rw [he] at h
    exact ⟨s.1, s.2, (execAll_sound he).mono fun _ _ => trivial, h⟩

/-- the history is one the theorems speak of -/
theorem C67_history : ∃ chain c, Run cfg1 NoDoubleSpend chain c ∧
    (decide (chain.map (·.id) = [100, 1, 4]) && decide (listed c onlyConfirmed = [(4, 1), (100, 1), (100, 2)]) && decide (listed c live = [(3, 0), (7, 0), (100, 1)])) = true :=
  endsIn_spec (ops := history) (by decide +kernel)

/-- a disputed output: two transactions of the wallet, one of which is confirmed – what `C67_confirmed` still covers -/
def disputed : List Op :=
  [.connect { id := 100, isBlock := true, state := .confirmed 0 0 0, inputs := [], outputs := [pay 1, pay 1] } 100,
   .unconfirmed (tx 1 (.inactive 0) [.utxo (op 100 0)] [pay 1]),
   .connect (tx 2 (.confirmed 1 5 0) [.utxo (op 100 0)] [pay 2]) 101]

theorem C67_history_disputed : ∃ chain c, Run cfg1 (fun _ => True) chain c ∧
    (decide (chain.map (·.id) = [100, 2]) && decide (listed c onlyConfirmed = [(100, 1)])) = true :=
  endsIn_spec' (ops := disputed) (by decide +kernel)

/-- a calm history: a chain of three waiting transactions, the middle one of which is abandoned -/
def calmHistory : List Op :=
  [.connect { id := 100, isBlock := true, state := .confirmed 0 0 0, inputs := [], outputs := [pay 1, pay 1] } 100,
   .unconfirmed (tx 1 (.inMempool 0) [.utxo (op 100 0)] [pay 1, pay 1]),
   .unconfirmed (tx 2 (.inactive 1) [.utxo (op 1 0)] [pay 1]),
   .unconfirmed (tx 3 (.inactive 2) [.utxo (op 2 0)] [pay 5]),
   .offline,
   .abandon 2]

def calmEnd (ops : List Op) (p : Cache → Bool) : Bool := match ops.foldlM (execCalm cfg1) {} with
  | some c => p c
  | none => false

theorem calmEnd_spec {ops : List Op} {p : Cache → Bool} (h : calmEnd ops p = true) : ∃ c, Calm cfg1 c ∧ p c = true := by
  unfold calmEnd at h
  cases he : ops.foldlM (execCalm cfg1) {} with
  | none => rw [he] at h; cases h
  | some c =>
    rw [he] at h
    exact ⟨c, execCalm_all .start he, h⟩

theorem C68_history : ∃ c, Calm cfg1 c ∧
    (decide (stateOf c 1 = some (.inactive 0)) && decide (stateOf c 2 = some .abandoned) && decide (stateOf c 3 = some .abandoned) &&
      decide (listed c live = [(1, 0), (1, 1), (100, 1)])) = true :=
  calmEnd_spec (ops := calmHistory) (by decide +kernel)

/-! ### Outside of the limits

What the code does with disputed outputs, and other histories that the theorems do not cover.  All of them are histories any user can have. -/

def reward : Op := .connect { id := 100, isBlock := true, state := .confirmed 0 0 0, inputs := [], outputs := [pay 1, pay 1] } 100

/-- what is true of the cache after some steps -/
def after (ops : List Op) (p : Cache → Bool) : Bool := okAnd (runAll cfg1 ops) p

/-- the user abandons a transaction and sends another one that spends the same output, which gets into a block.  After the next start the spent output is listed again, as confirmed and for spending: the
abandoned transaction is loaded last and its state replaces the one of the output. -/
theorem C67_witness_restart :
    let ops := [reward, .unconfirmed (tx 1 (.inactive 0) [.utxo (op 100 0)] [pay 2]), .abandon 1, .connect (tx 2 (.confirmed 1 5 0) [.utxo (op 100 0)] [pay 2]) 101]
    after ops (fun c => decide (listed c onlyConfirmed = [(100, 1)])) = true ∧
    after (ops ++ [.restart]) (fun c => decide (listed c onlyConfirmed = [(100, 0), (100, 1)]) && decide (listed c live = [(100, 0), (100, 1)])) = true := by
  decide +kernel

/-- a waiting transaction spends an output that another one, in a block, spends too (of the same keys on another device): abandoning the waiting one makes the spent output appear again -/
theorem C67_witness_abandon :
    let ops := [reward, .unconfirmed (tx 1 (.inactive 0) [.utxo (op 100 0)] [pay 2]), .connect (tx 2 (.confirmed 1 5 0) [.utxo (op 100 0)] [pay 2]) 101]
    after ops (fun c => decide (listed c onlyConfirmed = [(100, 1)])) = true ∧
    after (ops ++ [.abandon 1]) (fun c => decide (listed c onlyConfirmed = [(100, 0), (100, 1)])) = true := by
  decide +kernel

/-- a transaction that can no longer get into a block, because another one spent its input there, is not marked as conflicted: its change is listed for spending -/
theorem C67_witness_double_spend :
    after [reward, .unconfirmed (tx 1 (.inactive 0) [.utxo (op 100 0)] [pay 1]), .connect (tx 2 (.confirmed 1 5 0) [.utxo (op 100 0)] [pay 2]) 101]
      (fun c => decide (stateOf c 1 = some (.inactive 0)) && decide (listed c live = [(1, 0), (100, 1)])) = true := by
  decide +kernel

/-- the delegation 50, of the key 1 -/
def delegation : Op := .connect (tx 9 (.confirmed 0 1 0) [] [{ kind := .createDelegation 50, dests := [1] }]) 90

/-- what a history fails with -/
def failsWith (ops : List Op) (e : Err) : Bool := match runAll cfg1 ops with
  | .error e' => decide (e' = e)
  | .ok _ => false

/-- two withdrawals from a delegation with the same nonce, one in a block, which makes the other one conflicted: the wallet cannot be opened any more – the conflicted one is loaded as if it counted -/
theorem C68_witness_unloadable :
    let ops := [reward, delegation, .unconfirmed (tx 1 (.inMempool 0) [.deleg 50 0] [pay 1]), .connect (tx 2 (.confirmed 1 5 0) [.deleg 50 0] [pay 1]) 101]
    after ops (fun c => decide (stateOf c 1 = some (.conflicted 101)) && decide (stateOf c 2 = some (.confirmed 1 5 0))) = true ∧
    failsWith (ops ++ [.restart]) (.delegNonce 50 0) = true := by
  decide +kernel

/-- an abandoned withdrawal is loaded as if it counted; the next one that is confirmed takes it for one of those it is in conflict with, which fails, so that the wallet cannot scan the block -/
theorem C68_witness_stuck :
    let ops := [reward, delegation, .unconfirmed (tx 1 (.inactive 0) [.deleg 50 0] [pay 1]), .abandon 1]
    let next := Op.connect (tx 2 (.confirmed 1 5 0) [.deleg 50 0] [pay 1]) 101
    after (ops ++ [next]) (fun c => decide (stateOf c 2 = some (.confirmed 1 5 0))) = true ∧
    failsWith (ops ++ [.restart, next]) (.cannotConflict .abandoned) = true := by
  decide +kernel

/-- the order the stored transactions are sorted by is none: two waiting transactions are in order while both equal an abandoned one -/
theorem C67_witness_order :
    txOrder (tx 1 (.inactive 2) [] []) (tx 2 .abandoned [] []) = .eq ∧ txOrder (tx 2 .abandoned [] []) (tx 3 (.inactive 1) [] []) = .eq ∧
    txOrder (tx 1 (.inactive 2) [] []) (tx 3 (.inactive 1) [] []) = .gt := by
  decide +kernel

/-- the token 70, with the authority 1 -/
def issuance : Op := .connect (tx 8 (.confirmed 0 1 1) [] [{ kind := .issue 70 70, dests := [1] }]) 90

/-- freezing a token: when the transaction gets into a block, it is taken for one that is in conflict with itself, and a payment that spends its change is marked as conflicted – although nothing is
wrong with it and it is in the mempool.  The change is listed for spending again. -/
theorem C68_witness_freeze :
    let ops := [reward, issuance, .unconfirmed (tx 1 (.inMempool 0) [.utxo (op 100 0), .token 70 0 .freeze] [pay 1]), .unconfirmed (tx 2 (.inMempool 1) [.utxo (op 1 0)] [pay 5])]
    after ops (fun c => decide (listed c live = [(8, 0), (100, 1)])) = true ∧
    after (ops ++ [.connect (tx 1 (.confirmed 1 5 0) [.utxo (op 100 0), .token 70 0 .freeze] [pay 1]) 101])
      (fun c => decide (stateOf c 1 = some (.confirmed 1 5 0)) && decide (stateOf c 2 = some (.conflicted 101)) && decide (listed c live = [(1, 0), (8, 0), (100, 1)])) = true := by
  decide +kernel

/-- after a reorganisation a withdrawal that was waiting behind another one does not count when it is confirmed; the one after it cannot be scanned -/
theorem C68_witness_reorg :
    let a := fun h t => Op.connect (tx 1 (.confirmed h t 0) [.deleg 50 0] [pay 1]) 101
    let ops := [reward, delegation, a 1 5, .unconfirmed (tx 2 (.inactive 0) [.deleg 50 1] [pay 1]), .cut 0, a 1 6, .connect (tx 2 (.confirmed 2 7 0) [.deleg 50 1] [pay 1]) 102]
    after ops (fun c => decide ((c.delegs.get 50).map (·.lastNonce) = some (some 0)) && decide (stateOf c 2 = some (.confirmed 2 7 0))) = true ∧
    failsWith (ops ++ [.connect (tx 3 (.confirmed 3 8 0) [.deleg 50 2] [pay 1]) 103]) (.delegNonce 50 2) = true := by
  decide +kernel

/-- a transaction that is confirmed, taken back by a reorganisation and waiting again is not linked to the one that spends its output: abandoning it leaves that one waiting -/
theorem C68_witness_orphan :
    after [reward, .connect (tx 1 (.confirmed 1 5 0) [.utxo (op 100 0)] [pay 1]) 101, .unconfirmed (tx 2 (.inactive 0) [.utxo (op 1 0)] [pay 5]), .cut 0,
      .unconfirmed (tx 1 (.inMempool 0) [.utxo (op 100 0)] [pay 1]), .offline, .abandon 1]
      (fun c => decide (stateOf c 1 = some .abandoned) && decide (stateOf c 2 = some (.inactive 0))) = true := by
  decide +kernel

/-- transactions are undone in the reverse of the order in which the walk meets them, which need not be the order of their nonces: two minting transactions that both spend from a waiting one, the second
having the smaller id.  After the first transaction is abandoned none of the nonces 0 and 1 is used, but the wallet goes on with nonce 1, which the node refuses; with the ids exchanged it goes
on with nonce 0. -/
theorem C68_witness_undo_order :
    let ops := fun a b => [reward, issuance, .unconfirmed (tx 1 (.inactive 0) [.utxo (op 100 0)] [pay 1, pay 1]), .unconfirmed (tx a (.inactive 1) [.utxo (op 1 0), .token 70 0 .mint] [pay 1]),
      .unconfirmed (tx b (.inactive 2) [.utxo (op 1 1), .token 70 1 .mint] [pay 1]), .abandon 1]
    after (ops 3 2) (fun c => decide ((c.tokens.get 70).map (·.lastNonce) = some (some 0)) && decide ([1, 2, 3].map (stateOf c) = [some .abandoned, some .abandoned, some .abandoned])) = true ∧
    after (ops 2 3) (fun c => decide ((c.tokens.get 70).map (·.lastNonce) = some none)) = true := by
  decide +kernel

end Verif.Cache
