import Verif.Scanner.Examples

/-! C74: what the web API says about an address follows the chain. -/

namespace Verif.Scanner

open Verif Ledger

set_option maxRecDepth 100000

/-- the chain that a history of calls leads to -/
def chainOf (calls : List (Nat × List Block)) : List Block := calls.foldl follow []

theorem sum_eq_iff {l : List Entry} {f k : Entry → Nat} (h : ∀ e ∈ l, k e ≤ f e) : (l.map f).sum = (l.map k).sum ↔ ∀ e ∈ l, f e = k e := by
  induction l with
  | nil => simp
  | cons e l ih =>
    have h1 := h e List.mem_cons_self
    have h2 := sum_le_sum fun x hx => h x (List.mem_cons_of_mem _ hx)
    have h3 := ih fun x hx => h x (List.mem_cons_of_mem _ hx)
    rw [List.map_cons, List.map_cons, List.sum_cons, List.sum_cons, List.forall_mem_cons, ← h3]
    omega

theorem inv_run {g : Genesis} {calls : List (Nat × List Block)} (hg : ValidChain g []) (hc : ValidCalls g [] calls) :
    ∃ db, run g calls = .ok db ∧ Inv db (Ledger.chain g (chainOf calls)) := by
  obtain ⟨d, a1, -⟩ := inv_chain hg
  have a0 : scanGenesis g = .ok d := by
    obtain ⟨d', b1, b2⟩ := bind_eq_ok.1 a1
    cases b2; exact b1
  obtain ⟨h1, h2⟩ := run_from calls hg a1 hc
  obtain ⟨d', b1, b2⟩ := inv_chain h2
  refine ⟨d', ?_, b2⟩
  unfold run
  rw [a0]
  change calls.foldlM _ d = _
  rw [h1]; exact b1

/-- **C74.** The scanner never aborts on chains that the node accepts, however it changes between them, and its tables are then – row by
row – those of a scanner that has only seen the last chain. -/
theorem C74_reorg {g : Genesis} {calls : List (Nat × List Block)} (hg : ValidChain g []) (hc : ValidCalls g [] calls) :
    ∃ db, run g calls = .ok db ∧ run g [(0, chainOf calls)] = .ok db := by
  obtain ⟨d, a1, -⟩ := inv_chain hg
  have a0 : scanGenesis g = .ok d := by
    obtain ⟨d', b1, b2⟩ := bind_eq_ok.1 a1
    cases b2; exact b1
  obtain ⟨h1, h2⟩ := run_from calls hg a1 hc
  have hc' : ValidCalls g [] [(0, chainOf calls)] := ⟨Nat.le_refl _, by unfold follow; exact h2, trivial⟩
  obtain ⟨h3, -⟩ := run_from [(0, chainOf calls)] hg a1 hc'
  obtain ⟨d', b1, -⟩ := inv_chain h2
  refine ⟨d', ?_, ?_⟩
  · unfold run; rw [a0]
    change calls.foldlM _ d = _
    rw [h1]; exact b1
  · unfold run; rw [a0]
    exact h3.trans b1

/-- **C74.** The balances: the unspent outputs of transactions, locked or not, each counted where it belongs, and all outputs of block
rewards. -/
theorem C74_balances {g : Genesis} {calls : List (Nat × List Block)} (hg : ValidChain g []) (hc : ValidCalls g [] calls) {db : Db}
    (hr : run g calls = .ok db) (a : Addr) (c : Cur) :
    (db.balance a c).getD 0 = (Ledger.chain g (chainOf calls)).available a c + (Ledger.chain g (chainOf calls)).paid a c ∧
    (db.lockedBalance a c).getD 0 = (Ledger.chain g (chainOf calls)).locked a c := by
  obtain ⟨d, a1, a2⟩ := inv_run hg hc
  rw [hr] at a1
  cases a1
  exact ⟨a2.rel.bal a c, a2.rel.lbal a c⟩

/-- **C74.** The balance is what the unspent outputs are worth that are not locked exactly if no output of a block reward to the address
has been spent or is locked. -/
theorem C74_balance_is_unspent {g : Genesis} {calls : List (Nat × List Block)} (hg : ValidChain g []) (hc : ValidCalls g [] calls) {db : Db}
    (hr : run g calls = .ok db) (a : Addr) (c : Cur) :
    (db.balance a c).getD 0 = (Ledger.chain g (chainOf calls)).unspent a c ↔
      ∀ e ∈ (Ledger.chain g (chainOf calls)).outs, e.reward = true → worth e.out a c ≠ 0 →
        e.op ∉ (Ledger.chain g (chainOf calls)).spent ∧ Free (Ledger.chain g (chainOf calls)).h (Ledger.chain g (chainOf calls)).m e := by
  rw [(C74_balances hg hc hr a c).1]
  generalize Ledger.chain g (chainOf calls) = L
  have h1 : L.available a c + L.paid a c = (L.outs.map fun e =>
      (if e.reward = false ∧ e.op ∉ L.spent ∧ Free L.h L.m e then worth e.out a c else 0) + if e.reward = true then worth e.out a c else 0).sum :=
    (sum_split fun _ _ => rfl).symm
  rw [h1]
  unfold Ledger.unspent
  rw [sum_eq_iff]
  · refine forall₂_congr fun e _ => ?_
    cases e.reward
    · simp
    · by_cases hw : worth e.out a c = 0
      · simp [hw]
      · by_cases h2 : e.op ∈ L.spent
        · simp [hw, h2]
        · by_cases h3 : Free L.h L.m e <;> simp [hw, h2, h3]
  · intro e _
    cases e.reward
    · simp
    · simp only [Bool.true_eq_false, false_and, if_false, if_true, Nat.zero_add]
      split <;> omega

/-- **C74.** The list of spendable outputs of an address: every unspent output of its own that is not locked (for outputs of block
rewards: every unspent one), once. -/
theorem C74_available_utxos {g : Genesis} {calls : List (Nat × List Block)} (hg : ValidChain g []) (hc : ValidCalls g [] calls) {db : Db}
    (hr : run g calls = .ok db) (a : Addr) :
    (∀ o out, (o, out) ∈ db.availableUtxos a ↔ ∃ e ∈ (Ledger.chain g (chainOf calls)).outs, e.op = o ∧ e.out = out ∧ a ∈ owners out ∧
      o ∉ (Ledger.chain g (chainOf calls)).spent ∧
      (e.reward = true ∨ Free (Ledger.chain g (chainOf calls)).h (Ledger.chain g (chainOf calls)).m e)) ∧
    ((db.availableUtxos a).map (·.1)).Nodup ∧ ∀ r ∈ db.links, (db.getUtxo r.2).isSome := by
  obtain ⟨d, a1, a2⟩ := inv_run hg hc
  rw [hr] at a1
  cases a1
  have hrel := a2.rel
  refine ⟨?_, ?_, ?_⟩
  · intro o out
    unfold Db.availableUtxos
    simp only [List.mem_filterMap, List.mem_filter, decide_eq_true_eq]
    constructor
    · rintro ⟨⟨a', o'⟩, ⟨h1, h2⟩, h3⟩
      dsimp only at h2 h3
      subst h2
      split at h3
      · rename_i out' heq
        cases h3
        obtain ⟨e, e1, e2, e3, e4, e5⟩ := (hrel.links _ _).1 h1
        obtain ⟨e', f1, f2, f3, f4, f5, f6⟩ := hrel.uA _ _ heq
        have := uniq_eq hrel.uniq e1 f1 (e2.trans f2.symm)
        subst this
        dsimp only at f3 f6
        exact ⟨e, e1, e2, f3.symm, by rw [f3]; exact e5, fun h => (f6.2 h) rfl, e4⟩
      · cases h3
    · rintro ⟨e, e1, e2, e3, e4, e5, e6⟩
      have ho : e.out ≠ .other := by
        intro h; rw [← e3, h] at e4; cases e4
      refine ⟨(a, o), ⟨(hrel.links _ _).2 ⟨e, e1, e2, ho, e6, by rw [e3]; exact e4⟩, rfl⟩, ?_⟩
      obtain ⟨x, hx⟩ := hrel.uB e e1 ho e6
      rw [e2] at hx
      obtain ⟨e', f1, f2, f3, f4, f5, f6⟩ := hrel.uA _ _ hx
      have := uniq_eq hrel.uniq e1 f1 (e2.trans f2.symm)
      subst this
      have hx2 : x.2 = none := by
        by_contra hne
        exact e5 (f6.1 hne)
      obtain ⟨x1, x2⟩ := x
      dsimp only at f3 hx2
      subst hx2
      change (match db.utxo.last o with | some (out, none) => some (o, out) | _ => none) = _
      rw [hx, f3, e3]
  · unfold Db.availableUtxos
    rw [List.map_filterMap]
    have h1 : ((db.links.filter fun r => r.1 = a).map (·.2)).Nodup := by
      refine (List.Nodup.filter _ hrel.linksNodup).map_on ?_
      rintro ⟨x1, x2⟩ hx ⟨y1, y2⟩ hy hxy
      have e1 : x1 = a := by simpa using (List.mem_filter.1 hx).2
      have e2 : y1 = a := by simpa using (List.mem_filter.1 hy).2
      dsimp only at hxy
      rw [e1, e2, hxy]
    refine List.Nodup.sublist ?_ h1
    generalize db.links.filter (fun r => r.1 = a) = l
    induction l with
    | nil => exact List.Sublist.slnil
    | cons r l ih =>
      rw [List.filterMap_cons, List.map_cons]
      split
      · exact List.Sublist.cons _ ih
      · rename_i y heq
        have : y = r.2 := by
          split at heq
          · cases heq; rfl
          · cases heq
        rw [this]
        exact ih.cons_cons _
  · intro r hr'
    obtain ⟨e, e1, e2, e3, e4, -⟩ := (hrel.links r.1 r.2).1 hr'
    obtain ⟨x, hx⟩ := hrel.uB e e1 e3 e4
    rw [← e2]
    change (db.utxo.last e.op).isSome = true
    rw [hx]; rfl

/-- **C74.** The list of all outputs of an address: every unspent output of its own, locked or not, once. -/
theorem C74_all_utxos {g : Genesis} {calls : List (Nat × List Block)} (hg : ValidChain g []) (hc : ValidCalls g [] calls) {db : Db}
    (hr : run g calls = .ok db) (a : Addr) :
    (∀ o out, (o, out) ∈ db.allUtxos a ↔ ∃ e ∈ (Ledger.chain g (chainOf calls)).outs, e.op = o ∧ e.out = out ∧ a ∈ owners out ∧
      o ∉ (Ledger.chain g (chainOf calls)).spent) ∧
    ((db.allUtxos a).map (·.1)).Nodup := by
  obtain ⟨d, a1, a2⟩ := inv_run hg hc
  rw [hr] at a1
  cases a1
  have hrel := a2.rel
  generalize Ledger.chain g (chainOf calls) = L at hrel
  -- what a key of the union gives
  have hA : ∀ o x, db.getUtxo o = some x → ∃ e ∈ L.outs, e.op = o ∧ x.1 = e.out ∧ e.out ≠ .other ∧ Open L e ∧ (x.2 ≠ none ↔ o ∈ L.spent) := hrel.uA
  refine ⟨?_, ?_⟩
  · intro o out
    unfold Db.allUtxos
    simp only [List.mem_filterMap, List.mem_union_iff, List.mem_map, List.mem_filter, decide_eq_true_eq]
    constructor
    · rintro ⟨o', h1, h3⟩
      have hown : ∃ e ∈ L.outs, e.op = o' ∧ a ∈ owners e.out := by
        rcases h1 with ⟨⟨a', o''⟩, ⟨h1, h2⟩, rfl⟩ | ⟨⟨a', o''⟩, ⟨h1, h2⟩, rfl⟩
        · dsimp only at h2; subst h2
          obtain ⟨e, e1, e2, -, -, e5⟩ := (hrel.links _ _).1 h1
          exact ⟨e, e1, e2, e5⟩
        · dsimp only at h2; subst h2
          obtain ⟨e, e1, e2, -, e5⟩ := (hrel.llinks _ _).1 h1
          exact ⟨e, e1, e2, e5⟩
      obtain ⟨e, e1, e2, e3⟩ := hown
      split at h3
      · rename_i out' heq
        cases h3
        obtain ⟨e', f1, f2, f3, f4, f5, f6⟩ := hA _ _ heq
        have := uniq_eq hrel.uniq e1 f1 (e2.trans f2.symm)
        subst this
        dsimp only at f3 f6
        exact ⟨e, e1, e2, f3.symm, by rw [f3]; exact e3, fun h => (f6.2 h) rfl⟩
      · cases h3
      · rename_i heq
        rw [Option.map_eq_some_iff] at h3
        obtain ⟨x, hx, h4⟩ := h3
        cases h4
        obtain ⟨e', f1, f2, f3, f4, -⟩ := hrel.kA _ _ hx
        have := uniq_eq hrel.uniq e1 f1 (e2.trans f2.symm)
        subst this
        refine ⟨e, e1, e2, f3.symm, by rw [f3]; exact e3, fun hs => ?_⟩
        have ho : e.out ≠ .other := by
          obtain ⟨v, dd, lk, h⟩ := locked_kind f4.2
          rw [h]; nofun
        obtain ⟨y, hy⟩ := hrel.uB e e1 ho (hrel.spentOpen e e1 (by rw [e2]; exact hs))
        rw [e2] at hy
        rw [Db.getUtxo, hy] at heq
        cases heq
    · rintro ⟨e, e1, e2, e3, e4, e5⟩
      have ho : e.out ≠ .other := by
        intro h; rw [← e3, h] at e4; cases e4
      by_cases hop : Open L e
      · refine ⟨o, Or.inl ⟨(a, o), ⟨(hrel.links _ _).2 ⟨e, e1, e2, ho, hop, by rw [e3]; exact e4⟩, rfl⟩, rfl⟩, ?_⟩
        obtain ⟨x, hx⟩ := hrel.uB e e1 ho hop
        rw [e2] at hx
        obtain ⟨e', f1, f2, f3, f4, f5, f6⟩ := hrel.uA _ _ hx
        have := uniq_eq hrel.uniq e1 f1 (e2.trans f2.symm)
        subst this
        have hx2 : x.2 = none := by
          by_contra hne
          exact e5 (f6.1 hne)
        obtain ⟨x1, x2⟩ := x
        dsimp only at f3 hx2
        subst hx2
        have hx' : db.getUtxo o = some (x1, none) := hx
        rw [hx', f3, e3]
      · have hheld : Held e := by
          refine ⟨by rcases hrw : e.reward with _ | _; rfl; exact absurd (Or.inl hrw) hop, fun hf => hop (Or.inr ?_)⟩
          exact hf.mono (hrel.tip e e1).1 (hrel.tip e e1).2
        refine ⟨o, Or.inr ⟨(a, o), ⟨(hrel.llinks _ _).2 ⟨e, e1, e2, hheld, by rw [e3]; exact e4⟩, rfl⟩, rfl⟩, ?_⟩
        have hnone : db.getUtxo o = none := by
          cases hg' : db.getUtxo o with
          | none => rfl
          | some y =>
            obtain ⟨e', f1, f2, -, -, f5, -⟩ := hA _ _ hg'
            have := uniq_eq hrel.uniq e1 f1 (e2.trans f2.symm)
            subst this
            exact absurd f5 hop
        rw [hnone]
        obtain ⟨x, hx⟩ := hrel.kB e e1 hheld
        rw [e2] at hx
        obtain ⟨e', f1, f2, f3, -⟩ := hrel.kA _ _ hx
        have := uniq_eq hrel.uniq e1 f1 (e2.trans f2.symm)
        subst this
        simp [hx, f3, e3]
  · unfold Db.allUtxos
    rw [List.map_filterMap]
    have h1 : ((db.links.filter fun r => r.1 = a).map (·.2) ∪ (db.llinks.filter fun r => r.1 = a).map (·.2)).Nodup := by
      refine List.Nodup.union _ ?_
      refine (List.Nodup.filter _ hrel.llinksNodup).map_on ?_
      rintro ⟨x1, x2⟩ hx ⟨y1, y2⟩ hy hxy
      have e1 : x1 = a := by simpa using (List.mem_filter.1 hx).2
      have e2 : y1 = a := by simpa using (List.mem_filter.1 hy).2
      dsimp only at hxy
      rw [e1, e2, hxy]
    refine List.Nodup.sublist ?_ h1
    generalize (db.links.filter fun r => r.1 = a).map (·.2) ∪ (db.llinks.filter fun r => r.1 = a).map (·.2) = l
    induction l with
    | nil => exact List.Sublist.slnil
    | cons r l ih =>
      rw [List.filterMap_cons]
      split
      · exact List.Sublist.cons _ ih
      · rename_i y heq
        have : y = r := by
          split at heq
          · cases heq; rfl
          · cases heq
          · rw [Option.map_map, Option.map_eq_some_iff] at heq
            obtain ⟨_, _, h⟩ := heq
            exact h.symm
        rw [this]
        exact ih.cons_cons _

/-! ## Concrete cases -/

/-- what the four blocks leave -/
example : okAnd (run gen [(0, [blk1, blk2]), (2, [blk3, blk4])]) (fun db =>
    db.balance 2 .coin = some 0 ∧ db.balance 2 (.token 5) = some 1 ∧ db.balance 3 .coin = some 80 ∧ db.balance 3 (.token 6) = some 20 ∧
    db.lockedBalance 3 .coin = some 0 ∧ db.lockedBalance 4 .coin = some 149 ∧ (db.availableUtxos 4).map (·.1) = [⟨.tx 11, 1⟩] ∧
    (db.allUtxos 4).map (·.1) = [⟨.tx 11, 1⟩, ⟨.tx 12, 0⟩] ∧ (db.availableUtxos 3).map (·.1) = [⟨.tx 13, 0⟩, ⟨.tx 13, 1⟩]) = true := by
  decide +kernel

/-- and what the change of the chain leaves -/
example : okAnd (run gen calls) (fun db =>
    db.balance 2 .coin = some 300 ∧ db.balance 2 (.token 5) = none ∧ db.balance 3 .coin = none ∧ db.lockedBalance 3 .coin = some 200 ∧
    db.balance 4 .coin = some 390 ∧ (db.allUtxos 3).map (·.1) = [⟨.tx 10, 1⟩] ∧ db.availableUtxos 3 = []) = true := by decide +kernel

example : ∃ db, run gen calls = .ok db ∧ run gen [(0, [blk1, blk2'])] = .ok db := C74_reorg gen_valid calls_valid

/-- the right-hand side of `C74_balance_is_unspent` holds of address 4 (and not of address 1, see below) -/
example : ∀ e ∈ (Ledger.chain gen (chainOf calls)).outs, e.reward = true → worth e.out 4 .coin ≠ 0 →
    e.op ∉ (Ledger.chain gen (chainOf calls)).spent ∧ Free (Ledger.chain gen (chainOf calls)).h (Ledger.chain gen (chainOf calls)).m e := by
  decide +kernel

/-! ## Where the balance is not that of the unspent outputs -/

/-- **C74, finding.** An output of a block reward (or of the genesis) that has been spent still counts: address 1 has spent its 1000 and got
400 back, the balance is 1400. -/
theorem C74_spent_reward_counted : ValidChain gen [blk1] ∧ (Ledger.chain gen [blk1]).unspent 1 .coin = 400 ∧
    okAnd (run gen [(0, [blk1])]) (fun db => db.balance 1 .coin = some 1400 ∧ (db.availableUtxos 1).map (·.1) = [⟨.tx 10, 2⟩]) = true :=
  ⟨checkChain_sound (by decide +kernel), by decide +kernel, by decide +kernel⟩

/-- a block reward paid with a lock, as a block with proof of work does -/
def blkPow : Block := ⟨1, 200, [], [.lockThenTransfer (.coin 50) 8 (.forBlockCount 500)], []⟩

/-- **C74, finding.** An output of a block reward that is locked counts as spendable at once. -/
theorem C74_locked_reward_counted : ValidChain gen [blkPow] ∧ (Ledger.chain gen [blkPow]).unspent 8 .coin = 0 ∧
    okAnd (run gen [(0, [blkPow])]) (fun db => db.balance 8 .coin = some 50 ∧ db.lockedBalance 8 .coin = none ∧
      (db.availableUtxos 8).map (·.1) = [⟨.reward 1, 0⟩]) = true :=
  ⟨checkChain_sound (by decide +kernel), by decide +kernel, by decide +kernel⟩

/-- **C74, finding.** A lock of so many blocks or seconds that its end overflows stops the scanner: at the output itself, whatever the
tables are … -/
theorem C74_long_lock_aborts (h t m : Nat) (db : Db) (o : Op) (v : Value) (d : Addr) (n : Nat) :
    (n < 2 ^ 63 → 2 ^ 63 ≤ h + n → h < 2 ^ 63 →
      createOne h t m db (o, .lockThenTransfer v d (.forBlockCount n)) = .error .lock) ∧
    (2 ^ 64 ≤ t + n → (onValue increaseLocked db d v h).isOk →
      createOne h t m db (o, .lockThenTransfer v d (.forSeconds n)) = .error .lock) := by
  constructor
  · intro h1 h2 h3
    have e1 : ¬ (2 ^ 63 ≤ n) := by omega
    have : alreadyUnlocked h t m (.forBlockCount n) = .error .lock := by
      simp only [alreadyUnlocked, Script.checkTimelock, if_neg e1, bind, Except.bind, pure, Except.pure, Script.ofCtx, Script.heightAdd]
      have e2 : ¬ (9223372036854775808 ≤ h) := by omega
      have e3 : 9223372036854775808 ≤ h + n := by omega
      simp [e2, e3]
    simp only [createOne, this, bind, Except.bind]
  · intro h1 h2
    have e1 : 18446744073709551616 ≤ t + n := by omega
    have : alreadyUnlocked h t m (.forSeconds n) = .ok false := by
      simp [e1, alreadyUnlocked, Script.checkTimelock, bind, Except.bind, pure, Except.pure, Script.ofCtx, h1, throw, throwThe, MonadExceptOf.throw]
    have e2 : ¬ (t + n < 2 ^ 64) := by omega
    cases hx : onValue increaseLocked db d v h with
    | error e => rw [hx] at h2; cases h2
    | ok db' => simp only [createOne, this, bind, Except.bind, hx, fromLock, if_neg e2]; rfl

/-- address 1 locks a coin for longer than there will be blocks -/
def blkLong (lock : Script.TimeLock) : Block := ⟨1, 200, [⟨10, [⟨.reward 0, 0⟩], [.lockThenTransfer (.coin 1) 1 lock]⟩], [], []⟩

/-- … so that no call that has the block in it succeeds. -/
theorem C74_long_lock_stops (bs : List Block) (lock : Script.TimeLock)
    (hl : lock = .forBlockCount (2 ^ 63 - 1) ∨ lock = .forSeconds (2 ^ 64 - 1)) : run gen [(0, blkLong lock :: bs)] = .error .lock := by
  have h1 : scanGenesis gen >>= (fun d => scanBlock 1 (d.disconnect 0) (blkLong lock)) = .error .lock := by
    rcases hl with rfl | rfl <;> decide +kernel
  unfold run
  cases hd : scanGenesis gen with
  | error e => rw [hd] at h1; exact h1
  | ok d =>
    rw [hd] at h1
    have h1 : scanBlock 1 (d.disconnect 0) (blkLong lock) = .error .lock := h1
    change (scanBlocks d 0 (blkLong lock :: bs) >>= _) = _
    have h2 : scanBlocks d 0 (blkLong lock :: bs) = .error .lock := by
      change (scanBlock 1 (d.disconnect 0) (blkLong lock) >>= _) = _
      rw [h1]; rfl
    rw [h2]; rfl

end Verif.Scanner
