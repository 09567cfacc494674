import Verif.Chainstate.Props

/-!
# Failing database transactions

The model of block processing so far lets every database transaction be committed.  Here each of the transactions of `attempt_to_process_block` is
attempted several times and may fail for good; a crash is the failure of all remaining transactions.
-/

set_option maxRecDepth 100000

namespace Verif.Chainstate
open Verif BlockTree Spec

variable {L : Type}

/-- what the storage does in one attempt: whether the transaction could be opened, a storage error during the action, an error of the commit
(both with the answer of `is_intermittent`) -/
structure Attempt where
  opens : Bool := true
  fault : Option Bool := none
  commit : Option Bool := none

/-- `with_rw_tx` – mod.rs 302-355.  `tx n` is the behaviour of the storage in attempt `n`, the number is how many attempts remain after this one.
The state before the transaction remains unless it is committed.  A storage error seen by the action that is not retried is returned as
`storageErr`. -/
def withRwTx {E R : Type} (dbErr storageErr : E) (act : Db L → Except E (Db L × R)) (s : Db L) (tx : Nat → Attempt) : Nat → Nat → Db L × Except E R
  | rem, n =>
    if !(tx n).opens then (s, .error storageErr)
    else match (tx n).fault, rem with
      | some _, 0 => (s, .error dbErr)
      | some true, rem + 1 => withRwTx dbErr storageErr act s tx rem (n + 1)
      | some false, _ + 1 => (s, .error storageErr)
      | none, rem =>
        match act s with
        | .error e => (s, .error e)
        | .ok (s', r) =>
          match (tx n).commit, rem with
          | none, _ => (s', .ok r)
          | some true, rem + 1 => withRwTx dbErr storageErr act s tx rem (n + 1)
          | some _, _ => (s, .error dbErr)

/-- the storage during one call: the number of attempts (`max_db_commit_attempts` less one), then what happens in each attempt of the first,
second and third transaction -/
structure Storage where
  retries : Nat
  tx : Nat → Nat → Attempt

/-- an action without result -/
def noResult (act : Db L → Except Err (Db L)) (s : Db L) : Except Err (Db L × Unit) := do
  let s' ← act s
  pure (s', ())

/-- `invalidate_block` of a block outside the main chain – block_invalidation/mod.rs 135-142, 79-124; a block of the main chain is refused before
with a panic (mod.rs 479) -/
def Db.invalidateTx (env : Env L) (db : Storage) (s : Db L) (id : Nat) : Db L :=
  (withRwTx Err.storage Err.storage (noResult fun s => do let (s', _) ← s.invalidateStale env id false; pure s') s (db.tx 2) db.retries 0).1

/-- `set_new_block_index` in its own transaction – mod.rs 552-571; the result is ignored by the callers -/
def Db.setNewIndexTx (db : Storage) (s : Db L) (e : Entry) : Db L :=
  (withRwTx Err.storage Err.storage (noResult fun s => s.setNewIndex e) s (db.tx 1) db.retries 0).1

/-- `attempt_to_process_block` after the index of the new block was created, with the database transactions – mod.rs 436-539 -/
def Db.finishTx (env : Env L) (now : Now) (db : Storage) (s : Db L) (idx : Idx) : Db L × Except Err (Option Entry) :=
  match withRwTx (IErr.other .storage) (IErr.other .storage) (fun s => s.integrate env now idx) s (db.tx 0) db.retries 0 with
  | (s', .ok reorg) =>
    match s'.index.get idx.id with
    | none => (s', .error .indexNotFound)
    | some e => if e.status.ok then (s', .ok (if reorg then some e else none)) else (s', .error .panicNotOk)
  | (s', .error (.other e)) => (s', .error e)
  | (s', .error (.connect e st bad)) =>
    if s'.inMain env bad then (s', .error .panicInMainChain)
    else if e.classify.shouldInvalidate then ((s'.setNewIndexTx db { idx := idx, status := st }).invalidateTx env db bad, .error e)
    else (s', .error e)
  | (s', .error (.check e st)) =>
    if e.classify.shouldInvalidate then (s'.setNewIndexTx db { idx := idx, status := { st with failed := true } }, .error e) else (s', .error e)

/-- `attempt_to_process_block` with the database transactions – mod.rs 412-539 -/
def Db.processTx (env : Env L) (now : Now) (db : Storage) (s : Db L) (id : Nat) : Db L × Except Err (Option Entry) :=
  match s.index.get id with
  | some e => (s, .error (if e.status.ok then .alreadyProcessed else .invalidAlreadyProcessed))
  | none =>
    match createIndex env.tree s.tree id with
    | .error .prevNotFound => (s, .error .prevNotFound)
    | .error e => (s, .error (.tree e))
    | .ok idx => s.finishTx env now db idx

/-- a transaction is carried out completely or not at all -/
theorem withRwTx_spec {E R : Type} {dbErr storageErr : E} {act : Db L → Except E (Db L × R)} {s : Db L} {tx : Nat → Attempt} :
    ∀ (rem n : Nat), (∃ s' r, act s = .ok (s', r) ∧ withRwTx dbErr storageErr act s tx rem n = (s', .ok r)) ∨
      ∃ e, withRwTx dbErr storageErr act s tx rem n = (s, .error e) ∧ (e = dbErr ∨ e = storageErr ∨ act s = .error e)
  | rem, n => by
    unfold withRwTx
    split
    · exact .inr ⟨_, rfl, .inr (.inl rfl)⟩
    · split
      · exact .inr ⟨_, rfl, .inl rfl⟩
      · exact withRwTx_spec _ _
      · exact .inr ⟨_, rfl, .inr (.inl rfl)⟩
      · split
        · next h => exact .inr ⟨_, rfl, .inr (.inr h)⟩
        · next h =>
          split
          · exact .inl ⟨_, _, h, rfl⟩
          · exact withRwTx_spec _ _
          · exact .inr ⟨_, rfl, .inl rfl⟩

namespace Spec

/-- the failures of the storage are temporary: in each of the transactions some attempt is without failure, and those before it fail with errors
that the storage calls intermittent -/
def Recovers (db : Storage) : Prop :=
  ∀ k, ∃ n, n ≤ db.retries ∧ db.tx k n = {} ∧
    ∀ m, m < n → (db.tx k m).opens = true ∧ ((db.tx k m).fault = some true ∨ (db.tx k m).fault = none ∧ (db.tx k m).commit = some true)

end Spec

theorem withRwTx_recovers {E R : Type} {dbErr storageErr : E} {act : Db L → Except E (Db L × R)} {s : Db L} {tx : Nat → Attempt} :
    ∀ (d m rem : Nat), d ≤ rem → tx (m + d) = {} →
      (∀ j, j < d → (tx (m + j)).opens = true ∧ ((tx (m + j)).fault = some true ∨ (tx (m + j)).fault = none ∧ (tx (m + j)).commit = some true)) →
      withRwTx dbErr storageErr act s tx rem m = match act s with
        | .error e => (s, .error e)
        | .ok (s', r) => (s', .ok r)
  | 0, m, rem, _, h, _ => by
    unfold withRwTx
    rw [Nat.add_zero] at h
    rw [h]
    simp only [Bool.not_true, Bool.false_eq_true, if_false]
  | d + 1, m, 0, h, _, _ => by omega
  | d + 1, m, rem + 1, hd, h, hb => by
    obtain ⟨h1, h2⟩ := hb 0 (by omega)
    have ih := withRwTx_recovers (dbErr := dbErr) (storageErr := storageErr) (act := act) (s := s) (tx := tx) d (m + 1) rem (by omega)
      (by rw [← h]; congr 1; omega) (fun j hj => by have := hb (j + 1) (by omega); rw [show m + (j + 1) = m + 1 + j by omega] at this; exact this)
    rw [Nat.add_zero] at h1 h2
    unfold withRwTx
    rw [h1]
    simp only [Bool.not_true, Bool.false_eq_true, if_false]
    rcases h2 with h2 | ⟨h2, h3⟩
    · rw [h2]; exact ih
    · rw [h2]
      dsimp only
      rw [h3]
      cases ha : act s with
      | error e => rfl
      | ok r => rw [ha] at ih; exact ih

variable {env : Env L}

theorem setNewIndexTx_same {db : Storage} {s : Db L} {e : Entry} : ∃ m, s.setNewIndexTx db e = { s with index := m } := by
  unfold Db.setNewIndexTx
  rcases withRwTx_spec (dbErr := Err.storage) (storageErr := Err.storage) (act := noResult fun s => s.setNewIndex e) (s := s) (tx := db.tx 1) db.retries 0 with
    ⟨s', r, h1, h2⟩ | ⟨e', h1, -⟩
  · rw [h2]
    simp only [noResult, Db.setNewIndex, bind_eq_ok, pure_eq_ok, Prod.mk.injEq] at h1
    obtain ⟨s1, h1, rfl, -⟩ := h1
    split at h1
    · cases h1
    · cases h1; exact ⟨_, rfl⟩
  · rw [h1]; exact ⟨s.index, rfl⟩

theorem invalidateTx_same {db : Storage} {s : Db L} {id} : ∃ m, s.invalidateTx env db id = { s with index := m } := by
  unfold Db.invalidateTx
  rcases withRwTx_spec (dbErr := Err.storage) (storageErr := Err.storage)
    (act := noResult fun s => do let (s', _) ← s.invalidateStale env id false; pure s') (s := s) (tx := db.tx 2) db.retries 0 with
    ⟨s', r, h1, h2⟩ | ⟨e', h1, -⟩
  · rw [h2]
    simp only [noResult, Db.invalidateStale, bind_eq_ok, pure_eq_ok, Prod.mk.injEq, Prod.exists] at h1
    obtain ⟨s1, ⟨s2, es, ⟨es', -, rfl, -⟩, rfl⟩, rfl, -⟩ := h1
    exact ⟨_, rfl⟩
  · rw [h1]; exact ⟨s.index, rfl⟩

/-- all or nothing whatever the storage does: if a block is accepted the state is the one of a storage without failures; otherwise the tip, the
chain state, the main chain, the stored blocks and the lowest height are what they were -/
theorem C36_commit_all_or_nothing (hu : Undoes env) {s : Db L} (h : Reach env s) {now : Now} {db : Storage} {id s' r} (hid : id ≠ env.tree.genesisId)
    (he : s.processTx env now db id = (s', r)) :
    (∃ x, r = .ok x ∧ s.process env now id = (s', .ok x)) ∨
    (∃ e, r = .error e ∧ s'.best = s.best ∧ s'.ledger = s.ledger ∧ s'.byHeight = s.byHeight ∧ s'.blocks = s.blocks ∧ s'.minHeight = s.minHeight) := by
  have hs := reach_sinv hu h
  unfold Db.processTx at he
  cases hn : s.index.get id with
  | some e => rw [hn] at he; cases he; exact .inr ⟨_, rfl, rfl, rfl, rfl, rfl, rfl⟩
  | none =>
    rw [hn] at he
    dsimp only at he
    cases hidx : createIndex env.tree s.tree id with
    | error e =>
      rw [hidx] at he
      right
      split at he
      · cases he; exact ⟨_, rfl, rfl, rfl, rfl, rfl, rfl⟩
      · cases he; exact ⟨_, rfl, rfl, rfl, rfl, rfl, rfl⟩
      · rename_i hc; cases hc
    | ok idx =>
      rw [hidx] at he
      dsimp only at he
      unfold Db.finishTx at he
      rcases withRwTx_spec (dbErr := IErr.other .storage) (storageErr := IErr.other .storage) (act := fun s => s.integrate env now idx) (s := s)
        (tx := db.tx 0) db.retries 0 with ⟨s1, b, h1, h2⟩ | ⟨e, h1, h2⟩
      · have hp : s.process env now id = (s', r) := by
          rw [h2] at he
          unfold Db.process
          rw [hn]
          dsimp only
          rw [hidx]
          dsimp only
          unfold Db.finish
          have h1' : s.integrate env now idx = .ok (s1, b) := h1
          rw [h1']
          exact he
        rcases process_spec (now := now) hu hs.i hs.m hid with ⟨s2, x, g1, -⟩ | ⟨s2, e, g1, g2, -⟩
        · rw [hp] at g1; cases g1; exact .inl ⟨x, rfl, hp⟩
        · rw [hp] at g1; cases g1; exact .inr ⟨e, rfl, g2.best, g2.ledger, g2.byHeight, g2.blocks, g2.minHeight⟩
      · right
        rw [h1] at he
        cases e with
        | other e => cases he; exact ⟨_, rfl, rfl, rfl, rfl, rfl, rfl⟩
        | connect e st bad =>
          dsimp only at he
          split at he
          · cases he; exact ⟨_, rfl, rfl, rfl, rfl, rfl, rfl⟩
          · split at he
            · cases he
              obtain ⟨m, hm⟩ := setNewIndexTx_same (db := db) (s := s) (e := { idx := idx, status := st })
              obtain ⟨m', hm'⟩ := invalidateTx_same (env := env) (db := db) (s := s.setNewIndexTx db { idx := idx, status := st }) (id := bad)
              rw [hm', hm]
              exact ⟨_, rfl, rfl, rfl, rfl, rfl, rfl⟩
            · cases he; exact ⟨_, rfl, rfl, rfl, rfl, rfl, rfl⟩
        | check e st =>
          dsimp only at he
          split at he
          · cases he
            obtain ⟨m, hm⟩ := setNewIndexTx_same (db := db) (s := s) (e := { idx := idx, status := { st with failed := true } })
            rw [hm]
            exact ⟨_, rfl, rfl, rfl, rfl, rfl, rfl⟩
          · cases he; exact ⟨_, rfl, rfl, rfl, rfl, rfl, rfl⟩

/-- failures of the storage that are overcome within the allowed number of attempts have no effect -/
theorem C36_commit_retry (hu : Undoes env) {s : Db L} (h : Reach env s) {now : Now} {db : Storage} {id} (hid : id ≠ env.tree.genesisId)
    (hdb : Recovers db) : s.processTx env now db id = s.process env now id := by
  have hs := reach_sinv hu h
  have key : ∀ {E R : Type} (k : Nat) (dbErr storageErr : E) (act : Db L → Except E (Db L × R)) (s : Db L),
      withRwTx dbErr storageErr act s (db.tx k) db.retries 0 = match act s with
        | .error e => (s, .error e)
        | .ok (s', r) => (s', .ok r) := by
    intro E R k dbErr storageErr act s
    obtain ⟨n, h1, h2, h3⟩ := hdb k
    exact withRwTx_recovers n 0 _ h1 (by rw [Nat.zero_add]; exact h2) (fun j hj => by rw [Nat.zero_add]; exact h3 j hj)
  have hset : ∀ e, s.setNewIndexTx db e = match s.setNewIndex e with
      | .ok s1 => s1
      | .error _ => s := by
    intro e
    unfold Db.setNewIndexTx
    rw [key]
    cases hh : s.setNewIndex e <;> simp [noResult, hh, bind, Except.bind, pure, Except.pure]
  unfold Db.processTx Db.process
  cases hn : s.index.get id with
  | some e => rfl
  | none =>
    dsimp only
    cases hidx : createIndex env.tree s.tree id with
    | error e => cases e <;> rfl
    | ok idx =>
      dsimp only
      have hii : idx.id = id := by
        have : Added env s { s with index := s.index.insert id { idx := idx, status := checkedStatus, persisted := true }, blocks := s.blocks.insert id () }
            id { idx := idx, status := checkedStatus, persisted := true } := ⟨hid, hn, hidx, rfl, rfl, rfl, rfl, rfl, rfl⟩
        exact (this.tinv hs.i.tree).id_eq' this.self
      unfold Db.finishTx Db.finish
      rw [key]
      cases hint : s.integrate env now idx with
      | ok r => obtain ⟨s1, b⟩ := r; rfl
      | error e =>
        cases e with
        | other e => rfl
        | check e st =>
          dsimp only
          rw [hset]
          rfl
        | connect e st bad =>
          dsimp only
          cases hm : s.inMain env bad with
          | true => rfl
          | false =>
            rw [hset]
            unfold Db.afterConnectFailure
            have hs1 : ∃ s1, (match s.setNewIndex { idx := idx, status := st } with
                | .ok s1 => s1
                | .error _ => s) = s1 ∧ s1.inMain env bad = false := by
              refine ⟨_, rfl, ?_⟩
              simp only [Db.setNewIndex, hii, hn]
              unfold Db.inMain at hm ⊢
              split at hm
              · cases hm
              · rename_i hg
                rw [if_neg hg]
                dsimp only
                rw [BMap.get_insert]
                by_cases hb : bad = id
                · rw [if_pos hb]
                  dsimp only
                  cases hh : decide (s.byHeight.get idx.height = some bad) with
                  | false => rfl
                  | true =>
                    have := ((hs.m.heights _ _).1 (of_decide_eq_true hh)).1
                    have hk : Known env s bad := this.known_right
                    obtain ⟨r, hr⟩ := (known_cases hk).resolve_left hg
                    rw [hb, hn] at hr; cases hr
                · rw [if_neg hb]; exact hm
            obtain ⟨s1, hs1, hm1⟩ := hs1
            rw [hs1]
            have hinv : s1.invalidateTx env db bad = (s1.invalidate env now bad false).1 := by
              unfold Db.invalidateTx Db.invalidate
              rw [key, hm1]
              simp only [Bool.not_false, if_true, noResult]
              cases hh : s1.invalidateStale env bad false with
              | error e => rfl
              | ok r => rfl
            rw [hinv]
            subst hs1
            rfl

/-! ### examples on the tree of the other examples -/

/-- the first attempt of every transaction fails, the second one succeeds -/
def shaky : Storage := ⟨9, fun _ n => if n = 0 then { commit := some true } else {}⟩

theorem shaky_recovers : Recovers shaky := fun _ => ⟨1, by decide, rfl, fun m hm => by
  have : m = 0 := by omega
  subst this; exact ⟨rfl, .inr ⟨rfl, rfl⟩⟩⟩

example : exView ((exRun [.process 11 {}, .process 12 {}]).processTx exEnv {} shaky 1).1 = ([(0, 0), (1, 1)], 1, 0, [1]) := by decide +kernel

/-- no attempt succeeds -/
def dead : Storage := ⟨9, fun _ _ => { commit := some true }⟩

example : let s := exRun [.process 11 {}, .process 12 {}]
    exView (s.processTx exEnv {} dead 1).1 = exView s ∧ ((s.processTx exEnv {} dead 1).2).toOption.isNone = true := by decide +kernel

/-- the node stops between its second and its third transaction -/
def crash : Storage := ⟨9, fun k _ => if k < 2 then {} else { opens := false }⟩

/-- the exact limit of all or nothing: if the node stops after storing the index of a block whose chain could not be connected and before marking
the failure, that block stays recorded as valid without its data; the node's own consistency check fails, the block cannot be submitted again, and
its children are refused with a general error without the failure ever being recorded -/
theorem C36_commit_finding : ∃ s s', Reach exEnv s ∧ s.processTx exEnv {} crash 66 = (s', .error .badBlock) ∧ s'.best = s.best ∧
    s'.genOk exEnv 66 = true ∧ s'.blocks.get 66 = none ∧ ¬ Valid exEnv 66 ∧ s'.consistent exEnv = false ∧
    (s'.process exEnv {} 66).2 = .error .alreadyProcessed ∧ (s'.process exEnv {} 67).2 = .error .dataMissing ∧
    (s'.process exEnv {} 67).1.genOk exEnv 66 = true := by
  have he : ((exRun [.process 1 {}]).processTx exEnv {} crash 66).2 = .error .badBlock := by rfl
  refine ⟨exRun [.process 1 {}], ((exRun [.process 1 {}]).processTx exEnv {} crash 66).1, ?_, ?_, ?_, ?_, ?_, ?_, ?_, ?_, ?_, ?_⟩
  · exact Later.step (.process 1 {}) .refl trivial (by simp [Proper, exEnv])
  · exact Prod.ext rfl he
  · decide +kernel
  · decide +kernel
  · decide +kernel
  · rintro ⟨l, hl⟩
    cases hl with
    | block hn _ hc => simp [exEnv] at hc
  · decide +kernel
  · rfl
  · rfl
  · decide +kernel

end Verif.Chainstate
