import Verif.Script.AuthLemmas

/-! Property theorems for scripts (C30), time locks (C31) and spending conditions (C43). -/

set_option maxRecDepth 100000

namespace Verif.Script

variable {L E : Type}

/-! ## C30: script evaluation -/

/-- C30. Verification succeeds exactly for the satisfied scripts. -/
theorem C30_verify_iff (v : L → Except (Err E) Unit) (s : Scr L) (h : Built s) :
    verify v s = some (.ok ()) ↔ s.Holds v := by
  have := verifyLoop_ok_iff v s.size [s] (by simp [stackSize]) (by simpa using built_wf h)
  simpa [verify] using this

/-- C30. Verification always ends, and panics only if one of the checks it was given panics. -/
theorem C30_terminates (v : L → Except (Err E) Unit) (s : Scr L) :
    ∃ r, verify v s = some r ∧
      (Built s → (∀ l, v l ≠ .error .panic) → r ≠ .error .panic) := by
  obtain ⟨r, hr⟩ := Option.ne_none_iff_exists'.1
    (verifyLoop_fuel v s.size [s] (by simp [stackSize]))
  refine ⟨r, hr, fun hb hv e => ?_⟩
  exact verifyLoop_no_panic v hv s.size [s] (by simpa using built_wf hb) (by rw [hr, e])

/-- C30. When every threshold declares the right number of conditions satisfied, the verdict is that
of the leaves checked in reading order, and the error is that of the first failing leaf. -/
theorem C30_first_failure (v : L → Except (Err E) Unit) (s : Scr L) (h : Built s)
    (hb : s.Balanced) :
    verify v s = some (match firstFailure v s.leaves with
      | .ok () => .ok ()
      | .error .panic => .error .panic
      | .error (.err e) => .error (.err (.visitor e))) := by
  have := verifyLoop_balanced v s.size [s] (by simp [stackSize]) (by simpa using built_wf h)
    (by simpa using hb)
  rw [verify, this]
  simp only [List.flatMap_cons, List.flatMap_nil, List.append_nil]
  rcases firstFailure v s.leaves with (_ | _) | _ <;> rfl

/-- C30. A threshold with the wrong number of satisfied conditions is rejected before any of its
conditions is looked at, with the error telling in which direction the number is wrong. -/
theorem C30_count_mismatch (v : L → Except (Err E) Unit) (n : Nat) (c : Conds L)
    (hn : n ≤ c.length) (hne : c.sats.length ≠ n) :
    verify v (.threshold n c) = some (.error (.err (.threshold
      (if n < c.sats.length then .excessive else .insufficient)))) := by
  simp only [verify, Scr.size, verifyLoop]
  rw [collectSatisfied_eq _ _ hn, if_neg hne]
  by_cases h : n < c.sats.length <;> simp [h]

/-- C30. A conjunction holds iff none of its conditions is declared dissatisfied and all hold. -/
theorem C30_conjunction (v : L → Except (Err E) Unit) (c : Conds L)
    (h : ∀ x ∈ c.sats, Built x) :
    verify v (conjunction c) = some (.ok ()) ↔
      c.sats.length = c.length ∧ ∀ x ∈ c.sats, verify v x = some (.ok ()) := by
  rw [C30_verify_iff v _ (.conjunction c h)]
  simp only [conjunction, Scr.Holds, allHold_iff]
  exact and_congr_right fun _ => forall₂_congr fun x hx => (C30_verify_iff v x (h x hx)).symm

/-- C30. A disjunction holds iff exactly one of its conditions is declared satisfied, and it
holds; it can be built from any non-empty list of conditions. -/
theorem C30_disjunction (v : L → Except (Err E) Unit) (c : Conds L)
    (h : ∀ x ∈ c.sats, Built x) :
    (disjunction c = none ↔ c.length = 0) ∧ ∀ s, disjunction c = some s →
      (verify v s = some (.ok ()) ↔ ∃ x, c.sats = [x] ∧ verify v x = some (.ok ())) := by
  constructor
  · simp only [disjunction, mkThreshold]
    by_cases hc : 1 ≤ c.length
    · rw [if_pos hc]; simp; omega
    · rw [if_neg hc]; simp; omega
  · intro s hs
    rw [C30_verify_iff v s (.threshold 1 c s h hs)]
    simp only [disjunction, mkThreshold] at hs
    split at hs
    · injection hs with hs; subst hs
      simp only [Scr.Holds, allHold_iff]
      constructor
      · rintro ⟨h1, h2⟩
        obtain ⟨x, hx⟩ := List.length_eq_one_iff.1 h1
        have hm : x ∈ c.sats := by rw [hx]; exact List.mem_singleton_self x
        exact ⟨x, hx, (C30_verify_iff v x (h x hm)).2 (h2 x hm)⟩
      · rintro ⟨x, hx, hv⟩
        have hm : x ∈ c.sats := by rw [hx]; exact List.mem_singleton_self x
        refine ⟨by rw [hx]; rfl, fun y hy => ?_⟩
        rw [hx, List.mem_singleton] at hy
        subst hy
        exact (C30_verify_iff v y (h y hm)).1 hv
    · cases hs

/-- C30. A script accepted under some checks is accepted under any checks that pass at least the
same leaves, for instance when one kind of check is turned off. -/
theorem C30_weaker_checks {F : Type} (v : L → Except (Err E) Unit) (w : L → Except (Err F) Unit)
    (hvw : ∀ l, v l = .ok () → w l = .ok ()) (s : Scr L) (h : Built s)
    (hs : verify v s = some (.ok ())) : verify w s = some (.ok ()) :=
  (C30_verify_iff w s h).2 (holds_mono hvw s ((C30_verify_iff v s h).1 hs))

/-- A 2-of-3 threshold with a nested conjunction, all checks on numbers below 10 passing: accepted;
with a leaf that fails: that leaf's error; with three satisfied conditions: excessive. -/
example :
    let v : Nat → Except (Err Nat) Unit := fun l => if l < 10 then .ok () else .error (.err l)
    let inner : Scr Nat := satisfiedConjunction [.leaf 1, .leaf 2]
    Built (.threshold 2 (.sat inner (.dissat (.sat (.leaf 3) .nil)))) ∧
    verify v (.threshold 2 (.sat inner (.dissat (.sat (.leaf 3) .nil)))) = some (.ok ()) ∧
    verify v (.threshold 2 (.sat inner (.dissat (.sat (.leaf 30) .nil)))) =
      some (.error (.err (.visitor 30))) ∧
    verify v (.threshold 2 (.sat inner (.sat (.leaf 50) (.sat (.leaf 30) .nil)))) =
      some (.error (.err (.threshold .excessive))) := by
  refine ⟨?_, rfl, rfl, rfl⟩
  refine .threshold 2 (.sat (satisfiedConjunction [.leaf 1, .leaf 2]) (.dissat (.sat (.leaf 3) .nil)))
    _ ?_ rfl
  intro x hx
  simp only [Conds.sats, List.mem_cons, List.not_mem_nil, or_false] at hx
  rcases hx with rfl | rfl
  · refine .conjunction _ ?_
    intro y hy
    rw [ofSats_sats] at hy
    simp only [List.mem_cons, List.not_mem_nil, or_false] at hy
    rcases hy with rfl | rfl <;> exact .leaf _
  · exact .leaf _

/-! ## C31: time locks -/

/-- C31. A lock permits spending exactly when its moment has been reached.  Heights are those of a
real chain, below `2^63`; times are 64-bit. -/
theorem C31_exact (c : LockCtx) (l : TimeLock) (hh : c.spendHeight < 2 ^ 63)
    (ht : c.spendTime < 2 ^ 64) : checkTimelock c l = .ok () ↔ Expired c l :=
  checkTimelock_ok_iff c l hh ht

/-- C31. Once spendable, spendable at every later height and time. -/
theorem C31_monotone (c d : LockCtx) (l : TimeLock) (hsh : c.srcHeight = d.srcHeight)
    (hst : c.srcTime = d.srcTime) (h1 : c.spendHeight ≤ d.spendHeight)
    (h2 : c.spendTime ≤ d.spendTime) (hh : d.spendHeight < 2 ^ 63) (ht : d.spendTime < 2 ^ 64)
    (h : checkTimelock c l = .ok ()) : checkTimelock d l = .ok () := by
  have hc := (checkTimelock_ok_iff c l (by omega) (by omega)).1 h
  refine (checkTimelock_ok_iff d l hh ht).2 ?_
  have he : expiry d l = expiry c l := by cases l <;> simp [expiry, hsh, hst]
  simp only [Expired] at hc ⊢
  rw [he]
  revert hc
  rcases expiry c l with _ | (x | x)
  · exact id
  · exact fun h => le_trans h h1
  · exact fun h => le_trans h h2

/-- C31. An output locked for `n` blocks, `n` below `2^63`, becomes spendable exactly `n` blocks
after the block that created it, provided that height is below `2^63`. -/
theorem C31_for_blocks (c : LockCtx) (s n : Nat) (hs : c.srcHeight = .ok s)
    (hh : c.spendHeight < 2 ^ 63) (ht : c.spendTime < 2 ^ 64) :
    checkTimelock c (.forBlockCount n) = .ok () ↔ s + n ≤ c.spendHeight := by
  rw [C31_exact c _ hh ht]
  simp [Expired, expiry, hs, Except.toOption]

/-- C31. The exact domain on which checking a lock aborts the node: a lock for a number of blocks
that fits in a signed 64-bit number but whose sum with the height of the creating block does not. -/
theorem C31_panic_iff (c : LockCtx) (l : TimeLock) :
    checkTimelock c l = .error .panic ↔
      ∃ n s, l = .forBlockCount n ∧ c.srcHeight = .ok s ∧ n < 2 ^ 63 ∧ s < 2 ^ 63 ∧
        2 ^ 63 ≤ s + n :=
  checkTimelock_panic_iff c l

/-- C31. The panic is reachable: an attempt to spend an output locked for `2^63 - 1` blocks aborts
the node at every height from 1 on, whatever the witness, for any output created in a block above
the genesis block or still in the mempool. -/
theorem C31_panic_reachable (cr : Crypto) (ac : Accounts) (t : Tip) (d : Dest) (w : Witness)
    (sh : Nat → Option Nat) (src : Source) (rest : List Input) (hh : t.height < 2 ^ 63)
    (hpos : 1 ≤ t.height) (hsrc : ∀ h, src = .blockchain h → 1 ≤ h ∧ h ≤ t.height) :
    verifyFull cr ac t
      ({ info := .utxo (.lockThenTransfer d (.forBlockCount (2 ^ 63 - 1))) src, witness := w,
         sighash := sh } :: rest) = .error .panic := by
  have key : ∀ c : LockCtx, checkTimelock c (.forBlockCount (2 ^ 63 - 1)) = .error .panic →
      visitTimelock c (.forBlockCount (2 ^ 63 - 1)) = .error .panic := by
    intro c h; simp only [visitTimelock, h]
  have hp : visitTimelock (lockCtx t (.utxo (.lockThenTransfer d (.forBlockCount (2 ^ 63 - 1))) src))
      (.forBlockCount (2 ^ 63 - 1)) = .error .panic := by
    refine key _ ((checkTimelock_panic_iff _ _).2 ?_)
    cases src with
    | blockchain h =>
        have := hsrc h rfl
        exact ⟨_, h, rfl, rfl, by decide, by omega, by omega⟩
    | mempool => exact ⟨_, t.height, rfl, rfl, by decide, hh, by omega⟩
  have hsz : (satisfiedConjunction [Scr.leaf (Leaf.timelock (.forBlockCount (2 ^ 63 - 1))),
      sigScript w d]).size = 3 := rfl
  simp only [verifyFull, forInputs, verifyInput, translateTx, runScript, verify, hsz]
  simp only [satisfiedConjunction, conjunction, Conds.ofSats, Conds.length, verifyLoop,
    collectSatisfied, collectLoop]
  simp only [List.nil_append, List.cons_append, Nat.reduceAdd, Nat.reduceSub, Nat.reduceLT,
    Nat.lt_irrefl, if_false, if_true, and_self, OfNat.ofNat_ne_zero, one_ne_zero, reduceIte,
    verifyLoop, fullChecker, hp]

/-- Concrete locks: 100 blocks from height 50 opens at 150 and not before; an absolute time; and
the largest distances: one is an ordinary error, the other aborts. -/
example :
    let c : LockCtx := { spendHeight := 150, spendTime := 9000, srcHeight := .ok 50,
                         srcTime := .ok 8000 }
    checkTimelock c (.forBlockCount 100) = .ok () ∧
    checkTimelock c (.forBlockCount 101) = .error (.err (.heightLocked 150 151)) ∧
    checkTimelock c (.forSeconds 1000) = .ok () ∧
    checkTimelock c (.forSeconds 1001) = .error (.err (.timestampLocked 9000 9001)) ∧
    checkTimelock c (.forBlockCount (2 ^ 64 - 1)) = .error (.err .heightArith) ∧
    checkTimelock c (.forBlockCount (2 ^ 63 - 50)) = .error .panic ∧
    checkTimelock c (.forSeconds (2 ^ 64 - 1)) = .error (.err .timestampArith) := by
  refine ⟨rfl, rfl, rfl, rfl, by decide +kernel, by decide +kernel, by decide +kernel⟩

/-! ## C43: spending conditions -/

theorem verifyInput_ok_iff (cr : Crypto) (ac : Accounts) (t : Tip) (i : Input)
    (hh : t.height < 2 ^ 63) (ht : t.time < 2 ^ 64) :
    verifyInput cr ac t i = .ok () ↔ MaySpend cr ac t i := by
  obtain ⟨info, w, sh⟩ := i
  rw [verifyInput, runScript_ok_iff _ _ (fun x hx => translateTx_wf _ _ _ _ x hx)]
  have hl : ∀ l, checkTimelock (lockCtx t info) l = .ok () ↔ Expired (lockCtx t info) l := by
    intro l
    refine checkTimelock_ok_iff _ l ?_ ?_
    · cases info with
      | utxo o s => cases s <;> exact hh
      | _ => exact hh
    · cases info with
      | utxo o s => cases s <;> exact ht
      | _ => exact ht
  cases info with
  | utxo o s =>
    cases o
    case lockThenTransfer d l =>
      simp only [translateTx, MaySpend, Except.ok.injEq, exists_eq_left', satConj_holds, sigScript,
        List.mem_cons, List.not_mem_nil, or_false, forall_eq_or_imp, forall_eq, sig_holds, lock_holds,
        hl]
    case htlc h =>
      simp only [translateTx, MaySpend]
      cases w with
      | noSignature => simp [htlcScript]
      | standard mode raw =>
        simp only [htlcScript]
        rcases hd : cr.decodeHtlc raw with _ | (⟨secret, sig⟩ | sig)
        · simp [hd]
        · simp [hd, satConj_holds, sig_holds, hash_holds]
        · simp [hd, satConj_holds, sig_holds, lock_holds, hl]
    case produceBlockFromStake d p =>
      simp only [translateTx, MaySpend, SigBy, sigLookup_holds]
    all_goals simp [translateTx, MaySpend, sigScript, sig_holds]
  | fillOrderV0 o => simp [translateTx, MaySpend, true_holds]
  | fillOrder o => simp [translateTx, MaySpend, sigScript, sig_holds, SigValid]
  | _ => simp only [translateTx, MaySpend, SigBy, sigLookup_holds]

/-- C43. A transaction passes the input checks iff every input may be spent. -/
theorem C43_full (cr : Crypto) (ac : Accounts) (t : Tip) (l : List Input)
    (hh : t.height < 2 ^ 63) (ht : t.time < 2 ^ 64) :
    verifyFull cr ac t l = .ok () ↔ ∀ i ∈ l, MaySpend cr ac t i := by
  rw [verifyFull, forInputs_ok_iff]
  exact forall₂_congr fun i _ => verifyInput_ok_iff cr ac t i hh ht

/-- C43. A block reward passes the input checks iff every input is a stake output of a pool and is
signed by the staker of that output. -/
theorem C43_reward (cr : Crypto) (t : Tip) (l : List Input) :
    verifyFullReward cr t l = .ok () ↔ ∀ i ∈ l, MayStake cr i := by
  rw [verifyFullReward, forInputs_ok_iff]
  refine forall₂_congr fun i _ => ?_
  obtain ⟨info, w, sh⟩ := i
  rw [verifyRewardInput, runScript_ok_iff _ _ (fun x hx => translateReward_wf _ _ x hx)]
  cases info with
  | utxo o s => cases o <;> simp [translateReward, MayStake, sigScript, sig_holds]
  | _ => simp [translateReward, MayStake]

theorem verifyInputTimelock_ok_iff (cr : Crypto) (t : Tip) (i : Input) :
    verifyInputTimelock cr t i = .ok () ↔
      (∃ x, translateTimelock cr i.info i.witness = .ok x) ∧
      ∀ l, lockOf cr i = some l → checkTimelock (lockCtx t i.info) l = .ok () := by
  obtain ⟨info, w, sh⟩ := i
  rw [verifyInputTimelock, runScript_ok_iff _ _ (fun x hx => translateTimelock_wf _ _ _ x hx)]
  cases info with
  | utxo o s =>
    cases o
    case lockThenTransfer d l => simp [translateTimelock, lockOf, lock_holds']
    case htlc h =>
      simp only [translateTimelock, lockOf]
      cases w with
      | noSignature => simp [htlcTimelock]
      | standard mode raw =>
        simp only [htlcTimelock]
        rcases hd : cr.decodeHtlc raw with _ | (⟨secret, sig⟩ | sig)
        · simp
        · simp [true_holds]
        · simp [lock_holds']
    all_goals simp [translateTimelock, lockOf, true_holds]
  | _ => simp [translateTimelock, lockOf, true_holds]

/-- The lock in force on an input is part of the condition for spending it. -/
theorem maySpend_lock {cr : Crypto} {ac : Accounts} {t : Tip} {i : Input}
    (h : MaySpend cr ac t i) (l : TimeLock) (hl : lockOf cr i = some l) :
    Expired (lockCtx t i.info) l := by
  obtain ⟨info, w, sh⟩ := i
  cases info with
  | utxo o s =>
    cases o
    case lockThenTransfer d l' =>
      simp only [lockOf, Option.some.injEq] at hl
      subst hl
      simp only [MaySpend] at h
      exact h.1
    case htlc hh =>
      simp only [MaySpend] at h
      obtain ⟨mode, raw, hw, h⟩ := h
      subst hw
      simp only [lockOf] at hl
      rcases h with ⟨secret, sig, hd, _⟩ | ⟨sig, hd, he, _⟩
      · rw [hd] at hl; simp at hl
      · rw [hd] at hl
        simp only [Option.some.injEq] at hl
        subst hl; exact he
    all_goals simp [lockOf] at hl
  | _ => simp [lockOf] at hl

/-- C43. The mempool's re-check of time locks is implied by the full check on the same chain. -/
theorem C43_full_implies_timelocks (cr : Crypto) (ac : Accounts) (t : Tip) (l : List Input)
    (hh : t.height < 2 ^ 63) (ht : t.time < 2 ^ 64) (h : verifyFull cr ac t l = .ok ()) :
    verifyTimelocks cr t l = .ok () := by
  rw [verifyTimelocks, forInputs_ok_iff]
  intro i hi
  have hm := (C43_full cr ac t l hh ht).1 h i hi
  refine (verifyInputTimelock_ok_iff cr t i).2 ⟨?_, ?_⟩
  · obtain ⟨info, w, sh⟩ := i
    cases info with
    | utxo o s =>
      cases o
      case htlc hx =>
        simp only [MaySpend] at hm
        obtain ⟨mode, raw, hw, h'⟩ := hm
        subst hw
        rcases h' with ⟨secret, sig, hd, _⟩ | ⟨sig, hd, _, _⟩ <;>
          simp [translateTimelock, htlcTimelock, hd]
      all_goals first | (simp [MaySpend] at hm; done) | simp [translateTimelock]
    | _ => simp [translateTimelock]
  · intro lk hlk
    refine (checkTimelock_ok_iff _ lk ?_ ?_).2 (maySpend_lock hm lk hlk)
    · obtain ⟨info, w, sh⟩ := i
      cases info with
      | utxo o s => cases s <;> exact hh
      | _ => exact hh
    · obtain ⟨info, w, sh⟩ := i
      cases info with
      | utxo o s => cases s <;> exact ht
      | _ => exact ht

/-- C43. A transaction that passed the full check on one chain and passes the re-check of its time
locks on another also passes the full check there, as long as the accounts it refers to are
unchanged: signatures and hash locks need not be verified again when the tip moves. -/
theorem C43_timelock_recheck (cr : Crypto) (ac : Accounts) (t t' : Tip) (l : List Input)
    (hh : t.height < 2 ^ 63) (ht : t.time < 2 ^ 64) (hh' : t'.height < 2 ^ 63)
    (ht' : t'.time < 2 ^ 64) (h : verifyFull cr ac t l = .ok ())
    (h' : verifyTimelocks cr t' l = .ok ()) : verifyFull cr ac t' l = .ok () := by
  refine (C43_full cr ac t' l hh' ht').2 fun i hi => ?_
  have hm := (C43_full cr ac t l hh ht).1 h i hi
  have hl := ((verifyInputTimelock_ok_iff cr t' i).1
    ((forInputs_ok_iff _ _).1 h' i hi)).2
  obtain ⟨info, w, sh⟩ := i
  have he : ∀ lk, lockOf cr ⟨info, w, sh⟩ = some lk → Expired (lockCtx t' info) lk := by
    intro lk hlk
    refine (checkTimelock_ok_iff _ lk ?_ ?_).1 (hl lk hlk)
    · cases info with
      | utxo o s => cases s <;> exact hh'
      | _ => exact hh'
    · cases info with
      | utxo o s => cases s <;> exact ht'
      | _ => exact ht'
  cases info with
  | utxo o s =>
    cases o
    case lockThenTransfer d lk =>
      simp only [MaySpend] at hm ⊢
      exact ⟨he lk rfl, hm.2⟩
    case htlc hx =>
      simp only [MaySpend] at hm ⊢
      obtain ⟨mode, raw, hw, h1⟩ := hm
      refine ⟨mode, raw, hw, ?_⟩
      rcases h1 with h1 | ⟨sig, hd, _, hs⟩
      · exact .inl h1
      · refine .inr ⟨sig, hd, he _ ?_, hs⟩
        subst hw
        simp [lockOf, hd]
    all_goals simpa only [MaySpend] using hm
  | _ => simpa only [MaySpend] using hm

/-- C43. An HTLC cannot be taken back by the refund key before its time lock expires, and cannot be
claimed by the spend key without the secret. -/
theorem C43_htlc (cr : Crypto) (ac : Accounts) (t : Tip) (i : Input) (h : Htlc) (src : Source)
    (hi : i.info = .utxo (.htlc h) src) (hh : t.height < 2 ^ 63) (ht : t.time < 2 ^ 64)
    (hok : verifyFull cr ac t [i] = .ok ()) :
    (∃ mode secret sig, cr.hash160 secret = h.secretHash ∧
        SigValid cr i.sighash h.spendKey (.standard mode sig)) ∨
    (Expired (lockCtx t i.info) h.refundTimelock ∧
      ∃ mode sig, SigValid cr i.sighash h.refundKey (.standard mode sig)) := by
  have hm := (C43_full cr ac t [i] hh ht).1 hok i (List.mem_singleton_self i)
  simp only [MaySpend, hi] at hm
  obtain ⟨mode, raw, _, h1⟩ := hm
  rcases h1 with ⟨secret, sig, _, h2, h3⟩ | ⟨sig, _, h2, h3⟩
  · exact .inl ⟨mode, secret, sig, h2, h3⟩
  · exact .inr ⟨by rw [hi]; exact h2, mode, sig, h3⟩

/-- C43. Burnt coins, deposits, delegations, orders and issuances can never be spent. -/
theorem C43_unspendable (cr : Crypto) (ac : Accounts) (t : Tip) (i : Input) (o : Output)
    (src : Source) (hi : i.info = .utxo o src)
    (ho : o ∈ [Output.burn, .createDelegationId, .delegateStaking, .issueFungibleToken,
      .dataDeposit, .createOrder]) (pre post : List Input)
    (hpre : verifyFull cr ac t pre = .ok ()) :
    verifyFull cr ac t (pre ++ i :: post) = .error (.err (.translation .unspendable)) := by
  have h1 : verifyInput cr ac t i = .error (.err (.translation .unspendable)) := by
    simp only [verifyInput, hi]
    simp only [List.mem_cons, List.not_mem_nil, or_false] at ho
    rcases ho with rfl | rfl | rfl | rfl | rfl | rfl <;> rfl
  have h2 : ∀ pre : List Input, forInputs (verifyInput cr ac t) pre = .ok () →
      forInputs (verifyInput cr ac t) (pre ++ i :: post) =
        .error (.err (.translation .unspendable)) := by
    intro pre
    induction pre with
    | nil => intro _; simp [forInputs, h1]
    | cons a r ih =>
      intro hp
      simp only [forInputs, List.cons_append] at hp ⊢
      rcases ha : verifyInput cr ac t a with e | _
      · rw [ha] at hp; cases hp
      · rw [ha] at hp; exact ih hp
  exact h2 pre hpre

/-- A toy scheme for the examples: keys sign by adding, raw bytes below 1000 decode as an HTLC
refund, others as a spend with the preimage 7. -/
def exampleCrypto : Crypto where
  decodePkh := fun r => some (r, r + 7)
  decodePk := fun r => some r
  decodeMs := fun _ => none
  decodeHtlc := fun r => if r < 1000 then some (.refund r) else some (.spend 7 (r - 1000))
  hashKey := fun k => k + 1000
  hashChallenge := fun c => c.keys.sum + c.minRequired
  verifyMsg := fun k s m => decide (s = k + m)
  hash160 := fun p => p + 1
  maxKeys := 32

def exampleAccounts : Accounts where
  poolDecommission := fun p => if p = 3 then some (.publicKey 30) else none
  delegationSpend := fun _ => none
  tokenAuthority := fun t => if t = 4 then some (.publicKey 40) else none
  orderConclude := fun _ => none

def exampleInput (i : InputInfo) (raw : Nat) : Input :=
  { info := i, witness := .standard 1 raw, sighash := fun _ => some 100 }

def exampleHtlc : Htlc :=
  { secretHash := 8, spendKey := .publicKey 5, refundTimelock := .forBlockCount 10,
    refundKey := .publicKey 6 }

/-- A transaction with a locked output, an HTLC claimed with the secret, an HTLC taken back, a pool
decommissioning and a token command passes at height 20; ten blocks earlier it does not. -/
example :
    let l := [exampleInput (.utxo (.lockThenTransfer (.publicKey 1) (.untilHeight 15))
                (.blockchain 2)) 101,
              exampleInput (.utxo (.htlc exampleHtlc) .mempool) 1105,
              exampleInput (.utxo (.htlc exampleHtlc) (.blockchain 10)) 106,
              exampleInput (.utxo (.produceBlockFromStake (.publicKey 9) 3) (.blockchain 4)) 130,
              exampleInput (.tokenCommand 4) 140]
    verifyFull exampleCrypto exampleAccounts ⟨20, 500, fun _ => none⟩ l = .ok () ∧
    verifyTimelocks exampleCrypto ⟨20, 500, fun _ => none⟩ l = .ok () ∧
    verifyFull exampleCrypto exampleAccounts ⟨10, 500, fun _ => none⟩ l =
      .error (.err (.verification (.visitor (.timelock (.heightLocked 10 15))))) ∧
    verifyFullReward exampleCrypto ⟨20, 500, fun _ => none⟩
      [exampleInput (.utxo (.produceBlockFromStake (.publicKey 9) 3) (.blockchain 4)) 109] = .ok () := by
  decide +kernel

end Verif.Script
