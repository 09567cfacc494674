import Verif.Script.AuthSpec
import Verif.Script.Lemmas

namespace Verif.Script

/-! ### Time locks -/

theorem toOption_ok {E A : Type} {x : Except E A} {a : A} (h : x.toOption = some a) : x = .ok a := by
  cases x <;> simp_all [Except.toOption]

theorem checkTimelock_ok_iff (c : LockCtx) (l : TimeLock) (hh : c.spendHeight < 2 ^ 63)
    (ht : c.spendTime < 2 ^ 64) : checkTimelock c l = .ok () ↔ Expired c l := by
  cases l with
  | untilHeight h => by_cases hc : h ≤ c.spendHeight <;>
      simp [checkTimelock, atLeast, Expired, expiry, hc]
  | untilTime t => by_cases hc : t ≤ c.spendTime <;>
      simp [checkTimelock, atLeast, Expired, expiry, hc]
  | forBlockCount d =>
      rcases hs : c.srcHeight with e | s
      · by_cases hd : 2 ^ 63 ≤ d <;>
          simp_all [-Nat.reducePow, -not_le, checkTimelock, Expired, expiry, ofCtx, Except.toOption, bind, Except.bind, throw,
            throwThe, MonadExceptOf.throw, pure, Except.pure] <;> (split <;> simp)
      · simp only [checkTimelock, Expired, expiry, ofCtx, Except.toOption, bind, Except.bind, throw,
            throwThe, MonadExceptOf.throw, pure, Except.pure, hs, heightAdd, atLeast, Option.map_some]
        by_cases hd : 2 ^ 63 ≤ d
        · simp only [if_pos hd]; constructor
          · intro h; cases h
          · intro h; omega
        · by_cases h1 : 2 ^ 63 ≤ s
          · simp only [if_neg hd, if_pos h1]; constructor
            · intro h; cases h
            · intro h; omega
          · by_cases h2 : 2 ^ 63 ≤ s + d
            · simp only [if_neg hd, if_neg h1, if_pos h2]; constructor
              · intro h; cases h
              · intro h; omega
            · by_cases h3 : s + d ≤ c.spendHeight <;> simp [-Nat.reducePow, hd, h1, h2, h3]
  | forSeconds d =>
      rcases hs : c.srcTime with e | s
      · simp_all [checkTimelock, Expired, expiry, ofCtx, Except.toOption, bind, Except.bind]
      · simp only [checkTimelock, Expired, expiry, ofCtx, Except.toOption, bind, Except.bind, throw,
            throwThe, MonadExceptOf.throw, pure, Except.pure, hs, atLeast, Option.map_some]
        by_cases h2 : 2 ^ 64 ≤ s + d
        · simp only [if_pos h2]; constructor
          · intro h; cases h
          · intro h; omega
        · by_cases h3 : s + d ≤ c.spendTime <;> simp [-Nat.reducePow, h2, h3]

theorem checkTimelock_panic_iff (c : LockCtx) (l : TimeLock) :
    checkTimelock c l = .error .panic ↔
      ∃ d s, l = .forBlockCount d ∧ c.srcHeight = .ok s ∧ d < 2 ^ 63 ∧ s < 2 ^ 63 ∧
        2 ^ 63 ≤ s + d := by
  cases l with
  | untilHeight h => by_cases hc : h ≤ c.spendHeight <;> simp [checkTimelock, atLeast, hc]
  | untilTime t => by_cases hc : t ≤ c.spendTime <;> simp [checkTimelock, atLeast, hc]
  | forBlockCount d =>
      rcases hs : c.srcHeight with e | s
      · by_cases hd : 2 ^ 63 ≤ d <;>
          simp_all [-Nat.reducePow, -not_le, checkTimelock, ofCtx, bind, Except.bind, throw,
            throwThe, MonadExceptOf.throw, pure, Except.pure] <;> (split <;> simp)
      · simp only [checkTimelock, ofCtx, bind, Except.bind, throw,
            throwThe, MonadExceptOf.throw, pure, Except.pure, hs, heightAdd, atLeast]
        by_cases hd : 2 ^ 63 ≤ d
        · simp only [if_pos hd]; constructor
          · intro h; cases h
          · rintro ⟨d', s', h1, h2, h3, h4, h5⟩; cases h1; cases h2; omega
        · by_cases h1 : 2 ^ 63 ≤ s
          · simp only [if_neg hd, if_pos h1]; constructor
            · intro h; cases h
            · rintro ⟨d', s', h1, h2, h3, h4, h5⟩; cases h1; cases h2; omega
          · by_cases h2 : 2 ^ 63 ≤ s + d
            · simp only [if_neg hd, if_neg h1, if_pos h2, true_iff]
              exact ⟨d, s, rfl, rfl, by omega, by omega, h2⟩
            · by_cases h3 : s + d ≤ c.spendHeight
              · simp only [if_neg hd, if_neg h1, if_neg h2, if_pos h3]; constructor
                · intro h; cases h
                · rintro ⟨d', s', h1, h2, h3, h4, h5⟩; cases h1; cases h2; omega
              · simp only [if_neg hd, if_neg h1, if_neg h2, if_neg h3]; constructor
                · intro h; cases h
                · rintro ⟨d', s', h1, h2, h3, h4, h5⟩; cases h1; cases h2; omega
  | forSeconds d =>
      rcases hs : c.srcTime with e | s
      · simp [checkTimelock, ofCtx, bind, Except.bind, hs]
      · simp only [checkTimelock, ofCtx, bind, Except.bind, throw,
            throwThe, MonadExceptOf.throw, pure, Except.pure, hs, atLeast]
        by_cases h2 : 2 ^ 64 ≤ s + d
        · simp [-Nat.reducePow, h2]
        · by_cases h3 : s + d ≤ c.spendTime <;> simp [-Nat.reducePow, h2, h3]

/-! ### Signatures -/

theorem isValid_ok_iff (cr : Crypto) (c : Challenge) : c.isValid cr = .ok () ↔
    0 < c.minRequired ∧ c.minRequired ≤ c.keys.length ∧ c.keys.length ≤ cr.maxKeys := by
  simp only [Challenge.isValid]
  by_cases h1 : c.keys = []
  · simp [h1]; omega
  · have : 0 < c.keys.length := List.length_pos_iff.2 h1
    by_cases h2 : cr.maxKeys < c.keys.length
    · simp [h1, h2]
    · by_cases h3 : c.minRequired = 0
      · simp [h1, h2, h3]
      · by_cases h4 : c.keys.length < c.minRequired
        · simp [h1, h2, h3, h4]
        · simp [h1, h2, h3, h4]; omega

theorem checkStructure_ok_iff (cr : Crypto) (m : MsSpend) : checkStructure cr m = .ok () ↔
    m.challenge.isValid cr = .ok () ∧ (∀ i s, m.sigs.get i = some s → i < m.challenge.keys.length) ∧
      m.sigs.size ≤ m.challenge.minRequired := by
  simp only [checkStructure]
  rcases hv : m.challenge.isValid cr with e | _
  · simp
  · simp only [true_and]
    by_cases h1 : m.sigs.entries.any (fun e => decide (m.challenge.keys.length ≤ e.1)) = true
    · rw [if_pos h1]
      simp only [List.any_eq_true, decide_eq_true_eq] at h1
      obtain ⟨x, hx, hl⟩ := h1
      constructor
      · intro h; cases h
      · intro h
        have := h.1 x.1 x.2 (BMap.mem_entries.1 hx)
        omega
    · rw [if_neg h1]
      have h1' : ∀ i s, m.sigs.get i = some s → i < m.challenge.keys.length := by
        intro i s hs
        by_contra hc
        exact h1 (List.any_eq_true.2 ⟨(i, s), BMap.mem_entries.2 hs, by simpa using hc⟩)
      by_cases h2 : m.challenge.minRequired < m.sigs.size
      · rw [if_pos h2]; constructor
        · intro h; cases h
        · intro h; omega
      · rw [if_neg h2]; exact ⟨fun _ => ⟨h1', by omega⟩, fun _ => rfl⟩

/-- All signatures verify under their keys. -/
def AllValid (cr : Crypto) (msg : Nat) (m : MsSpend) : Prop :=
  ∀ i s, m.sigs.get i = some s → ∃ k, m.challenge.keys[i]? = some k ∧ cr.verifyMsg k s msg = true

theorem allValid_iff (cr : Crypto) (msg : Nat) (m : MsSpend) :
    sigsAllValid cr msg m = true ↔ AllValid cr msg m := by
  rw [sigsAllValid, List.all_eq_true]
  constructor
  · intro h i s hs
    have := h (i, s) (BMap.mem_entries.2 hs)
    simp only [] at this
    split at this
    · rename_i k hk; exact ⟨k, hk, this⟩
    · cases this
  · rintro h ⟨i, s⟩ hx
    obtain ⟨k, hk, hv⟩ := h i s (BMap.mem_entries.1 hx)
    simp [hk, hv]

theorem verifySignatures_eq (cr : Crypto) (msg : Nat) (m : MsSpend) (r : SigsResult) :
    verifySignatures cr msg m = .ok r ↔ checkStructure cr m = .ok () ∧
      ((r = .invalid ∧ ¬ AllValid cr msg m) ∨
       (r = .incomplete ∧ AllValid cr msg m ∧ m.sigs.size < m.challenge.minRequired) ∨
       (r = .complete ∧ AllValid cr msg m ∧ m.challenge.minRequired ≤ m.sigs.size)) := by
  simp only [verifySignatures]
  rcases hs : checkStructure cr m with e | _
  · simp
  · by_cases h1 : AllValid cr msg m
    · have h1' := (allValid_iff cr msg m).2 h1
      by_cases h2 : m.sigs.size < m.challenge.minRequired
      · have h3 : ¬ m.challenge.minRequired ≤ m.sigs.size := by omega
        cases r <;> simp [h1, h1', h2, h3]
      · have h3 : m.challenge.minRequired ≤ m.sigs.size := by omega
        cases r <;> simp [h1, h1', h2, h3]
    · have h1' : sigsAllValid cr msg m = false := by
        rw [← Bool.not_eq_true, allValid_iff]; exact h1
      cases r <;> simp [h1, h1']

theorem multisigOk_iff (cr : Crypto) (msg : Nat) (m : MsSpend) :
    verifySignatures cr msg m = .ok .complete ↔ MultisigOk cr msg m := by
  rw [verifySignatures_eq, checkStructure_ok_iff, isValid_ok_iff]
  constructor
  · rintro ⟨⟨⟨a, b, c⟩, d, e⟩, h⟩
    rcases h with h | h | h
    · cases h.1
    · cases h.1
    · exact ⟨a, b, c, by omega, h.2.1⟩
  · intro h
    refine ⟨⟨⟨h.positive, h.enough, h.bounded⟩, ?_, le_of_eq h.count⟩, .inr (.inr ⟨rfl, h.valid, ?_⟩)⟩
    · intro i s hs
      obtain ⟨k, hk, _⟩ := h.valid i s hs
      exact (List.getElem?_eq_some_iff.1 hk).1
    · exact le_of_eq h.count.symm

theorem verifyMultisig_ok_iff (cr : Crypto) (h : Nat) (m : MsSpend) (msg : Nat) :
    verifyMultisig cr h m msg = .ok () ↔ cr.hashChallenge m.challenge = h ∧ MultisigOk cr msg m := by
  simp only [verifyMultisig]
  by_cases hh : cr.hashChallenge m.challenge = h
  · rw [if_neg (not_not.2 hh), ← multisigOk_iff]
    rcases verifySignatures cr msg m with e | r
    · simp
    · cases r <;> simp [hh]
  · simp [hh]

theorem verifySignature_ok_iff (cr : Crypto) (sh : Nat → Option Nat) (d : Dest) (w : Witness) :
    verifySignature cr sh d w = .ok () ↔ SigValid cr sh d w := by
  cases d with
  | anyoneCanSpend => cases w <;> simp [verifySignature, SigValid]
  | publicKeyHash h =>
      cases w with
      | noSignature => simp [verifySignature, SigValid]
      | standard mode raw =>
        simp only [verifySignature, SigValid]
        rcases hm : sh mode with _ | msg
        · constructor
          · intro h; cases h
          · rintro ⟨_, _, _, _, _, hw, h1, _⟩
            cases hw
            rw [hm] at h1; cases h1
        · simp only [verifyStandard]
          rcases hd : cr.decodePkh raw with _ | ⟨k, s⟩
          · constructor
            · intro h; cases h
            · rintro ⟨_, _, _, _, _, hw, _, h1, _⟩
              cases hw
              rw [hd] at h1; cases h1
          · constructor
            · intro h'
              by_cases h1 : cr.hashKey k = h
              · by_cases h2 : cr.verifyMsg k s msg = true
                · exact ⟨mode, raw, msg, k, s, rfl, hm, hd, h1, h2⟩
                · simp [h1, h2] at h'
              · simp [h1] at h'
            · rintro ⟨_, _, _, _, _, hw, h1, h2, h3, h4⟩
              cases hw
              rw [hm] at h1; cases h1
              rw [hd] at h2; cases h2
              simp [h3, h4]
  | publicKey h =>
      cases w with
      | noSignature => simp [verifySignature, SigValid]
      | standard mode raw =>
        simp only [verifySignature, SigValid]
        rcases hm : sh mode with _ | msg
        · constructor
          · intro h; cases h
          · rintro ⟨_, _, _, _, hw, h1, _⟩
            cases hw
            rw [hm] at h1; cases h1
        · simp only [verifyStandard]
          rcases hd : cr.decodePk raw with _ | s
          · constructor
            · intro h; cases h
            · rintro ⟨_, _, _, _, hw, _, h1, _⟩
              cases hw
              rw [hd] at h1; cases h1
          · constructor
            · intro h'
              by_cases h2 : cr.verifyMsg h s msg = true
              · exact ⟨mode, raw, msg, s, rfl, hm, hd, h2⟩
              · simp [h2] at h'
            · rintro ⟨_, _, _, _, hw, h1, h2, h4⟩
              cases hw
              rw [hm] at h1; cases h1
              rw [hd] at h2; cases h2
              simp [h4]
  | scriptHash h =>
      cases w with
      | noSignature => simp [verifySignature, SigValid]
      | standard mode raw =>
        simp only [verifySignature, SigValid]
        rcases hm : sh mode with _ | msg <;> simp [verifyStandard]
  | classicMultisig h =>
      cases w with
      | noSignature => simp [verifySignature, SigValid]
      | standard mode raw =>
        simp only [verifySignature, SigValid]
        rcases hm : sh mode with _ | msg
        · constructor
          · intro h; cases h
          · rintro ⟨_, _, _, _, hw, h1, _⟩
            cases hw
            rw [hm] at h1; cases h1
        · simp only [verifyStandard]
          rcases hd : cr.decodeMs raw with _ | m
          · constructor
            · intro h; cases h
            · rintro ⟨_, _, _, _, hw, _, h1, _⟩
              cases hw
              rw [hd] at h1; cases h1
          · constructor
            · intro h'
              have := (verifyMultisig_ok_iff _ _ _ _).1 h'
              exact ⟨mode, raw, msg, m, rfl, hm, hd, this.1, this.2⟩
            · rintro ⟨_, _, _, _, hw, h1, h2, h3, h4⟩
              cases hw
              rw [hm] at h1; cases h1
              rw [hd] at h2; cases h2
              exact (verifyMultisig_ok_iff _ _ _ _).2 ⟨h3, h4⟩

/-! ### Running translated scripts -/

theorem runScript_ok_iff (v : Leaf → Except (Err ChkErr) Unit) (s : Except TrErr Script)
    (hw : ∀ x, s = .ok x → x.WF) :
    runScript v s = .ok () ↔ ∃ x, s = .ok x ∧ x.Holds v := by
  rcases s with e | x
  · simp [runScript]
  · have h := verifyLoop_ok_iff v x.size [x] (by simp [stackSize]) (by simpa using hw x rfl)
    have hf := verifyLoop_fuel v x.size [x] (by simp [stackSize])
    simp only [runScript, verify]
    simp only [List.mem_singleton, forall_eq] at h
    constructor
    · intro h'
      refine ⟨x, rfl, h.1 ?_⟩
      split at h'
      · cases h'
      · rename_i he; exact he
      · cases h'
      · cases h'
    · rintro ⟨y, hy, hh⟩
      cases hy
      rw [h.2 hh]

theorem satConj_wf (l : List Script) (h : ∀ x ∈ l, x.WF) : (satisfiedConjunction l).WF := by
  simp only [satisfiedConjunction, conjunction, Scr.WF]
  exact ⟨le_refl _, (condsWF_iff _).2 (by rw [ofSats_sats]; exact h)⟩

theorem satConj_holds {L E : Type} (v : L → Except (Err E) Unit) (l : List (Scr L)) :
    (satisfiedConjunction l).Holds v ↔ ∀ x ∈ l, x.Holds v := by
  simp only [satisfiedConjunction, conjunction, Scr.Holds, allHold_iff, ofSats_sats, ofSats_length,
    true_and]

theorem true_holds {L E : Type} (v : L → Except (Err E) Unit) : (Scr.true : Scr L).Holds v := by
  simp [Scr.true, Scr.Holds, Conds.sats, Conds.AllHold]

theorem true_wf {L : Type} : (Scr.true : Scr L).WF := by
  simp [Scr.true, Scr.WF, Conds.WF]

theorem sigLookup_wf {w : Witness} {d : Option Dest} {e : TrErr} {x : Script}
    (h : sigLookup w d e = .ok x) : x.WF := by
  cases d <;> simp [sigLookup, sigScript] at h
  subst h; simp [Scr.WF]

theorem htlcScript_wf {cr : Crypto} {h : Htlc} {w : Witness} {x : Script}
    (hx : htlcScript cr h w = .ok x) : x.WF := by
  cases w with
  | noSignature => simp [htlcScript] at hx
  | standard mode raw =>
    simp only [htlcScript] at hx
    rcases hd : cr.decodeHtlc raw with _ | (_ | _) <;> rw [hd] at hx <;> simp only [] at hx
    · cases hx
    · cases hx; exact satConj_wf _ (by intro x hx; simp at hx; rcases hx with rfl | rfl <;> simp [Scr.WF])
    · cases hx; exact satConj_wf _ (by intro x hx; simp at hx; rcases hx with rfl | rfl <;> simp [Scr.WF])

theorem translateTx_wf (cr : Crypto) (ac : Accounts) (i : InputInfo) (w : Witness) (x : Script)
    (h : translateTx cr ac i w = .ok x) : x.WF := by
  cases i with
  | utxo o s =>
    cases o <;> simp only [translateTx, sigScript] at h
    case transfer => cases h; simp [Scr.WF]
    case lockThenTransfer =>
      cases h; exact satConj_wf _ (by intro x hx; simp at hx; rcases hx with rfl | rfl <;> simp [Scr.WF])
    case createStakePool => cases h; simp [Scr.WF]
    case produceBlockFromStake => exact sigLookup_wf h
    case issueNft => cases h; simp [Scr.WF]
    case htlc => exact htlcScript_wf h
    all_goals cases h
  | fillOrderV0 o => simp only [translateTx] at h; cases h; exact true_wf
  | fillOrder o => simp only [translateTx, sigScript] at h; cases h; simp [Scr.WF]
  | delegation _ => exact sigLookup_wf h
  | tokenCommand _ => exact sigLookup_wf h
  | concludeOrderV0 _ => exact sigLookup_wf h
  | orderCommand _ => exact sigLookup_wf h

theorem translateReward_wf (i : InputInfo) (w : Witness) (x : Script)
    (h : translateReward i w = .ok x) : x.WF := by
  cases i with
  | utxo o s => cases o <;> simp only [translateReward, sigScript] at h <;> cases h <;> simp [Scr.WF]
  | _ => simp [translateReward] at h

theorem translateTimelock_wf (cr : Crypto) (i : InputInfo) (w : Witness) (x : Script)
    (h : translateTimelock cr i w = .ok x) : x.WF := by
  cases i with
  | utxo o s =>
    cases o <;> simp only [translateTimelock] at h
    case htlc hh =>
      cases w with
      | noSignature => simp [htlcTimelock] at h
      | standard mode raw =>
        simp only [htlcTimelock] at h
        rcases hd : cr.decodeHtlc raw with _ | (_ | _) <;> rw [hd] at h <;> simp only [] at h <;> cases h
        · exact true_wf
        · simp [Scr.WF]
    all_goals first | (cases h; done) | (cases h; exact true_wf) | (cases h; simp [Scr.WF])
  | _ => simp only [translateTimelock] at h; cases h; exact true_wf

theorem forInputs_ok_iff (f : Input → Except (Err InErr) Unit) : ∀ l : List Input,
    forInputs f l = .ok () ↔ ∀ i ∈ l, f i = .ok ()
  | [] => by simp [forInputs]
  | i :: r => by
      simp only [forInputs, List.mem_cons, forall_eq_or_imp]
      rcases h : f i with e | _
      · simp
      · simp [forInputs_ok_iff f r]

theorem visitTimelock_ok_iff (c : LockCtx) (l : TimeLock) :
    visitTimelock c l = .ok () ↔ checkTimelock c l = .ok () := by
  simp only [visitTimelock]
  rcases checkTimelock c l with (_ | _) | _ <;> simp

theorem visitSignature_ok_iff (cr : Crypto) (sh : Nat → Option Nat) (d : Dest) (w : Witness) :
    visitSignature cr sh d w = .ok () ↔ SigValid cr sh d w := by
  rw [← verifySignature_ok_iff]
  simp only [visitSignature]
  rcases verifySignature cr sh d w with _ | _ <;> simp

theorem sig_holds (cr : Crypto) (sh : Nat → Option Nat) (c : LockCtx) (d : Dest) (w : Witness) :
    (Scr.leaf (Leaf.signature d w)).Holds (fullChecker cr sh c) ↔ SigValid cr sh d w := by
  simp only [Scr.Holds, fullChecker, visitSignature_ok_iff]

theorem lock_holds (cr : Crypto) (sh : Nat → Option Nat) (c : LockCtx) (l : TimeLock) :
    (Scr.leaf (Leaf.timelock l)).Holds (fullChecker cr sh c) ↔ checkTimelock c l = .ok () := by
  simp only [Scr.Holds, fullChecker, visitTimelock_ok_iff]

theorem lock_holds' (c : LockCtx) (l : TimeLock) :
    (Scr.leaf (Leaf.timelock l)).Holds (timelockChecker c) ↔ checkTimelock c l = .ok () := by
  simp only [Scr.Holds, timelockChecker, visitTimelock_ok_iff]

theorem hash_holds (cr : Crypto) (sh : Nat → Option Nat) (c : LockCtx) (e p : Nat) :
    (Scr.leaf (Leaf.hashlock e p)).Holds (fullChecker cr sh c) ↔ cr.hash160 p = e := by
  simp only [Scr.Holds, fullChecker]
  by_cases h : cr.hash160 p = e <;> simp [h]

theorem sigLookup_holds (cr : Crypto) (sh : Nat → Option Nat) (c : LockCtx) (w : Witness)
    (d : Option Dest) (e : TrErr) :
    (∃ x, sigLookup w d e = .ok x ∧ x.Holds (fullChecker cr sh c)) ↔
      ∃ a, d = some a ∧ SigValid cr sh a w := by
  cases d with
  | none => simp [sigLookup]
  | some a => simp [sigLookup, sigScript, sig_holds]

end Verif.Script
