import Verif.Vault.Lemmas
import Verif.Codec.Laws

/-!
# C86: an encrypted wallet keeps its secrets behind the password
-/

set_option maxRecDepth 100000

namespace Verif.Vault
open Verif Verif.Codec

variable {E : Env}

/-- **C86 (safe).**  Whatever is called on a new wallet file, every call returns what a safe with a password returns: the
secrets written last while it is unlocked, a refusal while it is locked, and it unlocks with the password set last and no
other – provided a root key is stored whenever unlocking is attempted. -/
theorem C86_safe (hE : Sound E) [Lawful E.cr] [Lawful E.cs] [Lawful E.cp] (cs : List (Call E)) (hok : ∀ c ∈ cs, c.Ok)
    (hroot : (Safe.new : Safe E).Rooted cs) :
    ((Store.new : Store E).run cs).1 = ((Safe.new : Safe E).run cs).1 :=
  (run_match hE cs ⟨none, rel_new⟩ hok hroot).1

/-- **C86 (no panic).**  None of these calls panics. -/
theorem C86_no_panic (hE : Sound E) [Lawful E.cr] [Lawful E.cs] [Lawful E.cp] (cs : List (Call E)) (hok : ∀ c ∈ cs, c.Ok)
    (hroot : (Safe.new : Safe E).Rooted cs) : ∀ r ∈ ((Store.new : Store E).run cs).1, r ≠ .error .panic := by
  rw [C86_safe hE cs hok hroot]
  clear hok hroot
  generalize (Safe.new : Safe E) = v
  induction cs generalizing v with
  | nil => exact fun _ h => by cases h
  | cons c cs ih =>
    intro r hr
    simp only [Safe.run] at hr
    cases h : v.call c with
    | ok x =>
      rw [h] at hr
      rcases List.mem_cons.1 hr with rfl | hr
      · exact fun h => by cases h
      · exact ih _ r hr
    | error e =>
      rw [h] at hr
      rcases List.mem_cons.1 hr with rfl | hr
      · rintro he
        cases he
        cases c <;> simp only [Safe.call, Safe.opened] at h <;> (repeat' split at h) <;> cases h
      · exact ih _ r hr

/-- **C86 (flags).**  The wallet reports itself as encrypted exactly if a password is set, and as locked exactly if it is
locked. -/
theorem C86_flags (hE : Sound E) [Lawful E.cr] [Lawful E.cs] [Lawful E.cp] (cs : List (Call E)) (hok : ∀ c ∈ cs, c.Ok)
    (hroot : (Safe.new : Safe E).Rooted cs) :
    ((Store.new : Store E).run cs).2.isEncrypted = ((Safe.new : Safe E).run cs).2.password.isSome ∧
    ((Store.new : Store E).run cs).2.isLocked = ((Safe.new : Safe E).run cs).2.locked := by
  obtain ⟨-, key, hr⟩ := run_match hE cs ⟨none, rel_new⟩ hok hroot
  generalize ((Store.new : Store E).run cs).2 = s at hr ⊢
  generalize ((Safe.new : Safe E).run cs).2 = v at hr ⊢
  have hk := hr.keyFor
  unfold Store.isEncrypted Store.isLocked
  rw [hr.enc]
  cases hl : v.locked with
  | true => simp [hr.locked hl]
  | false =>
    cases hc : s.db.challenge <;> cases hp : v.password <;> rw [hc, hp] at hk <;> simp only [KeyFor] at hk <;>
      simp [hk]

/-- **C86 (nothing in the clear).**  While a password is set, every secret in the wallet file is encrypted under the key
derived from this password and the challenge in the file. -/
theorem C86_sealed (hE : Sound E) [Lawful E.cr] [Lawful E.cs] [Lawful E.cp] (cs : List (Call E)) (hok : ∀ c ∈ cs, c.Ok)
    (hroot : (Safe.new : Safe E).Rooted cs) (pw : Bytes)
    (hpw : ((Safe.new : Safe E).run cs).2.password = some pw) :
    ∃ salt, ((Store.new : Store E).run cs).2.db.challenge = some salt ∧
      (∀ b, ((Store.new : Store E).run cs).2.db.root = some b → ∃ n m, b = E.encrypt (E.kdf salt pw) n m) ∧
      (∀ b, ((Store.new : Store E).run cs).2.db.seed = some b → ∃ n m, b = E.encrypt (E.kdf salt pw) n m) ∧
      (∀ id l b, ((Store.new : Store E).run cs).2.db.keys.get id = some (l, b) →
        ∃ n m, b = E.encrypt (E.kdf salt pw) n m) := by
  obtain ⟨-, key, hr⟩ := run_match hE cs ⟨none, rel_new⟩ hok hroot
  generalize ((Store.new : Store E).run cs).2 = s at hr ⊢
  generalize ((Safe.new : Safe E).run cs).2 = v at hr hpw
  have hk := hr.keyFor
  rw [hpw] at hk
  have holds : ∀ {A : Type} {c : Codec A} {k : E.Key} {b : Option Bytes} {a : Option A}, Holds c (some k) b a →
      ∀ x, b = some x → ∃ n m, x = E.encrypt k n m := by
    rintro A c k b a h x rfl
    cases a with
    | none => exact h.elim
    | some a =>
      obtain ⟨-, n, rfl⟩ := h
      exact ⟨n, c.enc a, rfl⟩
  cases hc : s.db.challenge with
  | none => rw [hc] at hk; exact hk.elim
  | some salt =>
    rw [hc] at hk
    simp only [KeyFor] at hk
    subst hk
    refine ⟨salt, rfl, holds hr.root, holds hr.seed, fun id l b hb => ?_⟩
    have := hr.keys id
    rw [hb] at this
    cases hv : v.keys id with
    | none => rw [hv] at this; exact this.elim
    | some p =>
      rw [hv] at this
      obtain ⟨-, -, n, rfl⟩ := this
      exact ⟨n, _, rfl⟩

/-- a locked safe without the password says the same whatever is in it -/
theorem locked_says (cs : List (Call E)) (v v' : Safe E) (pw : Bytes) (h1 : v.locked = true) (h2 : v'.locked = true)
    (hp : v.password = some pw) (hp' : v'.password = some pw) (hl : ∀ id, (v.keys id).map (·.1) = (v'.keys id).map (·.1))
    (hno : Call.unlock pw ∉ cs) : (v.run cs).1 = (v'.run cs).1 := by
  induction cs with
  | nil => rfl
  | cons c cs ih =>
    have ih := ih fun h => hno (List.mem_cons_of_mem _ h)
    have hc : (∃ e, v.call c = .error e ∧ v'.call c = .error e) ∨
        (∃ o, v.call c = .ok (o, v) ∧ v'.call c = .ok (o, v')) := by
      have e1 : { v with locked := true } = v := by cases v; simp only at h1; rw [h1]
      have e2 : { v' with locked := true } = v' := by cases v'; simp only at h2; rw [h2]
      cases c with
      | unlock p =>
        left
        have hne : pw ≠ p := fun h => hno (by rw [h]; simp)
        simp [Safe.call, h1, h2, hp, hp', hne]
      | lock => right; simp [Safe.call, hp, hp', e1, e2]; exact ⟨by rw [← hp, e1], by rw [← hp', e2]⟩
      | reopen => right; simp [Safe.call, hp, hp', e1, e2]; exact ⟨by rw [← hp, e1], by rw [← hp', e2]⟩
      | getLabel id => right; exact ⟨_, rfl, by simp [Safe.call, hl]⟩
      | _ => left; simp [Safe.call, Safe.opened, h1, h2]
    rcases hc with ⟨e, ha, hb⟩ | ⟨o, ha, hb⟩
    · simp only [Safe.run, ha, hb, ih]
    · simp only [Safe.run, ha, hb, ih]

/-- **C86 (locked).**  Two wallets which are locked with the same password and have the same labels of standalone keys
cannot be told apart by any calls until the password is given, whatever secrets are in them. -/
theorem C86_locked (hE : Sound E) [Lawful E.cr] [Lawful E.cs] [Lawful E.cp] (hs hs' cs : List (Call E))
    (hok : ∀ c ∈ hs, c.Ok) (hok' : ∀ c ∈ hs', c.Ok) (hokc : ∀ c ∈ cs, c.Ok)
    (hroot : (Safe.new : Safe E).Rooted hs) (hroot' : (Safe.new : Safe E).Rooted hs')
    (hrc : ((Safe.new : Safe E).run hs).2.Rooted cs) (hrc' : ((Safe.new : Safe E).run hs').2.Rooted cs)
    (pw : Bytes) (h1 : ((Safe.new : Safe E).run hs).2.locked = true) (h2 : ((Safe.new : Safe E).run hs').2.locked = true)
    (hp : ((Safe.new : Safe E).run hs).2.password = some pw) (hp' : ((Safe.new : Safe E).run hs').2.password = some pw)
    (hl : ∀ id, (((Safe.new : Safe E).run hs).2.keys id).map (·.1) = (((Safe.new : Safe E).run hs').2.keys id).map (·.1))
    (hno : Call.unlock pw ∉ cs) :
    (((Store.new : Store E).run hs).2.run cs).1 = (((Store.new : Store E).run hs').2.run cs).1 := by
  have r1 := (run_match hE hs ⟨none, rel_new⟩ hok hroot).2
  have r2 := (run_match hE hs' ⟨none, rel_new⟩ hok' hroot').2
  rw [(run_match hE cs r1 hokc hrc).1, (run_match hE cs r2 hokc hrc').1]
  exact locked_says cs _ _ pw h1 h2 hp hp' hl hno

/-- **C86 (root key needed).**  Without a root key – as in wallets whose keys are on a device – a locked wallet unlocks
with *any* password.  Reading a standalone private key, and setting a new password, then panics unless the password was
the right one. -/
theorem C86_needs_root (hE : Sound E) [Lawful E.cr] [Lawful E.cs] [Lawful E.cp] (cs : List (Call E)) (hok : ∀ c ∈ cs, c.Ok)
    (hroot : (Safe.new : Safe E).Rooted cs) (pw : Bytes) (hl : ((Safe.new : Safe E).run cs).2.locked = true)
    (hr : ((Safe.new : Safe E).run cs).2.root = none) :
    ∃ s, ((Store.new : Store E).run cs).2.call (.unlock pw) = .ok (.unit, s) ∧
      (((Safe.new : Safe E).run cs).2.password ≠ some pw → ∀ id, (((Safe.new : Safe E).run cs).2.keys id).isSome →
        s.call (.getKey id) = .error .panic ∧
        ∀ new salt n1 n2 rng, new ≠ some [] → s.call (.encrypt new salt n1 n2 rng) = .error .panic) := by
  obtain ⟨-, key, hR⟩ := run_match hE cs ⟨none, rel_new⟩ hok hroot
  generalize ((Store.new : Store E).run cs).2 = s at hR ⊢
  generalize ((Safe.new : Safe E).run cs).2 = v at hR hl hr
  have hk := hR.keyFor
  have hh := hR.root
  rw [hr] at hh
  have hroot' : s.db.root = none := by
    cases hb : s.db.root with
    | none => rfl
    | some b => rw [hb] at hh; exact hh.elim
  obtain ⟨pw0, hp⟩ := Option.isSome_iff_exists.1 (hR.locked hl)
  rw [hp] at hk
  cases hc : s.db.challenge with
  | none => rw [hc] at hk; exact hk.elim
  | some salt =>
    rw [hc] at hk
    simp only [KeyFor] at hk
    subst hk
    refine ⟨{ s with enc := .unlocked (some (E.kdf salt pw)) }, ?_, fun hne id hid => ?_⟩
    · simp only [Store.call, Store.unlockPrivateKeys, hR.enc, hl, if_true, hc, checkRootKeys, hroot']
      rfl
    · have hkk := hR.keys id
      obtain ⟨⟨l', p⟩, hv⟩ := Option.isSome_iff_exists.1 hid
      rw [hv] at hkk
      cases hg : s.db.keys.get id with
      | none => rw [hg] at hkk; exact hkk.elim
      | some x =>
        obtain ⟨l, b⟩ := x
        rw [hg] at hkk
        obtain ⟨-, -, n, rfl⟩ := hkk
        have hd : ∀ n m, E.decrypt (E.kdf salt pw) (E.encrypt (E.kdf salt pw0) n m) = none := fun n m =>
          hE.authentic _ _ _ _ fun h => hne (by rw [hp, hE.distinct _ _ _ h])
        refine ⟨?_, fun new salt' n1 n2 rng hnew => ?_⟩
        · simp only [Store.call, withKey, hg, Option.map_some, getSecret, take, takeSealed, wrap, hd, expect]
          rfl
        · have hall : ∀ ch k, resealAll s.db ch (some (E.kdf salt pw)) k n1 n2 rng = .error .panic := by
            intro ch k
            have h1 : ∀ rest, resealEntries (some (E.kdf salt pw)) k rng rest = .error .panic ∨ rest = [] ∨
                ∃ e ∈ rest, ¬ ∃ n p, e.2.2 = E.encrypt (E.kdf salt pw0) n (E.cp.enc p) := by
              intro rest
              cases rest with
              | nil => exact .inr (.inl rfl)
              | cons e rest =>
                by_cases he : ∃ n p, e.2.2 = E.encrypt (E.kdf salt pw0) n (E.cp.enc p)
                · left
                  obtain ⟨i, l, b⟩ := e
                  obtain ⟨n, p, hb⟩ := he
                  simp only at hb
                  subst hb
                  simp only [resealEntries, take, takeSealed, hd, expect]
                  rfl
                · exact .inr (.inr ⟨e, by simp, he⟩)
            have h2 : resealEntries (some (E.kdf salt pw)) k rng s.db.keys.entries = .error .panic := by
              rcases h1 s.db.keys.entries with h | h | ⟨e, he, h⟩
              · exact h
              · have := BMap.mem_entries.2 hg
                rw [h] at this
                cases this
              · exfalso
                obtain ⟨i, l2, b2⟩ := e
                have h3 := hR.keys i
                rw [BMap.mem_entries.1 he] at h3
                cases hv2 : v.keys i with
                | none => rw [hv2] at h3; exact h3
                | some y =>
                  rw [hv2] at h3
                  obtain ⟨-, -, n', hb⟩ := h3
                  exact h ⟨n', y.2, hb⟩
            have h4 : ∀ sd, reseal (E := E) E.cs (some (E.kdf salt pw)) k n2 s.db.seed = sd →
                sd = .error .panic ∨ ∃ x, sd = .ok x := by
              intro sd hsd
              cases sd with
              | ok x => exact .inr ⟨x, rfl⟩
              | error e =>
                left
                cases hb : s.db.seed with
                | none => rw [hb] at hsd; cases hsd
                | some b =>
                  rw [hb] at hsd
                  simp only [reseal] at hsd
                  cases ht : take (E := E) E.cs (some (E.kdf salt pw)) b with
                  | ok a => rw [ht] at hsd; cases hsd
                  | error _ => rw [ht] at hsd; exact hsd.symm
            unfold resealAll
            rw [hroot']
            rw [h2, show reseal (E := E) E.cr (some (E.kdf salt pw)) k n1 none = .ok none from rfl]
            rcases h4 _ rfl with h | ⟨x, h⟩
            · rw [h]; rfl
            · rw [h]; rfl
          cases new with
          | none =>
            simp only [Store.call, Store.encryptPrivateKeys, hall]
            rfl
          | some q =>
            have hq : q.isEmpty = false := by
              cases q with
              | nil => exact absurd rfl hnew
              | cons => rfl
            simp only [Store.call, Store.encryptPrivateKeys, passwordToKey, hq, Bool.false_eq_true, if_false]
            change Except.map _ ((resealAll s.db _ _ _ n1 n2 rng).bind _) = _
            rw [hall]
            rfl

/-! ### Concrete cases -/

/-- a marked form of a key that no other key continues -/
def markKey : Bytes → Bytes
  | [] => [0]
  | b :: k => 1 :: b :: markKey k

theorem markKey_prefix (k k' : Bytes) (m m' : Bytes) (h : markKey k ++ m = markKey k' ++ m') : k = k' ∧ m = m' := by
  induction k generalizing k' with
  | nil =>
    cases k' with
    | nil => exact ⟨rfl, List.append_cancel_left h⟩
    | cons b k' =>
      simp only [markKey, List.cons_append, List.cons.injEq] at h
      exact absurd h.1 (by decide)
  | cons b k ih =>
    cases k' with
    | nil =>
      simp only [markKey, List.cons_append, List.cons.injEq] at h
      exact absurd h.1 (by decide)
    | cons b' k' =>
      simp only [markKey, List.cons_append, List.cons.injEq] at h
      obtain ⟨e1, e2⟩ := ih k' h.2.2
      exact ⟨by rw [h.2.1, e1], e2⟩

/-- something that satisfies what is assumed of the cryptography (and hides nothing) -/
def toy : Env where
  Key := Bytes
  Salt := Unit
  Nonce := Unit
  R := Nat
  S := Nat
  P := Nat
  kdf _ p := p
  encrypt k _ m := markKey k ++ m
  decrypt k b := if (markKey k).isPrefixOf b then some (b.drop (markKey k).length) else none
  cr := uint 4
  cs := uint 4
  cp := uint 4
  zero := (0 : Nat)

theorem toy_sound : Sound toy where
  round k n m := by
    simp only [toy]
    rw [if_pos (List.isPrefixOf_iff_prefix.2 (List.prefix_append _ _)), List.drop_left]
  authentic k k' n m h := by
    simp only [toy]
    rw [if_neg]
    intro hp
    obtain ⟨t, ht⟩ := List.isPrefixOf_iff_prefix.1 hp
    exact h (markKey_prefix k' k t m ht).1
  distinct _ _ _ h := h

instance : Lawful toy.cr := inferInstanceAs (Lawful (uint 4))
instance : Lawful toy.cs := inferInstanceAs (Lawful (uint 4))
instance : Lawful toy.cp := inferInstanceAs (Lawful (uint 4))

/-- the wallet is made, encrypted, locked, tried with a wrong password, unlocked, given a new password, and reopened -/
def exCalls : List (Call toy) :=
  [.setRoot (5 : Nat) (), .setSeed (6 : Nat) (), .setKey 1 7 (8 : Nat) (), .encrypt (some [1, 2]) () () () (fun _ => ()),
   .lock, .getSeed, .unlock [1], .unlock [1, 2], .getSeed, .encrypt (some [3]) () () () (fun _ => ()), .reopen,
   .unlock [1, 2], .getLabel 1, .unlock [3], .getKey 1, .delSeed (), .getSeed]

/-- a form in which results can be compared -/
def shown : Except Err (Out toy) → Sum Err (Option Nat)
  | .error e => .inl e
  | .ok .unit => .inr none
  | .ok (.root r) => .inr r
  | .ok (.seed s) => .inr s
  | .ok (.key p) => .inr p
  | .ok (.label l) => .inr l

example : ((Store.new : Store toy).run exCalls).1.map shown =
    [.inr none, .inr none, .inr none, .inr none, .inr none, .inl .walletLocked, .inl .invalidPassword, .inr none,
     .inr (some 6), .inr none, .inr none, .inl .invalidPassword, .inr (some 7), .inr none, .inr (some 8),
     .inr (some 6), .inr none] := by
  decide +kernel

/-- the conditions of the theorems hold for these calls -/
example : (∀ c ∈ exCalls, c.Ok) ∧ (Safe.new : Safe toy).Rooted exCalls := by
  constructor
  · intro c hc
    simp only [exCalls, List.mem_cons, List.not_mem_nil, or_false] at hc
    rcases hc with rfl | rfl | rfl | rfl | rfl | rfl | rfl | rfl | rfl | rfl | rfl | rfl | rfl | rfl | rfl | rfl | rfl <;>
      simp [Call.Ok, toy, uint]
  · simp [Safe.Rooted, exCalls, Safe.call, Safe.opened, Safe.new]
    rfl

/-- without a root key: any password unlocks, and the standalone key cannot be read -/
example : ((Store.new : Store toy).run [.setKey 1 7 (8 : Nat) (), .encrypt (some [1, 2]) () () () (fun _ => ()), .lock,
      .unlock [9], .getKey 1]).1.map shown =
    [.inr none, .inr none, .inr none, .inr none, .inl .panic] := by
  decide +kernel

end Verif.Vault
