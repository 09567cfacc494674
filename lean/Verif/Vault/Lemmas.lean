import Verif.Vault.Spec

/-!
# The storage follows the safe
-/

namespace Verif.Vault
open Verif Verif.Codec

variable {E : Env}

/-- a stored secret is the given one under the given key -/
def Holds {A : Type} (c : Codec A) (key : Option E.Key) : Option Bytes → Option A → Prop
  | none, none => True
  | some b, some a => c.ok a ∧ ∃ n, b = wrap (E := E) c key n a
  | _, _ => False

/-- the key in use belongs to challenge and password -/
def KeyFor (E : Env) : Option E.Salt → Option Bytes → Option E.Key → Prop
  | none, none, k => k = none
  | some salt, some pw, k => k = some (E.kdf salt pw)
  | _, _, _ => False

/-- stored standalone keys -/
def HoldsKey (key : Option E.Key) : Option (Nat × Bytes) → Option (Nat × E.P) → Prop
  | none, none => True
  | some (l, b), some (l', p) => l = l' ∧ E.cp.ok p ∧ ∃ n, b = wrap (E := E) E.cp key n p
  | _, _ => False

/-- the relation between storage and safe -/
structure Rel (s : Store E) (v : Safe E) (key : Option E.Key) : Prop where
  keyFor : KeyFor E s.db.challenge v.password key
  enc : s.enc = if v.locked then .locked else .unlocked key
  locked : v.locked = true → v.password.isSome = true
  root : Holds E.cr key s.db.root v.root
  seed : Holds E.cs key s.db.seed v.seed
  keys : ∀ id, HoldsKey key (s.db.keys.get id) (v.keys id)

theorem decodeAll'_enc {A : Type} {c : Codec A} [hc : Lawful c] {a : A} (h : c.ok a) :
    decodeAll' c (c.enc a) = .ok a := by
  have h1 := hc.round a [] h
  rw [List.append_nil] at h1
  simp [decodeAll', Codec.decodeAll, h1]

theorem take_wrap (hE : Sound E) {A : Type} {c : Codec A} [Lawful c] {a : A} (h : c.ok a) (key : Option E.Key)
    (n : E.Nonce) : take c key (wrap (E := E) c key n a) = .ok a := by
  cases key with
  | none => exact decodeAll'_enc h
  | some k =>
    simp only [take, takeSealed, wrap, hE.round]
    exact decodeAll'_enc h

theorem getSecret_holds (hE : Sound E) {A : Type} {c : Codec A} [Lawful c] {key : Option E.Key} {b : Option Bytes}
    {a : Option A} (h : Holds c key b a) : getSecret (E := E) c key b = .ok a := by
  cases b with
  | none =>
    cases a with
    | none => rfl
    | some a => exact h.elim
  | some b =>
    cases a with
    | none => exact h.elim
    | some a =>
      obtain ⟨ha, n, rfl⟩ := h
      simp [getSecret, take_wrap hE ha, expect, Except.map]

theorem reseal_holds (hE : Sound E) {A : Type} {c : Codec A} [Lawful c] {old new : Option E.Key} {n : E.Nonce}
    {b : Option Bytes} {a : Option A} (h : Holds c old b a) :
    ∃ b', reseal (E := E) c old new n b = .ok b' ∧ Holds c new b' a := by
  cases b with
  | none =>
    cases a with
    | none => exact ⟨none, rfl, trivial⟩
    | some a => exact h.elim
  | some b =>
    cases a with
    | none => exact h.elim
    | some a =>
      obtain ⟨ha, m, rfl⟩ := h
      refine ⟨some (wrap (E := E) c new n a), ?_, ha, n, rfl⟩
      simp [reseal, take_wrap hE ha, expect]

theorem resealEntries_ok (hE : Sound E) [Lawful E.cp] {old new : Option E.Key} {rng : Nat → E.Nonce}
    (f : Nat → Option (Nat × E.P)) (es : List (Nat × (Nat × Bytes)))
    (h : ∀ e ∈ es, HoldsKey old (some e.2) (f e.1)) :
    ∃ es', resealEntries (E := E) old new rng es = .ok es' ∧ es'.map (·.1) = es.map (·.1) ∧
      ∀ e ∈ es', HoldsKey new (some e.2) (f e.1) := by
  induction es with
  | nil => exact ⟨[], rfl, rfl, fun _ h => by cases h⟩
  | cons e es ih =>
    obtain ⟨id, l, b⟩ := e
    obtain ⟨es', h1, h2, h3⟩ := ih fun e he => h e (List.mem_cons_of_mem _ he)
    have h0 := h (id, (l, b)) (by simp)
    simp only at h0
    cases hf : f id with
    | none => rw [hf] at h0; exact h0.elim
    | some p =>
      obtain ⟨l', p⟩ := p
      rw [hf] at h0
      obtain ⟨rfl, hp, n, rfl⟩ := h0
      refine ⟨(id, (l, wrap (E := E) E.cp new (rng id) p)) :: es', ?_, by simp [h2], ?_⟩
      · simp only [resealEntries, take_wrap hE hp, expect, h1]
        rfl
      · intro e he
        rcases List.mem_cons.1 he with rfl | he
        · simp only [hf]
          exact ⟨rfl, hp, _, rfl⟩
        · exact h3 e he

theorem writeEntries_get (es : List (Nat × (Nat × Bytes))) (m : BMap Nat (Nat × Bytes)) (id : Nat)
    (x : Nat × Bytes) (h : (writeEntries m es).get id = some x) : (id, x) ∈ es ∨ id ∉ es.map (·.1) ∧ m.get id = some x := by
  induction es generalizing m with
  | nil => exact .inr ⟨by simp, h⟩
  | cons e es ih =>
    rcases ih (m.insert e.1 e.2) h with h | ⟨h1, h2⟩
    · exact .inl (List.mem_cons_of_mem _ h)
    · rw [BMap.get_insert] at h2
      split at h2
      · rename_i hid
        left
        cases h2
        rw [hid]
        simp
      · rename_i hid
        right
        refine ⟨?_, h2⟩
        simp only [List.map_cons, List.mem_cons, not_or]
        exact ⟨hid, h1⟩

theorem writeEntries_isSome (es : List (Nat × (Nat × Bytes))) (m : BMap Nat (Nat × Bytes)) (id : Nat)
    (h : (m.get id).isSome) : ((writeEntries m es).get id).isSome := by
  induction es generalizing m with
  | nil => exact h
  | cons e es ih =>
    apply ih
    rw [BMap.get_insert]
    split
    · rfl
    · exact h

theorem writeEntries_none (es : List (Nat × (Nat × Bytes))) (m : BMap Nat (Nat × Bytes)) (id : Nat)
    (h : m.get id = none) (hn : id ∉ es.map (·.1)) : (writeEntries m es).get id = none := by
  cases hg : (writeEntries m es).get id with
  | none => rfl
  | some x =>
    rcases writeEntries_get es m id x hg with h' | ⟨-, h'⟩
    · exact absurd (List.mem_map.2 ⟨_, h', rfl⟩) hn
    · rw [h] at h'; cases h'

theorem resealAll_ok (hE : Sound E) [Lawful E.cr] [Lawful E.cs] [Lawful E.cp] {s : Store E} {v : Safe E}
    {old : Option E.Key} (hr : Rel s v old) (challenge : Option E.Salt) (new : Option E.Key) (n1 n2 : E.Nonce)
    (rng : Nat → E.Nonce) :
    ∃ db, resealAll s.db challenge old new n1 n2 rng = .ok db ∧ db.challenge = challenge ∧
      Holds E.cr new db.root v.root ∧ Holds E.cs new db.seed v.seed ∧
      ∀ id, HoldsKey new (db.keys.get id) (v.keys id) := by
  obtain ⟨r, h1, h1'⟩ := reseal_holds (new := new) (n := n1) hE hr.root
  obtain ⟨sd, h2, h2'⟩ := reseal_holds (new := new) (n := n2) hE hr.seed
  obtain ⟨es, h3, h4, h5⟩ := resealEntries_ok (new := new) (rng := rng) hE v.keys s.db.keys.entries (by
    rintro ⟨id, x⟩ he
    have := hr.keys id
    rwa [BMap.mem_entries.1 he] at this)
  refine ⟨⟨challenge, r, sd, writeEntries s.db.keys es⟩, ?_, rfl, h1', h2', fun id => ?_⟩
  · simp only [resealAll, h1, h2, h3]
    rfl
  · simp only
    have hk := hr.keys id
    cases hg : s.db.keys.get id with
    | none =>
      rw [hg] at hk
      rw [writeEntries_none _ _ _ hg]
      · cases hv : v.keys id with
        | none => trivial
        | some p => rw [hv] at hk; exact hk.elim
      · rw [h4]
        intro hm
        obtain ⟨⟨i, x⟩, he, rfl⟩ := List.mem_map.1 hm
        rw [BMap.mem_entries.1 he] at hg
        cases hg
    | some x =>
      have hs := writeEntries_isSome es s.db.keys id (by rw [hg]; rfl)
      obtain ⟨y, hy⟩ := Option.isSome_iff_exists.1 hs
      rw [hy]
      rcases writeEntries_get es s.db.keys id y hy with h | ⟨h, -⟩
      · exact h5 _ h
      · exfalso
        apply h
        rw [h4]
        exact List.mem_map.2 ⟨(id, x), BMap.mem_entries.2 hg, rfl⟩

/-- one call: the same result, and the relation is kept -/
def Match (x : Except Err (Out E × Store E)) (y : Except Err (Out E × Safe E)) : Prop :=
  match x, y with
  | .ok (o, s), .ok (o', v) => o = o' ∧ ∃ key, Rel s v key
  | .error e, .error e' => e = e'
  | _, _ => False

theorem withKey_match {s : Store E} {v : Safe E} {key : Option E.Key} (hr : Rel s v key)
    {f : Option E.Key → Except Err (Out E × Store E)} {x : Out E × Safe E}
    (h : v.locked = false → Match (f key) (.ok x)) : Match (withKey s f) (v.opened x) := by
  unfold withKey Safe.opened
  rw [hr.enc]
  cases hl : v.locked with
  | true => simp [Match]
  | false => simpa using h hl

theorem call_match (hE : Sound E) [Lawful E.cr] [Lawful E.cs] [Lawful E.cp] {s : Store E} {v : Safe E}
    {key : Option E.Key} (hr : Rel s v key) (c : Call E) (hok : c.Ok) (hroot : ∀ pw, c = .unlock pw → v.root.isSome) :
    Match (s.call c) (v.call c) := by
  cases c with
  | encrypt pw salt n1 n2 rng =>
    simp only [Store.call, Safe.call, Store.encryptPrivateKeys, hr.enc]
    cases hl : v.locked with
    | true => simp [Match, Except.map]
    | false =>
      simp only [Bool.false_eq_true, if_false]
      cases pw with
      | none =>
        obtain ⟨db, h1, h2, h3, h4, h5⟩ := resealAll_ok hE hr none none n1 n2 rng
        simp only [h1]
        refine ⟨rfl, none, ⟨?_, by simp [hl], by simp [hl], h3, h4, h5⟩⟩
        simp only [h2]
        rfl
      | some pw =>
        by_cases hp : pw = []
        · subst hp
          simp [passwordToKey, Match]
          rfl
        · obtain ⟨db, h1, h2, h3, h4, h5⟩ := resealAll_ok hE hr (some salt) (some (E.kdf salt pw)) n1 n2 rng
          have hp' : pw.isEmpty = false := by cases pw; exact absurd rfl hp; rfl
          have e1 : passwordToKey (E := E) pw salt = .ok (E.kdf salt pw, salt) := by simp [passwordToKey, hp']
          rw [if_neg (by simpa using hp)]
          simp only [e1]
          change Match (Except.map _ ((resealAll s.db (some salt) key (some (E.kdf salt pw)) n1 n2 rng).bind _)) _
          rw [h1]
          refine ⟨rfl, some (E.kdf salt pw), ⟨?_, by simp [hl], by simp [hl], h3, h4, h5⟩⟩
          simp only [h2]
          rfl
  | unlock pw =>
    simp only [Store.call, Safe.call, Store.unlockPrivateKeys, hr.enc]
    cases hl : v.locked with
    | false => simp [Match, Except.map]
    | true =>
      simp only [if_true, Bool.true_eq_false, if_false]
      have hk := hr.keyFor
      cases hc : s.db.challenge with
      | none =>
        rw [hc] at hk
        have := hr.locked hl
        cases hp : v.password with
        | none => rw [hp] at this; cases this
        | some _ => rw [hp] at hk; exact hk.elim
      | some salt =>
        rw [hc] at hk
        cases hp : v.password with
        | none => rw [hp] at hk; exact hk.elim
        | some pw0 =>
          rw [hp] at hk
          simp only [KeyFor] at hk
          have hrt := hroot pw rfl
          have hh := hr.root
          cases hv : v.root with
          | none => rw [hv] at hrt; cases hrt
          | some r =>
            rw [hv] at hh
            cases hb : s.db.root with
            | none => rw [hb] at hh; exact hh.elim
            | some b =>
              rw [hb, hk] at hh
              obtain ⟨hok', n, rfl⟩ := hh
              by_cases he : pw0 = pw
              · subst he
                have h1 : checkRootKeys s.db (E.kdf salt pw0) = .ok () := by
                  have := take_wrap hE hok' (some (E.kdf salt pw0)) n
                  simp only [take] at this
                  simp only [checkRootKeys, hb, this]
                rw [if_pos rfl]
                simp only [h1]
                refine ⟨rfl, key, ⟨?_, by simp [hk], by simp, (by have := hr.root; rw [hv] at this; exact this), hr.seed, hr.keys⟩⟩
                simp only [hc, hp]
                exact hk
              · have h1 : checkRootKeys s.db (E.kdf salt pw) = .error .invalidPassword := by
                  simp only [checkRootKeys, hb, takeSealed, wrap,
                    hE.authentic (E.kdf salt pw0) (E.kdf salt pw) _ _ fun h => he (hE.distinct _ _ _ h).symm]
                rw [if_neg (fun h => he (Option.some.inj h))]
                simp only [h1]
                rfl
  | lock =>
    simp only [Store.call, Safe.call, Store.lockPrivateKeys, hr.enc]
    have hk := hr.keyFor
    cases hl : v.locked with
    | true =>
      have := hr.locked hl
      obtain ⟨pw, hp⟩ := Option.isSome_iff_exists.1 this
      simp only [if_true, hp, Option.isNone_some, Bool.false_eq_true, if_false]
      refine ⟨rfl, key, ⟨?_, ?_, fun _ => ?_, hr.root, hr.seed, hr.keys⟩⟩
      · rw [hp] at hk; simpa [hp] using hk
      · rw [hr.enc, hl]
      · simp [hp]
    | false =>
      simp only [Bool.false_eq_true, if_false]
      cases hp : v.password with
      | none =>
        rw [hp] at hk
        have : key = none := by
          cases hc : s.db.challenge with
          | none => rw [hc] at hk; exact hk
          | some _ => rw [hc] at hk; exact hk.elim
        subst this
        simp [Match, Except.map]
      | some pw =>
        rw [hp] at hk
        cases hc : s.db.challenge with
        | none => rw [hc] at hk; exact hk.elim
        | some salt =>
          rw [hc] at hk
          simp only [KeyFor] at hk
          subst hk
          simp only [Option.isNone_some, Bool.false_eq_true, if_false]
          refine ⟨rfl, some (E.kdf salt pw), ⟨?_, by simp, fun _ => by simp [hp], hr.root, hr.seed, hr.keys⟩⟩
          simp only [hc, hp]
          rfl
  | reopen =>
    simp only [Store.call, Safe.call, Store.openDb]
    refine ⟨rfl, key, ⟨hr.keyFor, ?_, fun h => h, hr.root, hr.seed, hr.keys⟩⟩
    have hk := hr.keyFor
    simp only
    cases hc : s.db.challenge with
    | none =>
      rw [hc] at hk
      cases hp : v.password with
      | none =>
        rw [hp] at hk
        simp only [KeyFor] at hk
        simp [hk]
      | some _ => rw [hp] at hk; exact hk.elim
    | some salt =>
      rw [hc] at hk
      cases hp : v.password with
      | none => rw [hp] at hk; exact hk.elim
      | some pw => simp
  | setRoot r n =>
    exact withKey_match hr fun hl => ⟨rfl, key, ⟨hr.keyFor, hr.enc, hr.locked, ⟨hok, n, rfl⟩, hr.seed, hr.keys⟩⟩
  | delRoot =>
    exact withKey_match hr fun hl => ⟨rfl, key, ⟨hr.keyFor, hr.enc, hr.locked, trivial, hr.seed, hr.keys⟩⟩
  | getRoot =>
    refine withKey_match hr fun hl => ?_
    rw [getSecret_holds hE hr.root]
    exact ⟨rfl, key, hr⟩
  | setSeed p n =>
    exact withKey_match hr fun hl => ⟨rfl, key, ⟨hr.keyFor, hr.enc, hr.locked, hr.root, ⟨hok, n, rfl⟩, hr.keys⟩⟩
  | delSeed n =>
    refine withKey_match hr fun hl => ?_
    rw [getSecret_holds hE hr.seed]
    exact ⟨rfl, key, ⟨hr.keyFor, hr.enc, hr.locked, hr.root, trivial, hr.keys⟩⟩
  | getSeed =>
    refine withKey_match hr fun hl => ?_
    rw [getSecret_holds hE hr.seed]
    exact ⟨rfl, key, hr⟩
  | setKey id label p n =>
    refine withKey_match hr fun hl => ⟨rfl, key, ⟨hr.keyFor, hr.enc, hr.locked, hr.root, hr.seed, fun i => ?_⟩⟩
    simp only [BMap.get_insert]
    by_cases hi : i = id
    · rw [if_pos hi, if_pos hi]
      exact ⟨rfl, hok, n, rfl⟩
    · rw [if_neg hi, if_neg hi]
      exact hr.keys i
  | getKey id =>
    refine withKey_match hr fun hl => ?_
    have hk := hr.keys id
    have : Holds E.cp key ((s.db.keys.get id).map (·.2)) ((v.keys id).map (·.2)) := by
      cases h1 : s.db.keys.get id with
      | none =>
        rw [h1] at hk
        cases h2 : v.keys id with
        | none => trivial
        | some _ => rw [h2] at hk; exact hk.elim
      | some x =>
        rw [h1] at hk
        cases h2 : v.keys id with
        | none => rw [h2] at hk; exact hk.elim
        | some y => rw [h2] at hk; exact hk.2
    rw [getSecret_holds hE this]
    exact ⟨rfl, key, hr⟩
  | getLabel id =>
    have hk := hr.keys id
    refine ⟨?_, key, hr⟩
    cases h1 : s.db.keys.get id with
    | none =>
      rw [h1] at hk
      cases h2 : v.keys id with
      | none => rfl
      | some _ => rw [h2] at hk; exact hk.elim
    | some x =>
      rw [h1] at hk
      cases h2 : v.keys id with
      | none => rw [h2] at hk; exact hk.elim
      | some y => rw [h2] at hk; rw [Option.map_some, Option.map_some, hk.1]

theorem run_match (hE : Sound E) [Lawful E.cr] [Lawful E.cs] [Lawful E.cp] (cs : List (Call E)) {s : Store E} {v : Safe E}
    (hr : ∃ key, Rel s v key) (hok : ∀ c ∈ cs, c.Ok) (hroot : v.Rooted cs) :
    (s.run cs).1 = (v.run cs).1 ∧ ∃ key, Rel (s.run cs).2 (v.run cs).2 key := by
  induction cs generalizing s v with
  | nil => exact ⟨rfl, hr⟩
  | cons c cs ih =>
    obtain ⟨key, hr⟩ := hr
    have hm := call_match hE hr c (hok c (by simp)) hroot.1
    have hroot2 := hroot.2
    have hok' : ∀ c ∈ cs, c.Ok := fun c hc => hok c (List.mem_cons_of_mem _ hc)
    cases h1 : s.call c with
    | error e =>
      cases h2 : v.call c with
      | error e' =>
        rw [h1, h2] at hm
        have hm : e = e' := hm
        subst hm
        rw [h2] at hroot2
        obtain ⟨i1, i2⟩ := ih ⟨key, hr⟩ hok' hroot2
        simp only [Store.run, Safe.run, h1, h2]
        exact ⟨by rw [i1], i2⟩
      | ok x => rw [h1, h2] at hm; exact hm.elim
    | ok x =>
      cases h2 : v.call c with
      | error e' => rw [h1, h2] at hm; exact hm.elim
      | ok y =>
        obtain ⟨o, s'⟩ := x
        obtain ⟨o', v'⟩ := y
        rw [h1, h2] at hm
        obtain ⟨rfl, hr'⟩ := hm
        rw [h2] at hroot2
        obtain ⟨i1, i2⟩ := ih hr' hok' hroot2
        simp only [Store.run, Safe.run, h1, h2]
        exact ⟨by rw [i1], i2⟩

theorem rel_new : Rel (Store.new : Store E) Safe.new none :=
  ⟨rfl, rfl, by simp [Safe.new], trivial, trivial, fun _ => trivial⟩

end Verif.Vault
