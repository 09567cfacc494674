import Verif.WalletSync.Tree

/-! # Scanning one batch of blocks (C71) -/

namespace Verif.WalletSync

/-- The account a type stands for. -/
def get (w : Wallet) : Ty → Option Acc
  | .account i => w.accounts[i]?
  | .unused => some w.unused

theorem holds_get {w : Wallet} {a : Acc} : Holds w a ↔ ∃ t, get w t = some a := by
  constructor
  · rintro (h | h)
    · obtain ⟨i, hi⟩ := List.mem_iff_getElem?.1 h
      exact ⟨.account i, hi⟩
    · exact ⟨.unused, by rw [h]; rfl⟩
  · rintro ⟨t, h⟩
    cases t with
    | account i => exact Or.inl (List.mem_iff_getElem?.2 ⟨i, h⟩)
    | unused => exact Or.inr (Option.some.inj h).symm

/-- What an account looks like when the scan begins: nothing left above the common block. -/
def prep (a : Acc) (h : Nat) : Acc := if h < a.seen.length then resetTo a h else a

theorem prep_seen {a : Acc} {h : Nat} (hl : h ≤ a.seen.length) : (prep a h).seen = a.seen.take h := by
  unfold prep
  split
  · rfl
  · rw [List.take_of_length_le (by omega)]

/-- The account after a scan. -/
def scanned (E : Env) (k : Nat) (a : Acc) (h : Nat) (blocks : List Nat) : Acc :=
  { seen := (prep a h).seen ++ blocks, recs := (prep a h).recs ++ found E k h blocks }

theorem scanAcc_eq {E : Env} {k : Nat} {a : Acc} {h : Nat} {blocks : List Nat} (hb : blocks ≠ [])
    (hl : h ≤ a.seen.length) :
    scanAcc E k a h blocks = some (scanned E k a h blocks, blocks.any (fun b => E.rel k b)) := by
  unfold scanAcc
  rw [if_neg (by simpa using hb), if_neg (by omega)]
  rfl

theorem scanned_seen {E : Env} {k : Nat} {a : Acc} {h : Nat} {blocks : List Nat} (hl : h ≤ a.seen.length) :
    (scanned E k a h blocks).seen = a.seen.take h ++ blocks := by
  simp only [scanned]; rw [prep_seen hl]

theorem found_append (E : Env) (k h : Nat) (l m : List Nat) :
    found E k h (l ++ m) = found E k h l ++ found E k (h + l.length) m := by
  unfold found
  rw [List.zipIdx_append, List.filter_append]
  congr 3; omega

theorem expected_eq (E : Env) (k : Nat) (l : List Nat) : expected E k l = found E k 0 l := rfl

theorem found_heights {E : Env} {k h : Nat} {l : List Nat} {p : Nat × Nat} (hp : p ∈ found E k h l) :
    h < p.2 ∧ p.2 ≤ h + l.length ∧ p.1 ∈ l ∧ E.rel k p.1 = true := by
  unfold found at hp
  obtain ⟨h1, h2⟩ := List.mem_filter.1 hp
  obtain ⟨b, i⟩ := p
  have h3 := List.mem_zipIdx h1
  refine ⟨by omega, by omega, ?_, h2⟩
  rw [h3.2.2]; exact List.getElem_mem _

/-- Taking entries back keeps exactly those of the blocks that remain. -/
theorem expected_take (E : Env) (k : Nat) (l : List Nat) (h : Nat) (hl : h ≤ l.length) :
    (expected E k l).filter (fun p => decide (p.2 ≤ h)) = expected E k (l.take h) := by
  have e : l = l.take h ++ l.drop h := (List.take_append_drop h l).symm
  rw [expected_eq, expected_eq]
  conv_lhs => rw [e]
  rw [found_append, List.filter_append]
  have hlen : (l.take h).length = h := by simp [hl]
  have h1 : (found E k 0 (l.take h)).filter (fun p => decide (p.2 ≤ h)) = found E k 0 (l.take h) := by
    apply List.filter_eq_self.2
    intro p hp
    have := found_heights hp
    rw [hlen] at this
    simp; omega
  have h2 : (found E k (0 + (l.take h).length) (l.drop h)).filter (fun p => decide (p.2 ≤ h)) = [] := by
    apply List.filter_eq_nil_iff.2
    intro p hp
    have := found_heights hp
    rw [hlen] at this
    simp; omega
  rw [h1, h2, List.append_nil]

theorem prep_recs {E : Env} {k : Nat} {a : Acc} {h : Nat} (hl : h ≤ a.seen.length)
    (hc : a.recs = expected E k a.seen) : (prep a h).recs = expected E k (a.seen.take h) := by
  unfold prep
  split
  · simp only [resetTo]; rw [hc, expected_take E k a.seen h hl]
  · rw [hc, List.take_of_length_le (by omega)]

theorem scanned_recs {E : Env} {k : Nat} {a : Acc} {h : Nat} {blocks : List Nat} (hl : h ≤ a.seen.length)
    (hc : (prep a h).recs = expected E k (a.seen.take h)) :
    (scanned E k a h blocks).recs = expected E k (scanned E k a h blocks).seen := by
  rw [scanned_seen hl]
  simp only [scanned]
  rw [hc, expected_eq, expected_eq, found_append]
  congr 2
  simp [hl]

theorem createNext_ok {E : Env} {w w' : Wallet} (h : createNext E w = .ok w') :
    w' = { accounts := w.accounts ++ [w.unused], unused := { seen := w.unused.seen, recs := [] } } := by
  unfold createNext at h
  split at h
  · cases h
  · split at h
    · cases h
    · split at h
      · cases h; rfl
      · cases h

theorem createNext_err {E : Env} {w : Wallet} {e : Err} (hw : w.accounts ≠ [])
    (h : createNext E w = .error e) : e = .emptyLast ∨ e = .tooMany := by
  unfold createNext at h
  split at h
  · next hn => exact absurd (List.getLast?_eq_none_iff.1 hn) hw
  · split at h
    · cases h; exact Or.inl rfl
    · split at h
      · cases h
      · cases h; exact Or.inr rfl

/-- Scanning for the unused account and those that follow it. -/
theorem scanUnused_seen {E : Env} {h : Nat} {blocks : List Nat} (hb : blocks ≠ []) {s : List Nat} :
    ∀ fuel (w : Wallet), w.accounts ≠ [] → h ≤ w.unused.seen.length → s = w.unused.seen.take h ++ blocks →
      (∃ ext : List Acc, (scanUnused E h blocks fuel w).1.accounts = w.accounts ++ ext ∧
        (∀ a ∈ ext, a.seen = s)) ∧
      ((scanUnused E h blocks fuel w).1.unused.seen = w.unused.seen ∨
        (scanUnused E h blocks fuel w).1.unused.seen = s) ∧
      ((scanUnused E h blocks fuel w).2 = .ok () → (scanUnused E h blocks fuel w).1.unused.seen = s) ∧
      (∀ e, (scanUnused E h blocks fuel w).2 = .error e → e = .emptyLast ∨ e = .tooMany) := by
  intro fuel
  induction fuel with
  | zero =>
    intro w hw hl hs
    refine ⟨⟨[], by simp [scanUnused]⟩, Or.inl rfl, ?_, ?_⟩
    · intro hc; cases hc
    · intro e he; simp only [scanUnused] at he; cases he; exact Or.inr rfl
  | succ fuel ih =>
    intro w hw hl hs
    have hseen := scanned_seen (E := E) (k := w.accounts.length) (blocks := blocks) hl
    rw [← hs] at hseen
    simp only [scanUnused]
    rw [scanAcc_eq hb hl]
    cases hr : blocks.any (fun b => E.rel w.accounts.length b) with
    | false =>
      simp only
      exact ⟨⟨[], by simp⟩, Or.inr hseen, fun _ => hseen, fun e he => by cases he⟩
    | true =>
      simp only
      cases hc : createNext E { w with unused := scanned E w.accounts.length w.unused h blocks } with
      | error e =>
        simp only
        refine ⟨⟨[], by simp⟩, Or.inr hseen, fun hx => by (cases hx), fun e' he => ?_⟩
        cases he
        exact createNext_err (w := { w with unused := scanned E w.accounts.length w.unused h blocks }) hw hc
      | ok w' =>
        simp only
        have hw' := createNext_ok hc
        have hu : w'.unused.seen = s := by rw [hw']; exact hseen
        have hsl : h ≤ s.length := by rw [hs]; simp; omega
        have hss : s = s.take h ++ blocks := by
          have : s.take h = w.unused.seen.take h := by
            rw [hs, List.take_append_of_le_length (by simp; omega), List.take_take]; simp
          rw [this]; exact hs
        have := ih w' (by rw [hw']; simp) (by rw [hu]; exact hsl) (by rw [hu]; exact hss)
        obtain ⟨⟨ext, he1, he2⟩, h2, h3, h4⟩ := this
        have ha : w'.accounts = w.accounts ++ [scanned E w.accounts.length w.unused h blocks] := by rw [hw']
        refine ⟨⟨scanned E w.accounts.length w.unused h blocks :: ext, ?_, ?_⟩, ?_, h3, h4⟩
        · rw [he1, ha]; simp
        · intro a ha
          rcases List.mem_cons.1 ha with rfl | ha
          · exact hseen
          · exact he2 a ha
        · rcases h2 with h2 | h2
          · rw [hu] at h2; exact Or.inr h2
          · exact Or.inr h2

/-- The number of the account a type stands for. -/
def idx (w : Wallet) : Ty → Nat
  | .account i => i
  | .unused => w.accounts.length

/-- Every account has recorded what it ought to have. -/
def AllRec (E : Env) (w : Wallet) : Prop := ∀ t a, get w t = some a → a.recs = expected E (idx w t) a.seen

theorem idx_eq {w w' : Wallet} (h : w'.accounts.length = w.accounts.length) (t : Ty) : idx w' t = idx w t := by
  cases t with
  | account i => rfl
  | unused => exact h

/-- When the unused account finds nothing, a scan changes only the account scanned. -/
theorem scanTy_quiet {E : Env} {h : Nat} {blocks : List Nat} (hb : blocks ≠ []) (hm : 0 < E.maxAcc)
    {w : Wallet} {t : Ty} {a : Acc} (hg : get w t = some a) (hl : h ≤ a.seen.length)
    (hq : ∀ b ∈ blocks, E.rel w.accounts.length b = false) :
    ∃ w' a', scanTy E h blocks w t = (w', .ok ()) ∧ w'.accounts.length = w.accounts.length ∧
      get w' t = some a' ∧ a'.seen = a.seen.take h ++ blocks ∧ (∀ t', t' ≠ t → get w' t' = get w t') ∧
      a' = scanned E (idx w t) a h blocks := by
  cases t with
  | account i =>
    have hg' : w.accounts[i]? = some a := hg
    have hi : i < w.accounts.length := by
      by_contra hc
      rw [List.getElem?_eq_none (by omega)] at hg'; cases hg'
    refine ⟨{ w with accounts := w.accounts.set i (scanned E i a h blocks) }, scanned E i a h blocks, ?_,
      by simp, ?_, scanned_seen hl, ?_, rfl⟩
    · simp only [scanTy, hg', scanAcc_eq hb hl]
    · simp only [get]; rw [List.getElem?_set_self hi]
    · intro t' ht
      cases t' with
      | unused => rfl
      | account j =>
        have : i ≠ j := by intro hc; subst hc; exact ht rfl
        simp only [get]; rw [List.getElem?_set_ne this]
  | unused =>
    have hg' : w.unused = a := Option.some.inj hg
    subst hg'
    have hr : blocks.any (fun b => E.rel w.accounts.length b) = false := by
      rw [List.any_eq_false]; intro b hbm; rw [hq b hbm]; simp
    obtain ⟨m, hm'⟩ : ∃ m, E.maxAcc = m + 1 := ⟨E.maxAcc - 1, by omega⟩
    refine ⟨{ w with unused := scanned E w.accounts.length w.unused h blocks },
      scanned E w.accounts.length w.unused h blocks, ?_, rfl, rfl, scanned_seen hl, ?_, rfl⟩
    · simp only [scanTy, hm', scanUnused, scanAcc_eq hb hl, hr]
    · intro t' ht
      cases t' with
      | unused => exact absurd rfl ht
      | account j => rfl

/-- A whole group when the unused account finds nothing. -/
theorem scanAll_quiet {E : Env} {h : Nat} {blocks : List Nat} (hb : blocks ≠ []) (hm : 0 < E.maxAcc) :
    ∀ (ts : List Ty) (w : Wallet), (∀ b ∈ blocks, E.rel w.accounts.length b = false) →
      (∀ t ∈ ts, ∃ a, get w t = some a ∧ h ≤ a.seen.length) →
      ∃ w', scanAll E h blocks ts w = (w', .ok ()) ∧ w'.accounts.length = w.accounts.length ∧
        (∀ t a, t ∈ ts → get w t = some a → ∃ a', get w' t = some a' ∧ a'.seen = a.seen.take h ++ blocks) ∧
        (∀ t, t ∉ ts → get w' t = get w t) ∧ (AllRec E w → AllRec E w') := by
  intro ts
  induction ts with
  | nil => intro w _ _; exact ⟨w, rfl, rfl, by simp, by simp, id⟩
  | cons t ts ih =>
    intro w hq hg
    obtain ⟨a, ha, hl⟩ := hg t (by simp)
    obtain ⟨w1, a1, e1, n1, g1, s1, o1, sc1⟩ := scanTy_quiet hb hm ha hl hq
    have hs1 : h ≤ a1.seen.length := by rw [s1]; simp; omega
    have hfix : a1.seen.take h = a.seen.take h := by
      rw [s1, List.take_append_of_le_length (by simp; omega), List.take_take]; simp
    obtain ⟨w2, e2, n2, g2, o2, c2⟩ := ih w1 (by rw [n1]; exact hq) (by
      intro t' ht'
      by_cases hc : t' = t
      · subst hc; exact ⟨a1, g1, hs1⟩
      · rw [o1 t' hc]; exact hg t' (List.mem_cons_of_mem _ ht'))
    refine ⟨w2, by simp only [scanAll, e1]; exact e2, by rw [n2, n1], ?_, ?_, ?_⟩
    · intro t' b ht' hb'
      by_cases hc : t' = t
      · subst hc
        have : b = a := by rw [ha] at hb'; exact (Option.some.inj hb').symm
        subst this
        by_cases hm : t' ∈ ts
        · obtain ⟨a', h1, h2⟩ := g2 t' a1 hm g1
          exact ⟨a', h1, by rw [h2, hfix]⟩
        · exact ⟨a1, by rw [o2 t' hm]; exact g1, s1⟩
      · have hm : t' ∈ ts := by
          rcases List.mem_cons.1 ht' with h | h
          · exact absurd h hc
          · exact h
        exact g2 t' b hm (by rw [o1 t' hc]; exact hb')
    · intro t' ht'
      have h1 : t' ≠ t := fun hc => ht' (by simp [hc])
      have h2 : t' ∉ ts := fun hc => ht' (by simp [hc])
      rw [o2 t' h2, o1 t' h1]
    · intro hrec
      apply c2
      intro t' b hb'
      rw [idx_eq n1]
      by_cases hc : t' = t
      · subst hc
        rw [g1] at hb'; cases hb'
        rw [sc1]
        exact scanned_recs hl (prep_recs hl (hrec t' a ha))
      · rw [o1 t' hc] at hb'
        exact hrec t' b hb'

/-- All accounts stand at the same block: each scan brings one account on, and promoted accounts stand there too. -/
theorem scanAll_single {E : Env} {h : Nat} {blocks l s : List Nat} (hb : blocks ≠ []) (hl : h ≤ l.length)
    (hs : s = l.take h ++ blocks) : ∀ (ts : List Ty) (w : Wallet), w.accounts ≠ [] →
      (∀ i, Ty.account i ∈ ts → i < w.accounts.length) → (∀ a, Holds w a → a.seen = l ∨ a.seen = s) →
      (∀ a, Holds (scanAll E h blocks ts w).1 a → a.seen = l ∨ a.seen = s) ∧
      (∃ k, w.accounts.length + k = (scanAll E h blocks ts w).1.accounts.length) ∧
      (∀ t a, get w t = some a → a.seen = s →
        ∃ a', get (scanAll E h blocks ts w).1 t = some a' ∧ a'.seen = s) ∧
      (∀ i a, w.accounts.length ≤ i → (scanAll E h blocks ts w).1.accounts[i]? = some a → a.seen = s) ∧
      ((scanAll E h blocks ts w).2 = .ok () → ∀ t ∈ ts,
        ∃ a, get (scanAll E h blocks ts w).1 t = some a ∧ a.seen = s) ∧
      (∀ e, (scanAll E h blocks ts w).2 = .error e → e = .emptyLast ∨ e = .tooMany) := by
  have hsl : h ≤ s.length := by rw [hs]; simp; omega
  have hst : s.take h = l.take h := by
    rw [hs, List.take_append_of_le_length (by simp; omega), List.take_take]; simp
  have hss : s = s.take h ++ blocks := by rw [hst]; exact hs
  have hfix : ∀ x : List Nat, x = l ∨ x = s → h ≤ x.length ∧ s = x.take h ++ blocks := by
    rintro x (rfl | rfl)
    · exact ⟨hl, hs⟩
    · exact ⟨hsl, hss⟩
  intro ts
  induction ts with
  | nil =>
    intro w hw _ hh
    refine ⟨hh, ⟨0, rfl⟩, fun t a h1 h2 => ⟨a, h1, h2⟩, ?_, by simp, fun e he => by cases he⟩
    intro i a hi ha
    simp only [scanAll] at ha
    rw [List.getElem?_eq_none hi] at ha; cases ha
  | cons t ts ih =>
    intro w hw hi hh
    -- one scan
    have step : ∃ w1 r, scanTy E h blocks w t = (w1, r) ∧ w1.accounts ≠ [] ∧
        (∃ k, w.accounts.length + k = w1.accounts.length) ∧
        (∀ a, Holds w1 a → a.seen = l ∨ a.seen = s) ∧
        (∀ t a, get w t = some a → a.seen = s → ∃ a', get w1 t = some a' ∧ a'.seen = s) ∧
        (∀ i a, w.accounts.length ≤ i → w1.accounts[i]? = some a → a.seen = s) ∧
        (r = .ok () → ∃ a, get w1 t = some a ∧ a.seen = s) ∧
        (∀ e, r = .error e → e = .emptyLast ∨ e = .tooMany) := by
      cases t with
      | account i =>
        have hil := hi i (by simp)
        have hgi : w.accounts[i]? = some w.accounts[i] := List.getElem?_eq_getElem hil
        obtain ⟨f1, f2⟩ := hfix _ (hh w.accounts[i] (Or.inl (List.getElem_mem hil)))
        have hseen : (scanned E i w.accounts[i] h blocks).seen = s := by rw [scanned_seen f1, ← f2]
        refine ⟨{ w with accounts := w.accounts.set i (scanned E i w.accounts[i] h blocks) }, .ok (), ?_,
          ?_, ⟨0, by simp⟩, ?_, ?_, ?_, ?_, ?_⟩
        · simp only [scanTy, hgi, scanAcc_eq hb f1]
        · intro hc; apply hw; exact (List.set_eq_nil_iff _ _).1 hc
        · rintro a (ha | ha)
          · rcases List.mem_or_eq_of_mem_set ha with ha | ha
            · exact hh a (Or.inl ha)
            · rw [ha]; exact Or.inr hseen
          · exact hh a (Or.inr ha)
        · intro t' a' ht' ha'
          cases t' with
          | unused => exact ⟨a', ht', ha'⟩
          | account j =>
            by_cases hij : i = j
            · subst hij
              exact ⟨_, by simp only [get]; exact List.getElem?_set_self hil, hseen⟩
            · exact ⟨a', by simp only [get]; rw [List.getElem?_set_ne hij]; exact ht', ha'⟩
        · intro j a hj ha
          rw [List.getElem?_eq_none (by simpa using hj)] at ha; cases ha
        · intro _
          exact ⟨_, by simp only [get]; exact List.getElem?_set_self hil, hseen⟩
        · intro e he; cases he
      | unused =>
        obtain ⟨f1, f2⟩ := hfix _ (hh w.unused (Or.inr rfl))
        obtain ⟨⟨ext, x1, x2⟩, x3, x4, x5⟩ := scanUnused_seen (E := E) hb E.maxAcc w hw f1 f2
        refine ⟨_, _, rfl, ?_, ⟨ext.length, ?_⟩, ?_, ?_, ?_, ?_, x5⟩
        · rw [x1]; intro hc; exact hw (List.append_eq_nil_iff.1 hc).1
        · rw [x1]; simp
        · rintro a (ha | ha)
          · rw [x1] at ha
            rcases List.mem_append.1 ha with ha | ha
            · exact hh a (Or.inl ha)
            · exact Or.inr (x2 a ha)
          · rcases x3 with x3 | x3
            · rw [ha, x3]; exact hh _ (Or.inr rfl)
            · rw [ha, x3]; exact Or.inr rfl
        · intro t' a' ht' ha'
          cases t' with
          | unused =>
            have : w.unused = a' := Option.some.inj ht'
            subst this
            refine ⟨_, rfl, ?_⟩
            rcases x3 with x3 | x3
            · rw [x3]; exact ha'
            · exact x3
          | account j =>
            refine ⟨a', ?_, ha'⟩
            have ht'' : w.accounts[j]? = some a' := ht'
            simp only [get]; rw [x1]
            have hj : j < w.accounts.length := by
              by_contra hc
              rw [List.getElem?_eq_none (by omega)] at ht''; cases ht''
            rw [List.getElem?_append_left hj]; exact ht''
        · intro j a hj ha
          rw [x1, List.getElem?_append_right hj] at ha
          exact x2 a (List.mem_of_getElem? ha)
        · intro ho
          exact ⟨_, rfl, x4 ho⟩
    obtain ⟨w1, r, e1, q1, ⟨k1, q2⟩, q3, q4, q5, q6, q7⟩ := step
    cases r with
    | error e =>
      simp only [scanAll, e1]
      exact ⟨q3, ⟨k1, q2⟩, q4, q5, fun hc => by (cases hc), q7⟩
    | ok u =>
      simp only [scanAll, e1]
      obtain ⟨p1, ⟨k2, p2⟩, p3, p4, p5, p6⟩ := ih w1 q1
        (fun i hm => by have := hi i (List.mem_cons_of_mem _ hm); omega) q3
      refine ⟨p1, ⟨k1 + k2, by omega⟩, ?_, ?_, ?_, p6⟩
      · intro t' a ht ha
        obtain ⟨a', h1, h2⟩ := q4 t' a ht ha
        exact p3 t' a' h1 h2
      · intro i a hia ha
        by_cases hc : w1.accounts.length ≤ i
        · exact p4 i a hc ha
        · have hlt : i < w1.accounts.length := by omega
          have h1 : w1.accounts[i]? = some w1.accounts[i] := List.getElem?_eq_getElem hlt
          obtain ⟨a', h2, h3⟩ := p3 (.account i) _ h1 (q5 i _ hia h1)
          have h2' : _ = some a' := h2
          simp only [get] at h2'
          rw [ha] at h2'
          cases h2'; exact h3
      · intro ho t' ht'
        rcases List.mem_cons.1 ht' with rfl | hm
        · obtain ⟨a, h1, h2⟩ := q6 rfl
          exact p3 _ a h1 h2
        · exact p5 ho t' hm

end Verif.WalletSync
