import Verif.Scanner.Steps

/-! One new output. -/

namespace Verif.Scanner

open Verif Ledger

/-- the entry of a new output -/
def newEntry (L : Ledger) (t : Nat) (x : Op × Output) : Entry := ⟨x.1, x.2, L.h, t, L.m⟩

section
variable {db : Db} {L : Ledger} {t : Nat} {x : Op × Output}

theorem fresh_spent (hr : Rel db L) (hf : ∀ e ∈ L.outs, e.op ≠ x.1) : x.1 ∉ L.spent := by
  intro h
  obtain ⟨e, h1, h2⟩ := hr.spentIn _ h
  exact hf e h1 h2

theorem fresh_utxo (hr : Rel db L) (hf : ∀ e ∈ L.outs, e.op ≠ x.1) : db.utxo.last x.1 = none := by
  cases h : db.utxo.last x.1 with
  | none => rfl
  | some y =>
    obtain ⟨e, h1, h2, -⟩ := hr.uA _ _ h
    exact absurd h2 (hf e h1)

theorem fresh_lutxo (hr : Rel db L) (hf : ∀ e ∈ L.outs, e.op ≠ x.1) : db.lutxo.last x.1 = none := by
  cases h : db.lutxo.last x.1 with
  | none => rfl
  | some y =>
    obtain ⟨e, h1, h2, -⟩ := hr.kA _ _ h
    exact absurd h2 (hf e h1)

theorem available_create (hn : x.1 ∉ L.spent) (a : Addr) (c : Cur) :
    (L.create t x).available a c =
      (if (newEntry L t x).reward = false ∧ Free L.h L.m (newEntry L t x) then worth x.2 a c else 0) + L.available a c := by
  have e1 : (L.create t x).available a c =
      (if (newEntry L t x).reward = false ∧ x.1 ∉ L.spent ∧ Free L.h L.m (newEntry L t x) then worth x.2 a c else 0) + L.available a c :=
    List.sum_cons
  rw [e1]
  simp only [hn, not_false_eq_true, true_and]

theorem locked_create (hn : x.1 ∉ L.spent) (a : Addr) (c : Cur) :
    (L.create t x).locked a c =
      (if (newEntry L t x).reward = false ∧ ¬ Free L.h L.m (newEntry L t x) then worth x.2 a c else 0) + L.locked a c := by
  have e1 : (L.create t x).locked a c =
      (if (newEntry L t x).reward = false ∧ x.1 ∉ L.spent ∧ ¬ Free L.h L.m (newEntry L t x) then worth x.2 a c else 0) + L.locked a c :=
    List.sum_cons
  rw [e1]
  simp only [hn, not_false_eq_true, true_and]

theorem paid_create (a : Addr) (c : Cur) :
    (L.create t x).paid a c = (if (newEntry L t x).reward = true then worth x.2 a c else 0) + L.paid a c := List.sum_cons

/-- the facts about the ledger alone -/
theorem create_common (hr : Rel db L) (hf : ∀ e ∈ L.outs, e.op ≠ x.1) :
    ((L.create t x).outs.Pairwise fun e e' => e.op ≠ e'.op) ∧ (∀ o ∈ (L.create t x).spent, ∃ e ∈ (L.create t x).outs, e.op = o) ∧
    (∀ e ∈ (L.create t x).outs, e.op ∈ (L.create t x).spent → Open (L.create t x) e) ∧
    (∀ e ∈ (L.create t x).outs, e.h ≤ (L.create t x).h ∧ e.m ≤ (L.create t x).m) := by
  refine ⟨List.Pairwise.cons (fun e he => (hf e he).symm) hr.uniq, ?_, ?_, ?_⟩
  · intro o ho
    obtain ⟨e, h1, h2⟩ := hr.spentIn o ho
    exact ⟨e, List.mem_cons_of_mem _ h1, h2⟩
  · intro e he hs
    rcases List.mem_cons.1 he with he | he
    · rw [he] at hs; exact absurd (show x.1 ∈ L.spent from hs) (fresh_spent hr hf)
    · exact hr.spentOpen e he hs
  · intro e he
    rcases List.mem_cons.1 he with he | he
    · rw [he]; exact ⟨le_refl _, le_refl _⟩
    · exact hr.tip e he

/-- a new output that is listed at once -/
theorem rel_open (hr : Rel db L) (hf : ∀ e ∈ L.outs, e.op ≠ x.1) (hk : x.2 ≠ .other) (ho : Open L (newEntry L t x))
    {b' : Table (Addr × Cur) Nat} (hb : Plus L.h db.bal b' (worth x.2)) :
    Rel { db.setUtxo x.1 (x.2, none) (owners x.2) L.h with bal := b' } (L.create t x) ∧
    Keeps L.h db { db.setUtxo x.1 (x.2, none) (owners x.2) L.h with bal := b' } := by
  have hn := fresh_spent hr hf
  obtain ⟨c1, c2, c3, c4⟩ := create_common (t := t) hr hf
  have hheld : ¬ Held (newEntry L t x) := by
    rintro ⟨h1, h2⟩
    rcases ho with ho | ho
    · rw [h1] at ho; cases ho
    · exact h2 ho
  constructor
  · refine ⟨?_, ?_, ?_, ?_, ?_, ?_, ?_, ?_, c1, c2, c3, c4, hb.upTo, hr.lbalUp, ?_, hr.lutxoUp, hr.one, ?_, hr.llinksNodup⟩
    · intro o y hy
      change (db.utxo.put x.1 L.h (x.2, none)).last o = some y at hy
      rw [last_put hr.utxoUp] at hy
      by_cases h1 : o = x.1
      · rw [if_pos h1] at hy
        cases hy
        refine ⟨_, List.mem_cons_self, h1.symm, rfl, hk, ho, ?_⟩
        simp only [ne_eq, not_true_eq_false, false_iff]
        rw [h1]; exact hn
      · rw [if_neg h1] at hy
        obtain ⟨e', h2, h3⟩ := hr.uA o y hy
        exact ⟨e', List.mem_cons_of_mem _ h2, h3⟩
    · intro e he h2 h3
      change ∃ y, (db.utxo.put x.1 L.h (x.2, none)).last e.op = some y
      rw [last_put hr.utxoUp]
      split
      · exact ⟨_, rfl⟩
      · rcases List.mem_cons.1 he with he | he
        · rename_i h5; rw [he] at h5; exact absurd rfl h5
        · exact hr.uB e he h2 h3
    · intro o y hy
      obtain ⟨e', h2, h3⟩ := hr.kA o y hy
      exact ⟨e', List.mem_cons_of_mem _ h2, h3⟩
    · intro e he hh
      rcases List.mem_cons.1 he with he | he
      · rw [he] at hh; exact absurd hh hheld
      · exact hr.kB e he hh
    · intro a c
      change rd b' a c = _
      rw [hb.rd, hr.bal, available_create hn, paid_create]
      cases hrew : (newEntry L t x).reward with
      | true => simp; omega
      | false =>
        have : Free L.h L.m (newEntry L t x) := by
          rcases ho with ho | ho
          · rw [hrew] at ho; cases ho
          · exact ho
        simp [this]; omega
    · intro a c
      rw [locked_create hn]
      rw [if_neg (fun hh => by
        rcases ho with ho | ho
        · rw [hh.1] at ho; cases ho
        · exact hh.2 ho), Nat.zero_add]
      exact hr.lbal a c
    · intro a o
      change (a, o) ∈ (owners x.2).foldl (fun l a => addLink l a x.1) db.links ↔ _
      rw [mem_addLinks, hr.links]
      constructor
      · rintro (⟨e, h1, h2⟩ | ⟨b, h1, h2⟩)
        · exact ⟨e, List.mem_cons_of_mem _ h1, h2⟩
        · cases h2
          exact ⟨_, List.mem_cons_self, rfl, hk, ho, h1⟩
      · rintro ⟨e, h1, h2, h3, h4, h5⟩
        rcases List.mem_cons.1 h1 with h1 | h1
        · subst h1
          exact Or.inr ⟨a, h5, by rw [← h2]⟩
        · exact Or.inl ⟨e, h1, h2, h3, h4, h5⟩
    · intro a o
      refine (hr.llinks a o).trans ⟨?_, ?_⟩
      · rintro ⟨e, h1, h2⟩; exact ⟨e, List.mem_cons_of_mem _ h1, h2⟩
      · rintro ⟨e, h1, h2, h3, h4⟩
        rcases List.mem_cons.1 h1 with h1 | h1
        · rw [h1] at h3; exact absurd h3 hheld
        · exact ⟨e, h1, h2, h3, h4⟩
    · exact hr.utxoUp.put _ _
    · exact addLinks_nodup hr.linksNodup
  · exact (keeps_setUtxo (Or.inl (fresh_utxo hr hf))).trans (keeps_bal hb.cut)

/-- a new output that is locked -/
theorem rel_held (hr : Rel db L) (hf : ∀ e ∈ L.outs, e.op ≠ x.1) {v d lk l} (hx : x.2 = .lockThenTransfer v d lk)
    (ho : Held (newEntry L t x)) (hl : fromLock lk t L.h = .ok l)
    {b' : Table (Addr × Cur) Nat} (hb : Plus L.h db.lbal b' (worth x.2)) :
    Rel { db.setLocked x.1 (x.2, l) [d] L.h with lbal := b' } (L.create t x) ∧
    Keeps L.h db { db.setLocked x.1 (x.2, l) [d] L.h with lbal := b' } := by
  have hn := fresh_spent hr hf
  obtain ⟨c1, c2, c3, c4⟩ := create_common (t := t) hr hf
  have hopen : ¬ Open L (newEntry L t x) := by
    rintro (h | h)
    · rw [ho.1] at h; cases h
    · exact ho.2 h
  have hown : owners x.2 = [d] := by rw [hx]; rfl
  constructor
  · refine ⟨?_, ?_, ?_, ?_, ?_, ?_, ?_, ?_, c1, c2, c3, c4, hr.balUp, hb.upTo, hr.utxoUp, ?_, ?_, hr.linksNodup, ?_⟩
    · intro o y hy
      obtain ⟨e', h2, h3⟩ := hr.uA o y hy
      exact ⟨e', List.mem_cons_of_mem _ h2, h3⟩
    · intro e he h2 h3
      rcases List.mem_cons.1 he with he | he
      · rw [he] at h3; exact absurd h3 hopen
      · exact hr.uB e he h2 h3
    · intro o y hy
      change (db.lutxo.put x.1 L.h (x.2, l)).last o = some y at hy
      rw [last_put hr.lutxoUp] at hy
      by_cases h1 : o = x.1
      · rw [if_pos h1] at hy
        cases hy
        exact ⟨_, List.mem_cons_self, h1.symm, rfl, ho, v, d, lk, hx, hl⟩
      · rw [if_neg h1] at hy
        obtain ⟨e', h2, h3⟩ := hr.kA o y hy
        exact ⟨e', List.mem_cons_of_mem _ h2, h3⟩
    · intro e he hh
      change ∃ y, (db.lutxo.put x.1 L.h (x.2, l)).last e.op = some y
      rw [last_put hr.lutxoUp]
      split
      · exact ⟨_, rfl⟩
      · rcases List.mem_cons.1 he with he | he
        · rename_i h5; rw [he] at h5; exact absurd rfl h5
        · exact hr.kB e he hh
    · intro a c
      change rd db.bal a c = _
      have h1 : (newEntry L t x).reward = false := ho.1
      have h2 : ¬ Free L.h L.m (newEntry L t x) := ho.2
      rw [hr.bal, available_create hn, paid_create]
      simp [h1, h2]
    · intro a c
      change rd b' a c = _
      have h1 : (newEntry L t x).reward = false := ho.1
      have h2 : ¬ Free L.h L.m (newEntry L t x) := ho.2
      rw [hb.rd, hr.lbal, locked_create hn]
      simp [h1, h2]
      omega
    · intro a o
      refine (hr.links a o).trans ⟨?_, ?_⟩
      · rintro ⟨e, h1, h2⟩; exact ⟨e, List.mem_cons_of_mem _ h1, h2⟩
      · rintro ⟨e, h1, h2, h3, h4, h5⟩
        rcases List.mem_cons.1 h1 with h1 | h1
        · rw [h1] at h4; exact absurd h4 hopen
        · exact ⟨e, h1, h2, h3, h4, h5⟩
    · intro a o
      change (a, o) ∈ [d].foldl (fun l a => addLink l a x.1) db.llinks ↔ _
      rw [mem_addLinks, hr.llinks]
      constructor
      · rintro (⟨e, h1, h2⟩ | ⟨b, h1, h2⟩)
        · exact ⟨e, List.mem_cons_of_mem _ h1, h2⟩
        · cases h2
          exact ⟨_, List.mem_cons_self, rfl, ho, by change a ∈ owners x.2; rw [hown]; exact h1⟩
      · rintro ⟨e, h1, h2, h3, h4⟩
        rcases List.mem_cons.1 h1 with h1 | h1
        · subst h1
          exact Or.inr ⟨a, by rw [← hown]; exact h4, by rw [← h2]⟩
        · exact Or.inl ⟨e, h1, h2, h3, h4⟩
    · exact hr.lutxoUp.put _ _
    · exact hr.one.put _ _ _
    · exact addLinks_nodup hr.llinksNodup
  · exact (keeps_setLocked (fresh_lutxo hr hf)).trans (keeps_lbal hb.cut)

/-- a new output that is never stored -/
theorem rel_other (hr : Rel db L) (hf : ∀ e ∈ L.outs, e.op ≠ x.1) (hk : x.2 = .other) : Rel db (L.create t x) := by
  have hn := fresh_spent hr hf
  obtain ⟨c1, c2, c3, c4⟩ := create_common (t := t) hr hf
  have hfree : ∀ h m, Free h m (newEntry L t x) := by intro h m; simp [Free, newEntry, hk]
  have hw : ∀ a c, worth x.2 a c = 0 := by intro a c; rw [hk]; rfl
  have hheld : ¬ Held (newEntry L t x) := fun h => h.2 (hfree _ _)
  refine ⟨?_, ?_, ?_, ?_, ?_, ?_, ?_, ?_, c1, c2, c3, c4, hr.balUp, hr.lbalUp, hr.utxoUp, hr.lutxoUp, hr.one, hr.linksNodup,
    hr.llinksNodup⟩
  · intro o y hy
    obtain ⟨e', h2, h3⟩ := hr.uA o y hy
    exact ⟨e', List.mem_cons_of_mem _ h2, h3⟩
  · intro e he h2 h3
    rcases List.mem_cons.1 he with he | he
    · rw [he] at h2; exact absurd hk h2
    · exact hr.uB e he h2 h3
  · intro o y hy
    obtain ⟨e', h2, h3⟩ := hr.kA o y hy
    exact ⟨e', List.mem_cons_of_mem _ h2, h3⟩
  · intro e he hh
    rcases List.mem_cons.1 he with he | he
    · rw [he] at hh; exact absurd hh hheld
    · exact hr.kB e he hh
  · intro a c
    rw [hr.bal, available_create hn, paid_create, hw]
    simp
  · intro a c
    rw [hr.lbal, locked_create hn, hw]
    simp
  · intro a o
    refine (hr.links a o).trans ⟨?_, ?_⟩
    · rintro ⟨e, h1, h2⟩; exact ⟨e, List.mem_cons_of_mem _ h1, h2⟩
    · rintro ⟨e, h1, h2, h3, h4, h5⟩
      rcases List.mem_cons.1 h1 with h1 | h1
      · rw [h1] at h3; exact absurd hk h3
      · exact ⟨e, h1, h2, h3, h4, h5⟩
  · intro a o
    refine (hr.llinks a o).trans ⟨?_, ?_⟩
    · rintro ⟨e, h1, h2⟩; exact ⟨e, List.mem_cons_of_mem _ h1, h2⟩
    · rintro ⟨e, h1, h2, h3, h4⟩
      rcases List.mem_cons.1 h1 with h1 | h1
      · rw [h1] at h3; exact absurd h3 hheld
      · exact ⟨e, h1, h2, h3, h4⟩

/-- there is room for the new output in the balance of its owner -/
theorem room_open (hr : Rel db L) (hf : ∀ e ∈ L.outs, e.op ≠ x.1) (ho : Open L (newEntry L t x)) (hroom : Roomy (L.create t x)) (a : Addr)
    (c : Cur) : rd db.bal a c + worth x.2 a c < maxAmount := by
  have hn := fresh_spent hr hf
  have h1 := (hroom a c).1
  rw [available_create hn, paid_create] at h1
  rw [hr.bal]
  cases hrew : (newEntry L t x).reward with
  | true => simp [hrew] at h1; omega
  | false =>
    have : Free L.h L.m (newEntry L t x) := by
      rcases ho with ho | ho
      · rw [hrew] at ho; cases ho
      · exact ho
    simp [hrew, this] at h1; omega

theorem room_held (hr : Rel db L) (hf : ∀ e ∈ L.outs, e.op ≠ x.1) (ho : Held (newEntry L t x)) (hroom : Roomy (L.create t x)) (a : Addr)
    (c : Cur) : rd db.lbal a c + worth x.2 a c < maxAmount := by
  have hn := fresh_spent hr hf
  have h1 := (hroom a c).2
  have h2 : (newEntry L t x).reward = false := ho.1
  have h3 : ¬ Free L.h L.m (newEntry L t x) := ho.2
  rw [locked_create hn] at h1
  rw [hr.lbal]
  simp [h2, h3] at h1
  omega

end

theorem rel_create {db : Db} {L : Ledger} (hr : Rel db L) {t : Nat} {x : Op × Output} {i : Nat} (hs : x.1.src = .tx i)
    (hc : CanCreate L t x) : ∃ db', createOne L.h t L.m db x = .ok db' ∧ Rel db' (L.create t x) ∧ Keeps L.h db db' := by
  obtain ⟨hf, hkind, hfits, hroom⟩ := hc
  have hfits := hfits ⟨i, hs⟩
  have hrew : (newEntry L t x).reward = false := by simp [newEntry, Entry.reward, hs]
  obtain ⟨o, out⟩ := x
  dsimp only at hs
  cases out with
  | transfer v d =>
    have ho : Open L (newEntry L t (o, .transfer v d)) := Or.inr (by simp [Free, newEntry])
    obtain ⟨b', h1, h2⟩ := onInc_ok (d := d) (v := v) hr.balUp (by
      intro a c; have := room_open hr hf ho hroom a c; rwa [worth_transfer] at this)
    have h3 := rel_open hr hf (by nofun) ho (b' := b') (by
      have hw : worth (.transfer v d) = worthV v d := by funext a c; exact worth_transfer v d a c
      rw [hw]; exact h2)
    refine ⟨_, ?_, h3⟩
    simp only [createOne, h1, bind, Except.bind, pure, Except.pure]
    rfl
  | lockThenTransfer v d lk =>
    have hw : worth (.lockThenTransfer v d lk) = worthV v d := by funext a c; exact worth_lock v d lk a c
    have hau := alreadyUnlocked_eq (m := L.m) (o := o) hfits
    by_cases hfree : Free L.h L.m (newEntry L t (o, .lockThenTransfer v d lk))
    · have ho : Open L (newEntry L t (o, .lockThenTransfer v d lk)) := Or.inr hfree
      obtain ⟨b', h1, h2⟩ := onInc_ok (d := d) (v := v) hr.balUp (by
        intro a c; have := room_open hr hf ho hroom a c; rwa [worth_lock] at this)
      have h3 := rel_open hr hf (by nofun) ho (b' := b') (by rw [hw]; exact h2)
      refine ⟨_, ?_, h3⟩
      have hd : decide (Free L.h L.m ⟨o, .lockThenTransfer v d lk, L.h, t, L.m⟩) = true := decide_eq_true hfree
      rw [hd] at hau
      simp only [createOne, hau, bind, Except.bind, if_true, h1, pure, Except.pure]
      rfl
    · have ho : Held (newEntry L t (o, .lockThenTransfer v d lk)) := ⟨hrew, hfree⟩
      obtain ⟨b', h1, h2⟩ := onIncLocked_ok (d := d) (v := v) hr.lbalUp (by
        intro a c; have := room_held hr hf ho hroom a c; rwa [worth_lock] at this)
      obtain ⟨l, hl⟩ := fromLock_ok hfits
      have h3 := rel_held hr hf rfl ho hl (b' := b') (by rw [hw]; exact h2)
      refine ⟨_, ?_, h3⟩
      have hd : decide (Free L.h L.m ⟨o, .lockThenTransfer v d lk, L.h, t, L.m⟩) = false := decide_eq_false hfree
      rw [hd] at hau
      simp only [createOne, hau, bind, Except.bind, h1, hl, pure, Except.pure]
      rfl
  | issueNft tok d =>
    have ho : Open L (newEntry L t (o, .issueNft tok d)) := Or.inr (by simp [Free, newEntry])
    have h0 := room_open hr hf ho hroom d (.token tok)
    simp only [worth, true_and, if_true] at h0
    obtain ⟨b', h1, h2⟩ := increase_ok hr.balUp h0
    have h3 := rel_open hr hf (by nofun) ho (b' := b') h2
    refine ⟨_, ?_, h3⟩
    simp only [createOne, h1, bind, Except.bind, pure, Except.pure]
    rfl
  | htlc v s r =>
    have ho : Open L (newEntry L t (o, .htlc v s r)) := Or.inr (by simp [Free, newEntry])
    exact ⟨_, rfl, rel_open hr hf (by nofun) ho (Plus.refl hr.balUp)⟩
  | createPool p d =>
    have ho : Open L (newEntry L t (o, .createPool p d)) := Or.inr (by simp [Free, newEntry])
    exact ⟨_, rfl, rel_open hr hf (by nofun) ho (Plus.refl hr.balUp)⟩
  | produceBlock d p =>
    simp only [hs, kindOk] at hkind
  | other => exact ⟨_, rfl, rel_other hr hf rfl, Keeps.refl _ _⟩

theorem rel_reward {db : Db} {L : Ledger} (hr : Rel db L) {t : Nat} {x : Op × Output} {i : Nat} (hs : x.1.src = .reward i)
    (hc : CanCreate L t x) : ∃ db', rewardOne L.h db x = .ok db' ∧ Rel db' (L.create t x) ∧ Keeps L.h db db' := by
  obtain ⟨hf, hkind, -, hroom⟩ := hc
  have ho : Open L (newEntry L t x) := Or.inl (by simp [newEntry, Entry.reward, hs])
  obtain ⟨o, out⟩ := x
  dsimp only at hs
  cases out with
  | transfer v d =>
    obtain ⟨b', h1, h2⟩ := onInc_ok (d := d) (v := v) hr.balUp (by
      intro a c; have := room_open hr hf ho hroom a c; rwa [worth_transfer] at this)
    have h3 := rel_open hr hf (by nofun) ho (b' := b') (by
      have hw : worth (.transfer v d) = worthV v d := by funext a c; exact worth_transfer v d a c
      rw [hw]; exact h2)
    refine ⟨_, ?_, h3⟩
    simp only [rewardOne, h1, bind, Except.bind, pure, Except.pure]
    rfl
  | lockThenTransfer v d lk =>
    obtain ⟨b', h1, h2⟩ := onInc_ok (d := d) (v := v) hr.balUp (by
      intro a c; have := room_open hr hf ho hroom a c; rwa [worth_lock] at this)
    have h3 := rel_open hr hf (by nofun) ho (b' := b') (by
      have hw : worth (.lockThenTransfer v d lk) = worthV v d := by funext a c; exact worth_lock v d lk a c
      rw [hw]; exact h2)
    refine ⟨_, ?_, h3⟩
    simp only [rewardOne, h1, bind, Except.bind, pure, Except.pure]
    rfl
  | createPool p d => exact ⟨_, rfl, rel_open hr hf (by nofun) ho (Plus.refl hr.balUp)⟩
  | produceBlock d p => exact ⟨_, rfl, rel_open hr hf (by nofun) ho (Plus.refl hr.balUp)⟩
  | issueNft tok d => simp only [hs, kindOk] at hkind
  | htlc v s r => simp only [hs, kindOk] at hkind
  | other => simp only [hs, kindOk] at hkind

end Verif.Scanner
