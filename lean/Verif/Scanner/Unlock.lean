import Verif.Scanner.Creates

/-! The tip moves: locks run out. -/

namespace Verif.Scanner

open Verif Ledger

def total (l : List (Op × Output × UtxoLock)) (a : Addr) (c : Cur) : Nat := (l.map fun x => worth x.2.1 a c).sum

theorem total_cons (x l a c) : total (x :: l) a c = worth x.2.1 a c + total l a c := List.sum_cons

theorem unlock_fold {h : Nat} : ∀ (l : List (Op × Output × UtxoLock)) (db : Db), db.bal.UpTo h → db.lbal.UpTo h → db.utxo.UpTo h →
    db.links.Nodup → (∀ x ∈ l, ∃ v d lk, x.2.1 = .lockThenTransfer v d lk) → (l.map (·.1)).Nodup →
    (∀ x ∈ l, db.utxo.last x.1 = none) → (∀ a c, rd db.bal a c + total l a c < maxAmount) → (∀ a c, total l a c ≤ rd db.lbal a c) →
    ∃ db', l.foldlM (unlockOne h) db = .ok db' ∧ Plus h db.bal db'.bal (total l) ∧ Minus h db.lbal db'.lbal (total l) ∧
      db'.utxo.UpTo h ∧ (∀ x ∈ l, db'.utxo.last x.1 = some (x.2.1, none)) ∧
      (∀ o, (∀ x ∈ l, x.1 ≠ o) → db'.utxo.last o = db.utxo.last o) ∧
      (∀ a o, (a, o) ∈ db'.links ↔ (a, o) ∈ db.links ∨ ∃ x ∈ l, x.1 = o ∧ a ∈ owners x.2.1) ∧
      db'.lutxo = db.lutxo ∧ db'.llinks = db.llinks ∧ db'.links.Nodup ∧ Keeps h db db' := by
  intro l
  induction l with
  | nil =>
    intro db h1 h2 h3 h4 _ _ _ _ _
    refine ⟨db, rfl, ⟨h1, by simp [total], fun _ _ => rfl⟩, ⟨h2, by simp [total], fun _ _ => rfl⟩, h3, by simp, fun _ _ => rfl, by simp, rfl,
      rfl, h4, Keeps.refl _ _⟩
  | cons x l ih =>
    intro db h1 h2 h3 h4 hk hnd hfree hroom hle
    obtain ⟨o, out, lock⟩ := x
    obtain ⟨v, d, lk, hout⟩ := hk _ List.mem_cons_self
    dsimp only at hout
    subst hout
    rw [List.map_cons, List.nodup_cons] at hnd
    obtain ⟨b', hb1, hb2⟩ := onInc_ok (d := d) (v := v) h1 (by
      intro a c; have := hroom a c; rw [total_cons, worth_lock] at this; omega)
    obtain ⟨l', hl1, hl2⟩ := onDecLocked_ok (db := { db with bal := b' }) (d := d) (v := v) h2 (by
      intro a c; have := hle a c; rw [total_cons, worth_lock] at this
      change worthV v d a c ≤ rd db.lbal a c
      omega)
    have hne : ∀ y ∈ l, y.1 ≠ o := fun y hy heq => hnd.1 (List.mem_map.2 ⟨y, hy, heq⟩)
    let db1 : Db := ({ db with bal := b', lbal := l' } : Db).setUtxo o (.lockThenTransfer v d lk, none) [d] h
    have hstep : unlockOne h db (o, .lockThenTransfer v d lk, lock) = .ok db1 := by
      simp only [unlockOne, hb1, bind, Except.bind, hl1, pure, Except.pure]
      rfl
    have hlast : ∀ o', db1.utxo.last o' = if o' = o then some (.lockThenTransfer v d lk, none) else db.utxo.last o' := fun o' =>
      last_put h3 _ _ o'
    have hlbal : ∀ a c, rd l' a c + worthV v d a c = rd db.lbal a c := hl2.rd
    obtain ⟨db', i1, i2, i3, i4, i5, i6, i7, i8, i9, i10, i11⟩ := ih db1 hb2.upTo hl2.upTo (h3.put _ _) (addLinks_nodup h4)
      (fun y hy => hk y (List.mem_cons_of_mem _ hy)) hnd.2
      (fun y hy => by rw [hlast, if_neg (hne y hy)]; exact hfree y (List.mem_cons_of_mem _ hy))
      (by
        intro a c
        change rd b' a c + _ < _
        have := hroom a c; rw [total_cons, worth_lock] at this; rw [hb2.rd]; omega)
      (by
        intro a c
        change _ ≤ rd l' a c
        have := hle a c; rw [total_cons, worth_lock] at this; have := hlbal a c; omega)
    refine ⟨db', ?_, ⟨i2.upTo, ?_, ?_⟩, ⟨i3.upTo, ?_, ?_⟩, i4, ?_, ?_, ?_, i8, i9, i10, ?_⟩
    · rw [List.foldlM_cons, hstep]; exact i1
    · intro a c
      rw [i2.rd]
      change rd b' a c + _ = _
      rw [hb2.rd, total_cons, worth_lock]; omega
    · intro c hc; rw [i2.cut c hc]; exact hb2.cut c hc
    · intro a c
      have e1 := i3.rd a c
      change _ = rd l' a c at e1
      have e2 := hlbal a c
      rw [total_cons, worth_lock]; omega
    · intro c hc; rw [i3.cut c hc]; exact hl2.cut c hc
    · intro y hy
      rcases List.mem_cons.1 hy with hy | hy
      · rw [hy, i6 _ hne, hlast, if_pos rfl]
      · exact i5 y hy
    · intro o' hn
      rw [i6 o' fun y hy => hn y (List.mem_cons_of_mem _ hy), hlast, if_neg]
      exact fun h => hn _ List.mem_cons_self h.symm
    · intro a o'
      rw [i7]
      change (a, o') ∈ [d].foldl (fun l a => addLink l a o) db.links ∨ _ ↔ _
      rw [mem_addLinks]
      constructor
      · rintro ((h5 | ⟨b, h5, h6⟩) | ⟨y, h5, h6⟩)
        · exact Or.inl h5
        · cases h6; exact Or.inr ⟨_, List.mem_cons_self, rfl, h5⟩
        · exact Or.inr ⟨y, List.mem_cons_of_mem _ h5, h6⟩
      · rintro (h5 | ⟨y, h5, h6, h7⟩)
        · exact Or.inl (Or.inl h5)
        · rcases List.mem_cons.1 h5 with h5 | h5
          · rw [h5] at h6 h7
            exact Or.inl (Or.inr ⟨a, h7, by rw [← h6]⟩)
          · exact Or.inr ⟨y, h5, h6, h7⟩
    · refine Keeps.trans ?_ i11
      refine Keeps.trans (keeps_bal hb2.cut) (Keeps.trans (keeps_lbal (db := { db with bal := b' }) hl2.cut) ?_)
      exact keeps_setUtxo (db := { db with bal := b', lbal := l' }) (Or.inl (hfree _ List.mem_cons_self))

/-- the lock runs out as the tip moves -/
def Newly (L : Ledger) (m' : Nat) (e : Entry) : Prop := e.reward = false ∧ ¬ Free L.h L.m e ∧ Free (L.h + 1) m' e

instance (L : Ledger) (m' : Nat) (e : Entry) : Decidable (Newly L m' e) := by unfold Newly; infer_instance

theorem sum_filter_map {l : List Entry} {p : Entry → Prop} [DecidablePred p] {f : Entry → Nat} :
    ((l.filter fun e => decide (p e)).map f).sum = (l.map fun e => if p e then f e else 0).sum := by
  induction l with
  | nil => rfl
  | cons e l ih =>
    rw [List.filter_cons, List.map_cons, List.sum_cons]
    by_cases h : p e
    · rw [if_pos (by simpa using h), List.map_cons, List.sum_cons, ih, if_pos h]
    · rw [if_neg (by simpa using h), ih, if_neg h, Nat.zero_add]

theorem sum_split {l : List Entry} {f g k : Entry → Nat} (h : ∀ e ∈ l, f e = g e + k e) :
    (l.map f).sum = (l.map g).sum + (l.map k).sum := by
  induction l with
  | nil => rfl
  | cons e l ih =>
    rw [List.map_cons, List.map_cons, List.map_cons, List.sum_cons, List.sum_cons, List.sum_cons,
      ih fun x hx => h x (List.mem_cons_of_mem _ hx), h e List.mem_cons_self]
    omega

theorem rel_tip {db : Db} {L : Ledger} (hr : Rel db L) {t m' : Nat} (hm' : m' = medianTime (t :: L.times)) (hm : L.m ≤ m')
    (hroom : Roomy (L.tip t)) :
    ∃ db', unlock db (L.h + 1) L.m m' = .ok db' ∧ Rel db' (L.tip t) ∧ Keeps (L.h + 1) db db' := by
  have hh' : (L.tip t).h = L.h + 1 := rfl
  have hmm : (L.tip t).m = m' := hm'.symm
  let l := db.lutxo.lasts.filter (fun x => x.2.2.endsNow (L.h + 1) L.m m')
  -- the rows are those of the outputs whose lock runs out
  have hmem : ∀ x : Op × Output × UtxoLock, x ∈ l → ∃ e ∈ L.outs, e.op = x.1 ∧ x.2.1 = e.out ∧ Newly L m' e := by
    intro x hx
    obtain ⟨h1, h2⟩ := List.mem_filter.1 hx
    obtain ⟨e, e1, e2, e3, e4, v, d, lk, e5, e6⟩ := hr.kA x.1 x.2 (mem_lasts.1 h1)
    exact ⟨e, e1, e2, e3, e4.1, (endsNow_iff e5 e6).1 h2⟩
  have hmem' : ∀ e ∈ L.outs, Newly L m' e → ∃ lk, (e.op, e.out, lk) ∈ l := by
    intro e he hn
    have hheld : Held e := ⟨hn.1, fun hf => hn.2.1 (hf.mono (hr.tip e he).1 (hr.tip e he).2)⟩
    obtain ⟨x, hx⟩ := hr.kB e he hheld
    obtain ⟨e', e1, e2, e3, e4, v, d, lk, e5, e6⟩ := hr.kA _ _ hx
    have := uniq_eq hr.uniq e1 he e2
    subst this
    obtain ⟨x1, x2⟩ := x
    dsimp only at e3
    subst e3
    exact ⟨x2, List.mem_filter.2 ⟨mem_lasts.2 hx, (endsNow_iff e5 e6).2 hn.2⟩⟩
  have hlnd : (l.map (·.1)).Nodup := (lasts_nodup hr.one).sublist (List.Sublist.map _ List.filter_sublist)
  have hperm : (l.map fun x => (x.1, x.2.1)).Perm ((L.outs.filter fun e => decide (Newly L m' e)).map fun e => (e.op, e.out)) := by
    refine (List.perm_ext_iff_of_nodup ?_ ?_).2 ?_
    · refine List.Nodup.of_map (·.1) ?_
      rw [List.map_map]; exact hlnd
    · refine List.Nodup.of_map (·.1) ?_
      rw [List.map_map, List.Nodup, List.pairwise_map]
      exact List.Pairwise.filter _ hr.uniq
    · rintro ⟨o, out⟩
      simp only [List.mem_map, List.mem_filter, decide_eq_true_eq, Prod.mk.injEq]
      constructor
      · rintro ⟨x, hx, h1, h2⟩
        obtain ⟨e, e1, e2, e3, e4⟩ := hmem x hx
        exact ⟨e, ⟨e1, e4⟩, e2.trans h1, e3.symm.trans h2⟩
      · rintro ⟨e, ⟨e1, e2⟩, e3, e4⟩
        obtain ⟨lk, h1⟩ := hmem' e e1 e2
        exact ⟨_, h1, e3, e4⟩
  have htotal : ∀ a c, total l a c = (L.outs.map fun e => if Newly L m' e then worth e.out a c else 0).sum := by
    intro a c
    rw [← sum_filter_map]
    have h1 : total l a c = ((l.map fun x => (x.1, x.2.1)).map fun y => worth y.2 a c).sum := by
      rw [List.map_map]; rfl
    rw [h1, (hperm.map _).sum_eq, List.map_map]
    rfl
  have hnspent : ∀ e ∈ L.outs, Newly L m' e → e.op ∉ L.spent := by
    intro e he hn hs
    rcases hr.spentOpen e he hs with h1 | h1
    · rw [hn.1] at h1; cases h1
    · exact hn.2.1 h1
  have hup : ∀ e, Free L.h L.m e → Free (L.h + 1) m' e := fun e hf => hf.mono (by omega) hm
  have havail : ∀ a c, (L.tip t).available a c = L.available a c + total l a c := by
    intro a c
    rw [htotal]
    refine sum_split fun e he => ?_
    rw [hh', hmm]
    change (if e.reward = false ∧ e.op ∉ L.spent ∧ Free (L.h + 1) m' e then _ else _) = _
    by_cases hr1 : e.reward = false
    · by_cases hf : Free L.h L.m e
      · have hn : ¬ Newly L m' e := fun h => h.2.1 hf
        simp [hr1, hf, hup e hf, hn]
      · by_cases hf' : Free (L.h + 1) m' e
        · have hn : Newly L m' e := ⟨hr1, hf, hf'⟩
          simp [hr1, hf, hf', hn, hnspent e he hn]
        · have hn : ¬ Newly L m' e := fun h => hf' h.2.2
          simp [hf, hf', hn]
    · have hn : ¬ Newly L m' e := fun h => hr1 h.1
      simp [hr1, hn]
  have hlocked : ∀ a c, L.locked a c = (L.tip t).locked a c + total l a c := by
    intro a c
    rw [htotal]
    refine sum_split fun e he => ?_
    rw [hh', hmm]
    change _ = (if e.reward = false ∧ e.op ∉ L.spent ∧ ¬ Free (L.h + 1) m' e then _ else _) + _
    by_cases hr1 : e.reward = false
    · by_cases hf : Free L.h L.m e
      · have hn : ¬ Newly L m' e := fun h => h.2.1 hf
        simp [hf, hup e hf, hn]
      · by_cases hf' : Free (L.h + 1) m' e
        · have hn : Newly L m' e := ⟨hr1, hf, hf'⟩
          simp [hr1, hf, hf', hn, hnspent e he hn]
        · have hn : ¬ Newly L m' e := fun h => hf' h.2.2
          simp [hr1, hf, hf', hn]
    · have hn : ¬ Newly L m' e := fun h => hr1 h.1
      simp [hr1, hn]
  have hpaid : ∀ a c, (L.tip t).paid a c = L.paid a c := fun _ _ => rfl
  obtain ⟨db', i1, i2, i3, i4, i5, i6, i7, i8, i9, i10, i11⟩ := unlock_fold (h := L.h + 1) l db (hr.balUp.mono (by omega))
    (hr.lbalUp.mono (by omega)) (hr.utxoUp.mono (by omega)) hr.linksNodup
    (by
      intro x hx
      obtain ⟨e, -, -, e3, e4⟩ := hmem x hx
      rw [e3]
      exact locked_kind e4.2.1)
    hlnd
    (by
      intro x hx
      obtain ⟨e, e1, e2, e3, e4⟩ := hmem x hx
      cases hlast : db.utxo.last x.1 with
      | none => rfl
      | some y =>
        obtain ⟨e', f1, f2, -, -, f5, -⟩ := hr.uA _ _ hlast
        have := uniq_eq hr.uniq f1 e1 (f2.trans e2.symm)
        subst this
        rcases f5 with f5 | f5
        · rw [e4.1] at f5; cases f5
        · exact absurd f5 e4.2.1)
    (by
      intro a c
      have := (hroom a c).1
      rw [havail, hpaid] at this
      rw [hr.bal]; omega)
    (by
      intro a c
      rw [hr.lbal, hlocked]; omega)
  have hopen : ∀ e, Open L e → Open (L.tip t) e := by
    rintro e (h | h)
    · exact Or.inl h
    · exact Or.inr (by rw [hh', hmm]; exact hup e h)
  have hopen' : ∀ e, Open (L.tip t) e → Open L e ∨ Newly L m' e := by
    rintro e (h | h)
    · exact Or.inl (Or.inl h)
    · rw [hh', hmm] at h
      by_cases hr1 : e.reward = true
      · exact Or.inl (Or.inl hr1)
      · by_cases hf : Free L.h L.m e
        · exact Or.inl (Or.inr hf)
        · exact Or.inr ⟨by simpa using hr1, hf, h⟩
  have hnopen : ∀ e, Newly L m' e → Open (L.tip t) e := fun e hn => Or.inr (by rw [hh', hmm]; exact hn.2.2)
  refine ⟨db', i1, ⟨?_, ?_, ?_, ?_, ?_, ?_, ?_, ?_, hr.uniq, hr.spentIn, ?_, ?_, i2.upTo, i3.upTo, i4, ?_, ?_, i10, ?_⟩, i11⟩
  · intro o x hx
    by_cases hin : ∃ y ∈ l, y.1 = o
    · obtain ⟨y, hy, rfl⟩ := hin
      rw [i5 y hy] at hx
      cases hx
      obtain ⟨e, e1, e2, e3, e4⟩ := hmem y hy
      refine ⟨e, e1, e2, e3, ?_, hnopen e e4, ?_⟩
      · obtain ⟨v, d, lk, h⟩ := locked_kind e4.2.1
        rw [h]; nofun
      · simp only [ne_eq, not_true_eq_false, false_iff]
        rw [← e2]; exact hnspent e e1 e4
    · rw [i6 o fun y hy h => hin ⟨y, hy, h⟩] at hx
      obtain ⟨e, e1, e2, e3, e4, e5, e6⟩ := hr.uA o x hx
      exact ⟨e, e1, e2, e3, e4, hopen e e5, e6⟩
  · intro e he hk ho
    by_cases hin : ∃ y ∈ l, y.1 = e.op
    · obtain ⟨y, hy, h⟩ := hin
      rw [← h, i5 y hy]; exact ⟨_, rfl⟩
    · rw [i6 e.op fun y hy h => hin ⟨y, hy, h⟩]
      rcases hopen' e ho with h | h
      · exact hr.uB e he hk h
      · obtain ⟨lk, h1⟩ := hmem' e he h
        exact absurd ⟨_, h1, rfl⟩ hin
  · intro o x hx; rw [i8] at hx; exact hr.kA o x hx
  · intro e he hh; rw [i8]; exact hr.kB e he hh
  · intro a c
    rw [i2.rd, hr.bal, havail, hpaid]; omega
  · intro a c
    have h1 := i3.rd a c
    have h2 := hlocked a c
    rw [hr.lbal] at h1
    omega
  · intro a o
    rw [i7, hr.links]
    constructor
    · rintro (⟨e, e1, e2, e3, e4, e5⟩ | ⟨x, hx, rfl, h2⟩)
      · exact ⟨e, e1, e2, e3, hopen e e4, e5⟩
      · obtain ⟨e, e1, e2, e3, e4⟩ := hmem x hx
        refine ⟨e, e1, e2, ?_, hnopen e e4, by rw [← e3]; exact h2⟩
        obtain ⟨v, d, lk, h⟩ := locked_kind e4.2.1
        rw [h]; nofun
    · rintro ⟨e, e1, e2, e3, e4, e5⟩
      rcases hopen' e e4 with h | h
      · exact Or.inl ⟨e, e1, e2, e3, h, e5⟩
      · obtain ⟨lk, h1⟩ := hmem' e e1 h
        exact Or.inr ⟨_, h1, e2, e5⟩
  · intro a o; rw [i9]; exact hr.llinks a o
  · intro e he hs; exact hopen e (hr.spentOpen e he hs)
  · intro e he
    have := hr.tip e he
    rw [hh', hmm]; exact ⟨by omega, by omega⟩
  · rw [i8, hh']; exact hr.lutxoUp.mono (by omega)
  · rw [i8]; exact hr.one
  · rw [i9]; exact hr.llinksNodup

end Verif.Scanner
