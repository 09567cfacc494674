import Verif.Scanner.Rel

/-! One input, one output. -/

namespace Verif.Scanner

open Verif Ledger

theorem destination_owner {out : Output} (h : out ≠ .other) : ∃ a, destination out = some a ∧ a ∈ owners out := by
  cases out <;> simp_all [destination, owners]

/-! ## Spending -/

theorem available_spend {L : Ledger} (hu : L.outs.Pairwise fun e e' => e.op ≠ e'.op) {e : Entry} (he : e ∈ L.outs)
    (hn : e.op ∉ L.spent) (ho : Open L e) (a : Addr) (c : Cur) :
    (L.spend e.op).available a c + (if e.reward = false then worth e.out a c else 0) = L.available a c := by
  have := sum_change hu he
    (f := fun x => if x.reward = false ∧ x.op ∉ L.spent ∧ Free L.h L.m x then worth x.out a c else 0)
    (g := fun x => if x.reward = false ∧ x.op ∉ e.op :: L.spent ∧ Free L.h L.m x then worth x.out a c else 0)
    (by
      intro x _ hx
      have : x.op ∉ e.op :: L.spent ↔ x.op ∉ L.spent := by simp [hx]
      simp only [this])
  have e1 : (L.spend e.op).available a c = (L.outs.map fun x =>
    if x.reward = false ∧ x.op ∉ e.op :: L.spent ∧ Free L.h L.m x then worth x.out a c else 0).sum := rfl
  have e2 : L.available a c = (L.outs.map fun x =>
    if x.reward = false ∧ x.op ∉ L.spent ∧ Free L.h L.m x then worth x.out a c else 0).sum := rfl
  have h1 : (if e.reward = false ∧ e.op ∉ e.op :: L.spent ∧ Free L.h L.m e then worth e.out a c else 0) = 0 := by
    rw [if_neg]; simp
  have h2 : (if e.reward = false ∧ e.op ∉ L.spent ∧ Free L.h L.m e then worth e.out a c else 0)
      = if e.reward = false then worth e.out a c else 0 := by
    by_cases hr : e.reward = false
    · have hf : Free L.h L.m e := by
        rcases ho with ho | ho
        · rw [hr] at ho; cases ho
        · exact ho
      simp [hr, hn, hf]
    · simp [hr]
  rw [h1, h2] at this
  rw [e1, e2]
  omega

theorem locked_spend {L : Ledger} (hu : L.outs.Pairwise fun e e' => e.op ≠ e'.op) {e : Entry} (he : e ∈ L.outs)
    (ho : Open L e) (a : Addr) (c : Cur) : (L.spend e.op).locked a c = L.locked a c := by
  have := sum_change hu he
    (f := fun x => if x.reward = false ∧ x.op ∉ L.spent ∧ ¬ Free L.h L.m x then worth x.out a c else 0)
    (g := fun x => if x.reward = false ∧ x.op ∉ e.op :: L.spent ∧ ¬ Free L.h L.m x then worth x.out a c else 0)
    (by
      intro x _ hx
      have : x.op ∉ e.op :: L.spent ↔ x.op ∉ L.spent := by simp [hx]
      simp only [this])
  have e1 : (L.spend e.op).locked a c = (L.outs.map fun x =>
    if x.reward = false ∧ x.op ∉ e.op :: L.spent ∧ ¬ Free L.h L.m x then worth x.out a c else 0).sum := rfl
  have e2 : L.locked a c = (L.outs.map fun x =>
    if x.reward = false ∧ x.op ∉ L.spent ∧ ¬ Free L.h L.m x then worth x.out a c else 0).sum := rfl
  have h1 : (if e.reward = false ∧ e.op ∉ e.op :: L.spent ∧ ¬ Free L.h L.m e then worth e.out a c else 0) = 0 := by
    rw [if_neg]; simp
  have h2 : (if e.reward = false ∧ e.op ∉ L.spent ∧ ¬ Free L.h L.m e then worth e.out a c else 0) = 0 := by
    rw [if_neg]
    rintro ⟨hr, -, hf⟩
    rcases ho with ho | ho
    · rw [hr] at ho; cases ho
    · exact hf ho
  rw [h1, h2] at this
  rw [e1, e2]
  omega

theorem paid_spend (L : Ledger) (o : Op) (a : Addr) (c : Cur) : (L.spend o).paid a c = L.paid a c := rfl

/-- the output is marked as spent -/
theorem rel_mark {db : Db} {L : Ledger} (hr : Rel db L) {e : Entry} (he : e ∈ L.outs)
    (hk : e.out ≠ .other) (ho : Open L e) {b' : Table (Addr × Cur) Nat} (hb : b'.UpTo L.h)
    (hbal : ∀ a c, rd b' a c = (L.spend e.op).available a c + (L.spend e.op).paid a c) :
    Rel { setUtxo db e.op e.out L.h true with bal := b' } (L.spend e.op) ∧ Keeps L.h db (setUtxo db e.op e.out L.h true) := by
  obtain ⟨a, ha, hown⟩ := destination_owner hk
  have hlink : (a, e.op) ∈ db.links := (hr.links a e.op).2 ⟨e, he, rfl, hk, ho, hown⟩
  have hl : [a].foldl (fun l a => addLink l a e.op) db.links = db.links :=
    addLinks_known (by intro x hx; rw [List.mem_singleton.1 hx]; exact hlink)
  have hset : setUtxo db e.op e.out L.h true = { db with utxo := db.utxo.put e.op L.h (e.out, some L.h) } := by
    simp only [setUtxo, ha, Db.setUtxo, hl, if_true]
  constructor
  · rw [hset]
    refine { hr with uA := ?_, uB := ?_, bal := hbal, lbal := ?_, links := ?_, spentIn := ?_, spentOpen := ?_, balUp := hb, utxoUp := ?_ }
    · intro o x hx
      rw [last_put hr.utxoUp] at hx
      by_cases h1 : o = e.op
      · rw [if_pos h1] at hx
        cases hx
        exact ⟨e, he, h1.symm, rfl, hk, ho, by simp [spend, h1]⟩
      · rw [if_neg h1] at hx
        obtain ⟨e', h2, h3, h4, h5, h6, h7⟩ := hr.uA o x hx
        refine ⟨e', h2, h3, h4, h5, h6, h7.trans ?_⟩
        simp [spend, h1]
    · intro e' h1 h2 h3
      rw [last_put hr.utxoUp]
      split
      · exact ⟨_, rfl⟩
      · exact hr.uB e' h1 h2 h3
    · intro a c; rw [locked_spend hr.uniq he ho]; exact hr.lbal a c
    · exact hr.links
    · intro o h1
      rcases List.mem_cons.1 h1 with h1 | h1
      · exact ⟨e, he, h1.symm⟩
      · exact hr.spentIn o h1
    · intro e' h1 h2
      rcases List.mem_cons.1 h2 with h2 | h2
      · rw [uniq_eq hr.uniq h1 he h2]; exact ho
      · exact hr.spentOpen e' h1 h2
    · exact hr.utxoUp.put _ _
  · simp only [setUtxo, ha]
    exact keeps_setUtxo (Or.inr (by intro x hx; rw [List.mem_singleton.1 hx]; exact hlink))

theorem rel_stake {db : Db} {L : Ledger} (hr : Rel db L) {o : Op} (hs : CanStake L o) :
    ∃ db', kernelOne L.h db o = .ok db' ∧ Rel db' (L.spend o) ∧ Keeps L.h db db' := by
  obtain ⟨e, he, rfl, hn, hk⟩ := hs
  have hk' : e.out ≠ .other := by rcases hk with ⟨p, d, h⟩ | ⟨d, p, h⟩ <;> rw [h] <;> nofun
  have ho : Open L e := by
    right
    rcases hk with ⟨p, d, h⟩ | ⟨d, p, h⟩ <;> simp [Free, h]
  have hw : ∀ a c, worth e.out a c = 0 := by
    intro a c
    rcases hk with ⟨p, d, h⟩ | ⟨d, p, h⟩ <;> rw [h] <;> rfl
  obtain ⟨x, hx⟩ := hr.uB e he hk' ho
  obtain ⟨e', he', hop, hx1, -⟩ := hr.uA _ _ hx
  have := uniq_eq hr.uniq he' he hop
  subst this
  have hm := rel_mark hr he hk' ho hr.balUp (by
    intro a c
    have := available_spend hr.uniq he hn ho a c
    rw [hw] at this
    rw [hr.bal, paid_spend]
    split at this <;> omega)
  refine ⟨_, ?_, ?_, hm.2⟩
  · obtain ⟨x1, x2⟩ := x
    dsimp only at hx1
    subst hx1
    simp only [kernelOne, Db.getUtxo, hx]
  · have h1 := hm.1
    have h2 : { setUtxo db e'.op e'.out L.h true with bal := db.bal } = setUtxo db e'.op e'.out L.h true := by
      unfold setUtxo; split <;> rfl
    rwa [h2] at h1

theorem rel_spend {db : Db} {L : Ledger} (hr : Rel db L) {before : Nat} (hb : before ≤ L.m) {o : Op} (hs : CanSpend L before o) :
    ∃ db', spendOne L.h db o = .ok db' ∧ Rel db' (L.spend o) ∧ Keeps L.h db db' := by
  obtain ⟨e, he, rfl, hn, hk, hf⟩ := hs
  have ho : Open L e := Or.inr (hf.mono (le_refl _) hb)
  obtain ⟨x, hx⟩ := hr.uB e he hk ho
  obtain ⟨e', he', hop, hx1, -⟩ := hr.uA _ _ hx
  have := uniq_eq hr.uniq he' he hop
  subst this
  obtain ⟨x1, x2⟩ := x
  dsimp only at hx1
  subst hx1
  have havail := available_spend hr.uniq he hn ho
  have hcopy : ∀ h, (setUtxo db e'.op e'.out h true).bal = db.bal := by intro h; unfold setUtxo; split <;> rfl
  have hcopy2 : { setUtxo db e'.op e'.out L.h true with bal := db.bal } = setUtxo db e'.op e'.out L.h true := by
    unfold setUtxo; split <;> rfl
  have hup : (setUtxo db e'.op e'.out L.h true).bal.UpTo L.h := by rw [hcopy]; exact hr.balUp
  simp only [spendOne, Db.getUtxo, hx]
  cases hsrc : e'.op.src with
  | reward b =>
    have hrew : e'.reward = true := by simp [Entry.reward, hsrc]
    have hm := rel_mark hr he hk ho hr.balUp (by
      intro a c
      have := havail a c
      simp only [hrew] at this
      rw [hr.bal, paid_spend]
      simp at this
      omega)
    exact ⟨_, rfl, hcopy2 ▸ hm.1, hm.2⟩
  | tx b =>
    have hrew : e'.reward = false := by simp [Entry.reward, hsrc]
    simp only [hrew, if_true] at havail
    -- what is common to the kinds that are worth something
    have fin : ∀ (w : Addr → Cur → Nat) (b' : Table (Addr × Cur) Nat), (∀ a c, worth e'.out a c = w a c) →
        Minus L.h (setUtxo db e'.op e'.out L.h true).bal b' w →
        Rel { setUtxo db e'.op e'.out L.h true with bal := b' } (L.spend e'.op) ∧
        Keeps L.h db { setUtxo db e'.op e'.out L.h true with bal := b' } := by
      intro w b' hw hmi
      have hm := rel_mark hr he hk ho (b' := b') hmi.upTo (by
        intro a c
        have h1 := hmi.rd a c
        have h2 := havail a c
        rw [hcopy, hr.bal] at h1
        rw [hw] at h2
        rw [paid_spend]
        omega)
      exact ⟨hm.1, hm.2.trans (keeps_bal hmi.cut)⟩
    have hle : ∀ (w : Addr → Cur → Nat), (∀ a c, worth e'.out a c = w a c) →
        ∀ a c, w a c ≤ rd (setUtxo db e'.op e'.out L.h true).bal a c := by
      intro w hw a c
      have h2 := havail a c
      rw [hcopy, hr.bal, ← hw]
      omega
    have zero : (∀ a c, worth e'.out a c = 0) →
        Rel (setUtxo db e'.op e'.out L.h true) (L.spend e'.op) ∧ Keeps L.h db (setUtxo db e'.op e'.out L.h true) := by
      intro hw
      have := fin (fun _ _ => 0) (setUtxo db e'.op e'.out L.h true).bal hw (Minus.refl hup)
      exact this
    cases hout : e'.out with
    | transfer v d =>
      obtain ⟨b', h1, h2⟩ := onDec_ok hup (hle (worthV v d) (by intro a c; rw [hout, worth_transfer]))
      have := fin _ b' (by intro a c; rw [hout, worth_transfer]) h2
      rw [hout] at h1 this
      exact ⟨_, h1, this⟩
    | lockThenTransfer v d lk =>
      obtain ⟨b', h1, h2⟩ := onDec_ok hup (hle (worthV v d) (by intro a c; rw [hout, worth_lock]))
      have := fin _ b' (by intro a c; rw [hout, worth_lock]) h2
      rw [hout] at h1 this
      exact ⟨_, h1, this⟩
    | issueNft t d =>
      have hw : ∀ a c, worth e'.out a c = if d = a ∧ c = .token t then 1 else 0 := by intro a c; rw [hout]; rfl
      have h0 := hle (fun a c => if d = a ∧ c = .token t then 1 else 0) hw d (.token t)
      simp only [true_and, if_true] at h0
      obtain ⟨b', h1, h2⟩ := decrease_ok hup h0
      have := fin _ b' hw h2
      rw [hout] at h1 this
      exact ⟨_, h1, this⟩
    | htlc v s r =>
      have := zero (by intro a c; rw [hout]; rfl)
      rw [hout] at this
      exact ⟨_, rfl, this⟩
    | createPool p d =>
      have := zero (by intro a c; rw [hout]; rfl)
      rw [hout] at this
      exact ⟨_, rfl, this⟩
    | produceBlock d p =>
      have := zero (by intro a c; rw [hout]; rfl)
      rw [hout] at this
      exact ⟨_, rfl, this⟩
    | other => exact absurd hout hk

end Verif.Scanner
