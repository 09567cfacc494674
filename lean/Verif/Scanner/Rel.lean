import Verif.Scanner.Tables
import Verif.Scanner.Spec
import Verif.BlockTree.Median

/-! The relation between the tables and the ledger of the chain, and the relation that lets the tables be wound back. -/

namespace Verif.Scanner

open Verif

/-! ## Locks -/

theorem Free.mono {h m h' m' : Nat} {e : Entry} (hf : Free h m e) (hh : h ≤ h') (hm : m ≤ m') : Free h' m' e := by
  unfold Free at hf ⊢
  split <;> simp_all <;> omega

/-- an output that is locked is one of the kind with a lock -/
theorem locked_kind {h m : Nat} {e : Entry} (hf : ¬ Free h m e) : ∃ v d lk, e.out = .lockThenTransfer v d lk := by
  unfold Free at hf
  split at hf <;> first | exact ⟨_, _, _, ‹_›⟩ | exact absurd trivial hf

theorem fromLock_ok {h t : Nat} {v d lk} (hf : Fits h t (.lockThenTransfer v d lk)) : ∃ l, fromLock lk t h = .ok l := by
  cases lk with
  | untilHeight x => exact ⟨_, rfl⟩
  | untilTime x => exact ⟨_, rfl⟩
  | forBlockCount x =>
    simp only [Fits] at hf
    exact ⟨.untilHeight (h + x), by simp only [fromLock]; rw [if_pos (by omega)]⟩
  | forSeconds x =>
    simp only [Fits] at hf
    exact ⟨.untilTime (t + x), by simp only [fromLock]; rw [if_pos hf]⟩

/-- the lock of a row ends at the new tip exactly when the output was locked at the old tip and is not at the new one -/
theorem endsNow_iff {e : Entry} {v d lk l} {h m m' : Nat} (ho : e.out = .lockThenTransfer v d lk) (hl : fromLock lk e.t e.h = .ok l) :
    l.endsNow (h + 1) m m' = true ↔ ((¬ Free h m e) ∧ Free (h + 1) m' e) := by
  cases lk with
  | untilHeight x =>
    simp only [fromLock] at hl; cases hl
    simp only [UtxoLock.endsNow, Free, ho, decide_eq_true_eq]; omega
  | untilTime x =>
    simp only [fromLock] at hl; cases hl
    simp only [UtxoLock.endsNow, Free, ho, decide_eq_true_eq, Bool.and_eq_true]; omega
  | forBlockCount x =>
    simp only [fromLock] at hl
    split at hl <;> cases hl
    simp only [UtxoLock.endsNow, Free, ho, decide_eq_true_eq]; omega
  | forSeconds x =>
    simp only [fromLock] at hl
    split at hl <;> cases hl
    simp only [UtxoLock.endsNow, Free, ho, decide_eq_true_eq, Bool.and_eq_true]; omega

/-- the time-lock check of the node agrees with `Free` when the end of the lock can be computed -/
theorem alreadyUnlocked_eq {h t m : Nat} {v d lk} {o : Op} (hf : Fits h t (.lockThenTransfer v d lk)) :
    alreadyUnlocked h t m lk = .ok (decide (Free h m ⟨o, .lockThenTransfer v d lk, h, t, m⟩)) := by
  cases lk with
  | untilHeight x =>
    by_cases hx : x ≤ h <;> simp [alreadyUnlocked, Script.checkTimelock, Script.atLeast, Free, hx]
  | untilTime x =>
    by_cases hx : x ≤ m <;> simp [alreadyUnlocked, Script.checkTimelock, Script.atLeast, Free, hx]
  | forBlockCount x =>
    simp only [Fits] at hf
    have h1 : ¬ (2 ^ 63 ≤ x) := by omega
    have h2 : ¬ (2 ^ 63 ≤ h) := by omega
    have h3 : ¬ (2 ^ 63 ≤ h + x) := by omega
    have hc : Script.checkTimelock ⟨h, m, .ok h, .ok t⟩ (.forBlockCount x) = Script.atLeast h (h + x) (.heightLocked h (h + x)) := by
      have hh : Script.heightAdd h x = .ok (h + x) := by rw [Script.heightAdd, if_neg h2, if_neg h3]
      simp only [Script.checkTimelock, Script.ofCtx, if_neg h1]
      show (Script.heightAdd h x >>= _) = _
      rw [hh]
      rfl
    rw [alreadyUnlocked, hc]
    by_cases hx : h + x ≤ h
    · rw [Script.atLeast, if_pos hx, decide_eq_true (by simpa only [Free] using hx)]
    · rw [Script.atLeast, if_neg hx, decide_eq_false (by simpa only [Free] using hx)]
  | forSeconds x =>
    simp only [Fits] at hf
    have h1 : ¬ (2 ^ 64 ≤ t + x) := by omega
    have hc : Script.checkTimelock ⟨h, m, .ok h, .ok t⟩ (.forSeconds x) = Script.atLeast m (t + x) (.timestampLocked m (t + x)) := by
      simp only [Script.checkTimelock, Script.ofCtx]
      show (if 2 ^ 64 ≤ t + x then _ else _ : Except (Script.Err Script.LockErr) Unit) = _
      rw [if_neg h1]
    rw [alreadyUnlocked, hc]
    by_cases hx : t + x ≤ m
    · rw [Script.atLeast, if_pos hx, decide_eq_true (by simpa only [Free] using hx)]
    · rw [Script.atLeast, if_neg hx, decide_eq_false (by simpa only [Free] using hx)]

/-! ## Balances -/

/-- the amount in a table of balances -/
def rd (t : Table (Addr × Cur) Nat) (a : Addr) (c : Cur) : Nat := (t.last (a, c)).getD 0

def worthV (v : Value) (d a : Addr) (c : Cur) : Nat :=
  match v.amount? with
  | some (n, k) => if d = a ∧ c = k then n else 0
  | none => 0

theorem worth_transfer (v d a c) : worth (.transfer v d) a c = worthV v d a c := by cases v <;> rfl
theorem worth_lock (v d lk a c) : worth (.lockThenTransfer v d lk) a c = worthV v d a c := by cases v <;> rfl

/-- balances have grown -/
structure Plus (h : Nat) (t t' : Table (Addr × Cur) Nat) (f : Addr → Cur → Nat) : Prop where
  upTo : t'.UpTo h
  rd : ∀ a c, rd t' a c = rd t a c + f a c
  cut : ∀ c < h, t'.cut c = t.cut c

/-- balances have shrunk -/
structure Minus (h : Nat) (t t' : Table (Addr × Cur) Nat) (f : Addr → Cur → Nat) : Prop where
  upTo : t'.UpTo h
  rd : ∀ a c, Scanner.rd t' a c + f a c = Scanner.rd t a c
  cut : ∀ c < h, t'.cut c = t.cut c

theorem Plus.refl {h t} (ht : Table.UpTo t h) : Plus h t t (fun _ _ => 0) := ⟨ht, by simp, fun _ _ => rfl⟩
theorem Minus.refl {h t} (ht : Table.UpTo t h) : Minus h t t (fun _ _ => 0) := ⟨ht, by simp, fun _ _ => rfl⟩

theorem plus_put {h t} (ht : Table.UpTo t h) (a : Addr) (c : Cur) (n : Nat) :
    Plus h t (t.put (a, c) h (rd t a c + n)) (fun a' c' => if a = a' ∧ c' = c then n else 0) := by
  refine ⟨ht.put _ _, fun a' c' => ?_, fun c0 hc => cut_put hc _ _⟩
  simp only [rd, last_put ht]
  by_cases h1 : a = a' ∧ c' = c
  · obtain ⟨rfl, rfl⟩ := h1; simp
  · have : ¬ ((a', c') = (a, c)) := fun hh => h1 (by cases hh; exact ⟨rfl, rfl⟩)
    simp [h1, this]

theorem minus_put {h t} (ht : Table.UpTo t h) (a : Addr) (c : Cur) {n : Nat} (hn : n ≤ rd t a c) :
    Minus h t (t.put (a, c) h (rd t a c - n)) (fun a' c' => if a = a' ∧ c' = c then n else 0) := by
  refine ⟨ht.put _ _, fun a' c' => ?_, fun c0 hc => cut_put hc _ _⟩
  simp only [rd, last_put ht]
  simp only [rd] at hn
  by_cases h1 : a = a' ∧ c' = c
  · obtain ⟨rfl, rfl⟩ := h1; simp; omega
  · have : ¬ ((a', c') = (a, c)) := fun hh => h1 (by cases hh; exact ⟨rfl, rfl⟩)
    simp [h1, this]

theorem increase_ok {db : Db} {h a n c} (ht : db.bal.UpTo h) (hr : rd db.bal a c + n < maxAmount) :
    ∃ b', increase db a n c h = .ok { db with bal := b' } ∧ Plus h db.bal b' (fun a' c' => if a = a' ∧ c' = c then n else 0) := by
  refine ⟨_, ?_, plus_put ht a c n⟩
  unfold increase
  exact if_pos hr

theorem onInc_ok {db : Db} {h d v} (ht : db.bal.UpTo h) (hr : ∀ a c, rd db.bal a c + worthV v d a c < maxAmount) :
    ∃ b', onValue increase db d v h = .ok { db with bal := b' } ∧ Plus h db.bal b' (worthV v d) := by
  unfold onValue
  unfold worthV at hr ⊢
  cases hv : v.amount? with
  | none => exact ⟨_, rfl, Plus.refl ht⟩
  | some x =>
    obtain ⟨n, c⟩ := x
    rw [hv] at hr
    have := hr d c
    simp only [true_and, if_true] at this
    exact increase_ok ht this

theorem onIncLocked_ok {db : Db} {h d v} (ht : db.lbal.UpTo h) (hr : ∀ a c, rd db.lbal a c + worthV v d a c < maxAmount) :
    ∃ b', onValue increaseLocked db d v h = .ok { db with lbal := b' } ∧ Plus h db.lbal b' (worthV v d) := by
  unfold onValue
  unfold worthV at hr ⊢
  cases hv : v.amount? with
  | none => exact ⟨_, rfl, Plus.refl ht⟩
  | some x =>
    obtain ⟨n, c⟩ := x
    rw [hv] at hr
    have := hr d c
    simp only [true_and, if_true] at this
    refine ⟨_, ?_, plus_put ht d c n⟩
    unfold increaseLocked
    exact if_pos this

theorem decrease_ok {db : Db} {h a n c} (ht : db.bal.UpTo h) (hr : n ≤ rd db.bal a c) :
    ∃ b', decrease db a n c h = .ok { db with bal := b' } ∧ Minus h db.bal b' (fun a' c' => if a = a' ∧ c' = c then n else 0) := by
  refine ⟨_, ?_, minus_put ht a c hr⟩
  unfold decrease
  exact if_pos hr

theorem onDec_ok {db : Db} {h d v} (ht : db.bal.UpTo h) (hr : ∀ a c, worthV v d a c ≤ rd db.bal a c) :
    ∃ b', onValue decrease db d v h = .ok { db with bal := b' } ∧ Minus h db.bal b' (worthV v d) := by
  unfold onValue
  unfold worthV at hr ⊢
  cases hv : v.amount? with
  | none => exact ⟨_, rfl, Minus.refl ht⟩
  | some x =>
    obtain ⟨n, c⟩ := x
    rw [hv] at hr
    have := hr d c
    simp only [true_and, if_true] at this
    exact decrease_ok ht this

theorem onDecLocked_ok {db : Db} {h d v} (ht : db.lbal.UpTo h) (hr : ∀ a c, worthV v d a c ≤ rd db.lbal a c) :
    ∃ b', onValue decreaseLocked db d v h = .ok { db with lbal := b' } ∧ Minus h db.lbal b' (worthV v d) := by
  unfold onValue
  unfold worthV at hr ⊢
  cases hv : v.amount? with
  | none => exact ⟨_, rfl, Minus.refl ht⟩
  | some x =>
    obtain ⟨n, c⟩ := x
    rw [hv] at hr
    have := hr d c
    simp only [true_and, if_true] at this
    refine ⟨_, ?_, minus_put ht d c this⟩
    unfold decreaseLocked
    exact if_pos this

/-! ## Links -/

theorem mem_addLink {l a o r} : r ∈ addLink l a o ↔ r ∈ l ∨ r = (a, o) := by
  unfold addLink
  split
  · constructor
    · exact Or.inl
    · rintro (h | h)
      · exact h
      · rw [h]; assumption
  · simp

theorem mem_addLinks {l : List (Addr × Op)} {as : List Addr} {o r} :
    r ∈ as.foldl (fun l a => addLink l a o) l ↔ r ∈ l ∨ ∃ a ∈ as, r = (a, o) := by
  induction as generalizing l with
  | nil => simp
  | cons a as ih =>
    rw [List.foldl_cons, ih, mem_addLink]
    simp [or_assoc]

theorem addLinks_known {l : List (Addr × Op)} {as : List Addr} {o} (h : ∀ a ∈ as, (a, o) ∈ l) : as.foldl (fun l a => addLink l a o) l = l := by
  induction as generalizing l with
  | nil => rfl
  | cons a as ih =>
    rw [List.foldl_cons]
    have h1 : addLink l a o = l := by simp [addLink, h a List.mem_cons_self]
    rw [h1]
    exact ih fun x hx => h x (List.mem_cons_of_mem _ hx)

theorem addLinks_filter {l : List (Addr × Op)} {as : List Addr} {o} {p : Addr × Op → Bool} (hp : ∀ a, p (a, o) = false) :
    (as.foldl (fun l a => addLink l a o) l).filter p = l.filter p := by
  induction as generalizing l with
  | nil => rfl
  | cons a as ih =>
    rw [List.foldl_cons, ih]
    unfold addLink
    split
    · rfl
    · simp [List.filter_append, List.filter_cons, hp a]

/-! ## Winding back -/

/-- the tables hold, at and below the height `c`, exactly what `db0` holds -/
structure Keep (c : Nat) (db0 db : Db) : Prop where
  bal : db.bal.cut c = db0.bal
  lbal : db.lbal.cut c = db0.lbal
  utxo : db.utxo.cut c = db0.utxo
  lutxo : db.lutxo.cut c = db0.lutxo
  links : db.links.filter (fun r => db0.utxo.hasKey r.2) = db0.links
  llinks : db.llinks.filter (fun r => db0.lutxo.hasKey r.2) = db0.llinks
  main : db.main.filter (·.1 ≤ c) = db0.main
  time : db.genesisTime = db0.genesisTime

/-- a step at height `h` keeps all that is below -/
def Keeps (h : Nat) (db db' : Db) : Prop := ∀ c < h, ∀ db0, Keep c db0 db → Keep c db0 db'

theorem Keeps.refl (h : Nat) (db : Db) : Keeps h db db := fun _ _ _ hk => hk
theorem Keeps.trans {h a b d} (h1 : Keeps h a b) (h2 : Keeps h b d) : Keeps h a d := fun c hc db0 hk => h2 c hc db0 (h1 c hc db0 hk)

theorem keeps_bal {h} {db : Db} {b'} (hc : ∀ c < h, Table.cut b' c = db.bal.cut c) : Keeps h db { db with bal := b' } :=
  fun c hch _ hk => { hk with bal := (hc c hch).trans hk.bal }

theorem keeps_lbal {h} {db : Db} {b'} (hc : ∀ c < h, Table.cut b' c = db.lbal.cut c) : Keeps h db { db with lbal := b' } :=
  fun c hch _ hk => { hk with lbal := (hc c hch).trans hk.lbal }

theorem keeps_setUtxo {h} {db : Db} {o x as} (hn : db.utxo.last o = none ∨ ∀ a ∈ as, (a, o) ∈ db.links) :
    Keeps h db (db.setUtxo o x as h) := by
  intro c hc db0 hk
  refine { hk with utxo := (cut_put hc _ _).trans hk.utxo, links := ?_ }
  dsimp only [Db.setUtxo]
  rcases hn with hn | hn
  · rw [addLinks_filter, hk.links]
    intro a
    dsimp only
    rw [← hk.utxo, Bool.eq_false_iff]
    intro hh
    obtain ⟨y, hy⟩ := hasKey_iff.1 (hasKey_of_cut hh)
    rw [hn] at hy; cases hy
  · rw [addLinks_known hn, hk.links]

theorem keeps_setLocked {h} {db : Db} {o x as} (hn : db.lutxo.last o = none) : Keeps h db (db.setLocked o x as h) := by
  intro c hc db0 hk
  refine { hk with lutxo := (cut_put hc _ _).trans hk.lutxo, llinks := ?_ }
  dsimp only [Db.setLocked]
  rw [addLinks_filter, hk.llinks]
  intro a
  dsimp only
  rw [← hk.lutxo, Bool.eq_false_iff]
  intro hh
  obtain ⟨y, hy⟩ := hasKey_iff.1 (hasKey_of_cut hh)
  rw [hn] at hy; cases hy

theorem insertMain_filter {h t c : Nat} (hc : c < h) (l : List (Nat × Nat)) :
    (insertMain h t l).filter (·.1 ≤ c) = l.filter (·.1 ≤ c) := by
  induction l with
  | nil => simp [insertMain, List.filter_cons]; omega
  | cons r l ih =>
    obtain ⟨h', t'⟩ := r
    simp only [insertMain]
    split
    · rw [List.filter_cons, if_neg (by simp; omega)]
    · split
      · rename_i h2
        rw [List.filter_cons, if_neg (by simp; omega), List.filter_cons, if_neg (by simp; omega)]
      · rw [List.filter_cons, List.filter_cons, ih]

theorem keeps_main {h t} {db : Db} : Keeps h db { db with main := insertMain h t db.main } :=
  fun _ hch _ hk => { hk with main := (insertMain_filter hch _).trans hk.main }

/-! ## The tables and the ledger -/

/-- the output is in the table of outputs (as opposed to that of locked outputs) -/
def Open (L : Ledger) (e : Entry) : Prop := e.reward = true ∨ Free L.h L.m e

/-- the output was locked in the block that made it -/
def Held (e : Entry) : Prop := e.reward = false ∧ ¬ Free e.h e.m e

structure Rel (db : Db) (L : Ledger) : Prop where
  uA : ∀ o x, db.utxo.last o = some x →
    ∃ e ∈ L.outs, e.op = o ∧ x.1 = e.out ∧ e.out ≠ .other ∧ Open L e ∧ (x.2 ≠ none ↔ o ∈ L.spent)
  uB : ∀ e ∈ L.outs, e.out ≠ .other → Open L e → ∃ x, db.utxo.last e.op = some x
  kA : ∀ o x, db.lutxo.last o = some x →
    ∃ e ∈ L.outs, e.op = o ∧ x.1 = e.out ∧ Held e ∧ ∃ v d lk, e.out = .lockThenTransfer v d lk ∧ fromLock lk e.t e.h = .ok x.2
  kB : ∀ e ∈ L.outs, Held e → ∃ x, db.lutxo.last e.op = some x
  bal : ∀ a c, rd db.bal a c = L.available a c + L.paid a c
  lbal : ∀ a c, rd db.lbal a c = L.locked a c
  links : ∀ a o, (a, o) ∈ db.links ↔ ∃ e ∈ L.outs, e.op = o ∧ e.out ≠ .other ∧ Open L e ∧ a ∈ owners e.out
  llinks : ∀ a o, (a, o) ∈ db.llinks ↔ ∃ e ∈ L.outs, e.op = o ∧ Held e ∧ a ∈ owners e.out
  uniq : L.outs.Pairwise fun e e' => e.op ≠ e'.op
  spentIn : ∀ o ∈ L.spent, ∃ e ∈ L.outs, e.op = o
  spentOpen : ∀ e ∈ L.outs, e.op ∈ L.spent → Open L e
  tip : ∀ e ∈ L.outs, e.h ≤ L.h ∧ e.m ≤ L.m
  balUp : db.bal.UpTo L.h
  lbalUp : db.lbal.UpTo L.h
  utxoUp : db.utxo.UpTo L.h
  lutxoUp : db.lutxo.UpTo L.h
  one : db.lutxo.One
  linksNodup : db.links.Nodup
  llinksNodup : db.llinks.Nodup

theorem uniq_eq {l : List Entry} (hu : l.Pairwise fun e e' => e.op ≠ e'.op) {e e'} (h : e ∈ l) (h' : e' ∈ l) (ho : e.op = e'.op) :
    e = e' := by
  induction hu with
  | nil => cases h
  | @cons x l hx _ ih =>
    rcases List.mem_cons.1 h with h | h
    · rcases List.mem_cons.1 h' with h' | h'
      · rw [h, h']
      · rw [h] at ho; exact absurd ho (hx _ h')
    · rcases List.mem_cons.1 h' with h' | h'
      · rw [h'] at ho; exact absurd ho.symm (hx _ h)
      · exact ih h h'

/-- one entry of a sum changes -/
theorem sum_change {l : List Entry} (hu : l.Pairwise fun e e' => e.op ≠ e'.op) {e : Entry} (he : e ∈ l) {f g : Entry → Nat}
    (h : ∀ x ∈ l, x.op ≠ e.op → f x = g x) : (l.map f).sum + g e = (l.map g).sum + f e := by
  induction hu with
  | nil => cases he
  | @cons x l hx _ ih =>
    rw [List.map_cons, List.map_cons, List.sum_cons, List.sum_cons]
    rcases List.mem_cons.1 he with he | he
    · subst he
      have : l.map f = l.map g := List.map_congr_left fun y hy => h y (List.mem_cons_of_mem _ hy) (Ne.symm (hx y hy))
      rw [this]; omega
    · have h1 := ih he fun y hy => h y (List.mem_cons_of_mem _ hy)
      have h2 := h x List.mem_cons_self (hx e he)
      omega

theorem addLinks_nodup {l : List (Addr × Op)} {as : List Addr} {o} (h : l.Nodup) : (as.foldl (fun l a => addLink l a o) l).Nodup := by
  induction as generalizing l with
  | nil => exact h
  | cons a as ih =>
    rw [List.foldl_cons]
    refine ih ?_
    unfold addLink
    split
    · exact h
    · rename_i hn
      rw [List.nodup_append]
      exact ⟨h, List.nodup_singleton _, fun x hx y hy hxy => hn (by rw [List.mem_singleton.1 hy] at hxy; rwa [← hxy])⟩

end Verif.Scanner
