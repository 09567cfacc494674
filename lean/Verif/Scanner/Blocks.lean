import Verif.Scanner.Unlock

/-! Blocks and chains. -/

namespace Verif.Scanner

open Verif Ledger

/-! ## The blocks of the main chain are left alone by the other tables -/

def Same (db db' : Db) : Prop := db'.main = db.main ∧ db'.genesisTime = db.genesisTime

theorem Same.refl (db) : Same db db := ⟨rfl, rfl⟩
theorem Same.trans {a b c} (h1 : Same a b) (h2 : Same b c) : Same a c := ⟨h2.1.trans h1.1, h2.2.trans h1.2⟩

theorem same_foldlM {α : Type} {f : Db → α → Except Abort Db} (hf : ∀ db x db', f db x = .ok db' → Same db db') :
    ∀ (l : List α) db db', l.foldlM f db = .ok db' → Same db db' := by
  intro l
  induction l with
  | nil => intro db db' h; cases h; exact Same.refl _
  | cons x l ih =>
    intro db db' h
    rw [List.foldlM_cons] at h
    obtain ⟨d, h1, h2⟩ := bind_eq_ok.1 h
    exact (hf _ _ _ h1).trans (ih _ _ h2)

theorem same_increase (db a n c h db') (e : increase db a n c h = .ok db') : Same db db' := by
  unfold increase at e; dsimp only at e; split at e
  · cases e; exact Same.refl _
  · cases e

theorem same_increaseLocked (db a n c h db') (e : increaseLocked db a n c h = .ok db') : Same db db' := by
  unfold increaseLocked at e; dsimp only at e; split at e
  · cases e; exact Same.refl _
  · cases e

theorem same_decrease (db a n c h db') (e : decrease db a n c h = .ok db') : Same db db' := by
  unfold decrease at e; dsimp only at e; split at e
  · cases e; exact Same.refl _
  · cases e

theorem same_decreaseLocked (db a n c h db') (e : decreaseLocked db a n c h = .ok db') : Same db db' := by
  unfold decreaseLocked at e; dsimp only at e; split at e
  · cases e; exact Same.refl _
  · cases e

theorem same_onValue {f} (hf : ∀ db a n c h db', f db a n c h = .ok db' → Same db db') {db a v h db'} (e : onValue f db a v h = .ok db') :
    Same db db' := by
  unfold onValue at e
  split at e
  · exact hf _ _ _ _ _ _ e
  · cases e; exact Same.refl _

theorem same_setUtxo (db o out h s) : Same db (setUtxo db o out h s) := by
  unfold setUtxo
  split
  · exact Same.refl _
  · exact Same.refl _

theorem same_spendOne (h : Nat) (db o db') (e : spendOne h db o = .ok db') : Same db db' := by
  unfold spendOne at e
  split at e
  · cases e
  · rename_i out _ _
    refine (same_setUtxo db o out h true).trans ?_
    dsimp only at e
    split at e
    · cases e; exact Same.refl _
    · split at e
      · exact same_decrease _ _ _ _ _ _ e
      · exact same_onValue same_decrease e
      · exact same_onValue same_decrease e
      · cases e; exact Same.refl _

theorem same_kernelOne (h : Nat) (db o db') (e : kernelOne h db o = .ok db') : Same db db' := by
  unfold kernelOne at e
  split at e
  · cases e
  · cases e; exact same_setUtxo _ _ _ _ _

theorem same_createOne (h t m : Nat) (db x db') (e : createOne h t m db x = .ok db') : Same db db' := by
  unfold createOne at e
  split at e
  · obtain ⟨d, h1, h2⟩ := bind_eq_ok.1 e
    cases h2
    have h3 := same_onValue same_increase h1
    exact ⟨h3.1, h3.2⟩
  · obtain ⟨f, -, h2⟩ := bind_eq_ok.1 e
    split at h2
    · obtain ⟨d, h1, h2⟩ := bind_eq_ok.1 h2
      cases h2
      have h3 := same_onValue same_increase h1
      exact ⟨h3.1, h3.2⟩
    · obtain ⟨d, h1, h2⟩ := bind_eq_ok.1 h2
      obtain ⟨_, -, h2⟩ := bind_eq_ok.1 h2
      cases h2
      have h3 := same_onValue same_increaseLocked h1
      exact ⟨h3.1, h3.2⟩
  · obtain ⟨d, h1, h2⟩ := bind_eq_ok.1 e
    cases h2
    exact (same_increase _ _ _ _ _ _ h1).trans (same_setUtxo _ _ _ _ _)
  · cases e; exact Same.refl _
  · cases e; exact same_setUtxo _ _ _ _ _
  · cases e; exact Same.refl _
  · cases e; exact Same.refl _

theorem same_rewardOne (h : Nat) (db x db') (e : rewardOne h db x = .ok db') : Same db db' := by
  unfold rewardOne at e
  split at e
  · obtain ⟨d, h1, h2⟩ := bind_eq_ok.1 e
    cases h2
    exact (same_onValue same_increase h1).trans (same_setUtxo _ _ _ _ _)
  · obtain ⟨d, h1, h2⟩ := bind_eq_ok.1 e
    cases h2
    exact (same_onValue same_increase h1).trans (same_setUtxo _ _ _ _ _)
  · cases e; exact same_setUtxo _ _ _ _ _
  · cases e; exact same_setUtxo _ _ _ _ _
  all_goals (cases e; exact Same.refl _)

theorem same_unlockOne (h : Nat) (db x db') (e : unlockOne h db x = .ok db') : Same db db' := by
  unfold unlockOne at e
  split at e
  · obtain ⟨d, h1, h2⟩ := bind_eq_ok.1 e
    obtain ⟨d', h3, h4⟩ := bind_eq_ok.1 h2
    cases h4
    exact (same_onValue same_increase h1).trans (same_onValue (db' := d') same_decreaseLocked h3)
  · cases e

theorem same_scanTx (h t m : Nat) (db x db') (e : scanTx h t m db x = .ok db') : Same db db' := by
  unfold scanTx at e
  obtain ⟨d, h1, h2⟩ := bind_eq_ok.1 e
  exact (same_foldlM (same_spendOne h) _ _ _ h1).trans (same_foldlM (same_createOne h t m) _ _ _ h2)

/-! ## Lists of inputs and outputs -/

/-- the tip of a ledger -/
def tipOf (L : Ledger) : Nat × Nat × List Nat := (L.h, L.m, L.times)

theorem tipOf_spends (os : List Op) (L : Ledger) : tipOf (os.foldl spend L) = tipOf L := by
  induction os generalizing L with
  | nil => rfl
  | cons o os ih => rw [List.foldl_cons, ih]; rfl

theorem tipOf_creates (t : Nat) (xs : List (Op × Output)) (L : Ledger) : tipOf (xs.foldl (fun L => L.create t) L) = tipOf L := by
  induction xs generalizing L with
  | nil => rfl
  | cons o os ih => rw [List.foldl_cons, ih]; rfl

theorem tipOf_tx (t : Nat) (x : Tx) (L : Ledger) : tipOf (L.tx t x) = tipOf L := by
  unfold Ledger.tx; rw [tipOf_creates, tipOf_spends]

theorem tipOf_txs (t : Nat) (xs : List Tx) (L : Ledger) : tipOf (xs.foldl (fun L => L.tx t) L) = tipOf L := by
  induction xs generalizing L with
  | nil => rfl
  | cons o os ih => rw [List.foldl_cons, ih, tipOf_tx]

theorem tipOf_h {L L' : Ledger} (h : tipOf L = tipOf L') : L.h = L'.h := congrArg (·.1) h
theorem tipOf_m {L L' : Ledger} (h : tipOf L = tipOf L') : L.m = L'.m := congrArg (·.2.1) h
theorem tipOf_times {L L' : Ledger} (h : tipOf L = tipOf L') : L.times = L'.times := congrArg (·.2.2) h

theorem rel_spends {before : Nat} : ∀ (os : List Op) {db : Db} {L : Ledger}, Rel db L → before ≤ L.m → ValidSpends before L os →
    ∃ db', os.foldlM (spendOne L.h) db = .ok db' ∧ Rel db' (os.foldl spend L) ∧ Keeps L.h db db' := by
  intro os
  induction os with
  | nil => intro db L hr _ _; exact ⟨db, rfl, hr, Keeps.refl _ _⟩
  | cons o os ih =>
    intro db L hr hb hv
    obtain ⟨d, h1, h2, h3⟩ := rel_spend hr hb hv.1
    obtain ⟨d', i1, i2, i3⟩ := ih h2 hb hv.2
    exact ⟨d', by rw [List.foldlM_cons, h1]; exact i1, i2, h3.trans i3⟩

theorem rel_stakes : ∀ (os : List Op) {db : Db} {L : Ledger}, Rel db L → ValidStakes L os →
    ∃ db', os.foldlM (kernelOne L.h) db = .ok db' ∧ Rel db' (os.foldl spend L) ∧ Keeps L.h db db' := by
  intro os
  induction os with
  | nil => intro db L hr _; exact ⟨db, rfl, hr, Keeps.refl _ _⟩
  | cons o os ih =>
    intro db L hr hv
    obtain ⟨d, h1, h2, h3⟩ := rel_stake hr hv.1
    obtain ⟨d', i1, i2, i3⟩ := ih h2 hv.2
    exact ⟨d', by rw [List.foldlM_cons, h1]; exact i1, i2, h3.trans i3⟩

theorem rel_creates {t i : Nat} : ∀ (xs : List (Op × Output)) {db : Db} {L : Ledger}, (∀ x ∈ xs, x.1.src = .tx i) → Rel db L →
    ValidCreates t L xs →
    ∃ db', xs.foldlM (createOne L.h t L.m) db = .ok db' ∧ Rel db' (xs.foldl (fun L => L.create t) L) ∧ Keeps L.h db db' := by
  intro xs
  induction xs with
  | nil => intro db L _ hr _; exact ⟨db, rfl, hr, Keeps.refl _ _⟩
  | cons x xs ih =>
    intro db L hs hr hv
    obtain ⟨d, h1, h2, h3⟩ := rel_create hr (hs x List.mem_cons_self) hv.1
    obtain ⟨d', i1, i2, i3⟩ := ih (fun y hy => hs y (List.mem_cons_of_mem _ hy)) h2 hv.2
    exact ⟨d', by rw [List.foldlM_cons, h1]; exact i1, i2, h3.trans i3⟩

theorem rel_rewards {t i : Nat} : ∀ (xs : List (Op × Output)) {db : Db} {L : Ledger}, (∀ x ∈ xs, x.1.src = .reward i) → Rel db L →
    ValidCreates t L xs →
    ∃ db', xs.foldlM (rewardOne L.h) db = .ok db' ∧ Rel db' (xs.foldl (fun L => L.create t) L) ∧ Keeps L.h db db' := by
  intro xs
  induction xs with
  | nil => intro db L _ hr _; exact ⟨db, rfl, hr, Keeps.refl _ _⟩
  | cons x xs ih =>
    intro db L hs hr hv
    obtain ⟨d, h1, h2, h3⟩ := rel_reward hr (hs x List.mem_cons_self) hv.1
    obtain ⟨d', i1, i2, i3⟩ := ih (fun y hy => hs y (List.mem_cons_of_mem _ hy)) h2 hv.2
    exact ⟨d', by rw [List.foldlM_cons, h1]; exact i1, i2, h3.trans i3⟩

theorem ops_src {s : Src} {outs : List Output} {x} (h : x ∈ ops s outs) : x.1.src = s := by
  obtain ⟨y, -, rfl⟩ := List.mem_map.1 h
  rfl

theorem rel_tx {before t : Nat} {x : Tx} {db : Db} {L : Ledger} (hr : Rel db L) (hb : before ≤ L.m)
    (h1 : ValidSpends before L x.ins) (h2 : ValidCreates t (x.ins.foldl spend L) (ops (.tx x.id) x.outs)) :
    ∃ db', scanTx L.h t L.m db x = .ok db' ∧ Rel db' (L.tx t x) ∧ Keeps L.h db db' := by
  obtain ⟨d, a1, a2, a3⟩ := rel_spends x.ins hr hb h1
  have hh := tipOf_h (tipOf_spends x.ins L)
  have hm := tipOf_m (tipOf_spends x.ins L)
  obtain ⟨d', b1, b2, b3⟩ := rel_creates (i := x.id) _ (fun y hy => ops_src hy) a2 h2
  rw [hh, hm] at b1
  rw [hh] at b3
  refine ⟨d', ?_, b2, a3.trans b3⟩
  unfold scanTx
  rw [a1]; exact b1

theorem rel_txs {before t : Nat} : ∀ (xs : List Tx) {db : Db} {L : Ledger}, Rel db L → before ≤ L.m → ValidTxs before t L xs →
    ∃ db', xs.foldlM (scanTx L.h t L.m) db = .ok db' ∧ Rel db' (xs.foldl (fun L => L.tx t) L) ∧ Keeps L.h db db' := by
  intro xs
  induction xs with
  | nil => intro db L hr _ _; exact ⟨db, rfl, hr, Keeps.refl _ _⟩
  | cons x xs ih =>
    intro db L hr hb hv
    obtain ⟨d, a1, a2, a3⟩ := rel_tx hr hb hv.1 hv.2.1
    have hh := tipOf_h (tipOf_tx t x L)
    have hm := tipOf_m (tipOf_tx t x L)
    obtain ⟨d', b1, b2, b3⟩ := ih a2 (by rw [hm]; exact hb) hv.2.2
    rw [hh, hm] at b1
    rw [hh] at b3
    exact ⟨d', by rw [List.foldlM_cons, a1]; exact b1, b2, a3.trans b3⟩

/-! ## Blocks -/

structure Inv (db : Db) (L : Ledger) : Prop where
  rel : Rel db L
  times : db.main.map (·.2) ++ [db.genesisTime] = L.times
  heights : ∀ r ∈ db.main, r.1 ≤ L.h
  med : L.m = medianTime L.times

theorem median_medianTime {l : List Nat} (h : l ≠ []) : median (l.take 11) = .ok (medianTime l) := by
  obtain ⟨m, hm⟩ := BlockTree.medianOf_ok (l := l.take 11) (by cases l with | nil => exact absurd rfl h | cons _ _ => simp)
  unfold median medianTime
  rw [hm]; rfl

theorem insertMain_top {h t : Nat} {l : List (Nat × Nat)} (hl : ∀ r ∈ l, r.1 < h) : insertMain h t l = (h, t) :: l := by
  cases l with
  | nil => rfl
  | cons r l => exact if_pos (hl r List.mem_cons_self)

theorem medianTime_le {t : Nat} {l : List Nat} (h : l ≠ []) (ht : medianTime l ≤ t) : medianTime l ≤ medianTime (t :: l) := by
  obtain ⟨m, hm⟩ := BlockTree.medianOf_ok (l := l.take 11) (by cases l with | nil => exact absurd rfl h | cons _ _ => simp)
  obtain ⟨m', hm'⟩ := BlockTree.medianOf_ok (l := (t :: l).take 11) (by simp)
  have e1 : medianTime l = m := by unfold medianTime; rw [hm]; rfl
  have e2 : medianTime (t :: l) = m' := by unfold medianTime; rw [hm']; rfl
  rw [e1, e2]
  refine BlockTree.median_step (l := l.take 11) (y := t) (by simp) hm (e1 ▸ ht) ?_
  rw [List.take_take]
  exact hm'

theorem inv_block {db : Db} {L : Ledger} {b : Block} (hi : Inv db L) (hv : ValidBlock L b) :
    ∃ db', scanBlock (L.h + 1) db b = .ok db' ∧ Inv db' (L.block b) ∧ Keeps (L.h + 1) db db' := by
  obtain ⟨v1, v2, v3, v4, v5⟩ := hv
  have hne : L.times ≠ [] := by rw [← hi.times]; simp
  have hm : L.m ≤ medianTime (b.time :: L.times) := by
    have := hi.med
    rw [this]; exact medianTime_le hne (this ▸ v1)
  have hlt : db.latestTimes = L.times.take 11 := by unfold Db.latestTimes; rw [hi.times]
  obtain ⟨d1, a1, a2, a3⟩ := rel_tip hi.rel (t := b.time) rfl hm v2
  obtain ⟨d2, b1, b2, b3⟩ := rel_txs b.txs a2 (before := L.m) (by exact hm) v3
  have same : Same db d2 := (same_foldlM (same_unlockOne _) _ _ _ a1).trans (same_foldlM (same_scanTx _ _ _) _ _ _ b1)
  let d3 : Db := { d2 with main := insertMain (L.h + 1) b.time d2.main }
  have c2 : Rel d3 (b.txs.foldl (fun L => L.tx b.time) (L.tip b.time)) := { b2 with }
  have hh := tipOf_h (tipOf_txs b.time b.txs (L.tip b.time))
  obtain ⟨d4, e1, e2, e3⟩ := rel_rewards (t := b.time) (i := b.id) _ (fun y hy => ops_src hy) c2 v4
  have hh2 := (tipOf_h (tipOf_creates b.time (ops (.reward b.id) b.reward)
    (b.txs.foldl (fun L => L.tx b.time) (L.tip b.time)))).trans hh
  obtain ⟨d5, f1, f2, f3⟩ := rel_stakes b.kernel e2 v5
  rw [hh] at e1 e3
  rw [hh2] at f1 f3
  have ht : tipOf (L.block b) = tipOf (L.tip b.time) := by
    unfold Ledger.block
    rw [tipOf_spends, tipOf_creates, tipOf_txs]
  have same2 : Same d3 d5 := (same_foldlM (same_rewardOne _) _ _ _ e1).trans (same_foldlM (same_kernelOne _) _ _ _ f1)
  have hmain : d5.main = (L.h + 1, b.time) :: db.main := by
    rw [same2.1]
    change insertMain (L.h + 1) b.time d2.main = _
    rw [same.1]
    exact insertMain_top fun r hr => Nat.lt_succ_of_le (hi.heights r hr)
  refine ⟨d5, ?_, ⟨f2, ?_, ?_, ?_⟩, ?_⟩
  · unfold scanBlock
    dsimp only
    rw [hlt, List.take_take, Nat.min_self, median_medianTime hne]
    have e5 : (b.time :: List.take 11 L.times).take 11 = (b.time :: L.times).take 11 := by
      simp [List.take_succ_cons, List.take_take]
    rw [e5, median_medianTime (l := b.time :: L.times) (by simp), ← hi.med]
    change (unlock db (L.h + 1) L.m (medianTime (b.time :: L.times)) >>= _) = _
    rw [a1]
    change (b.txs.foldlM (scanTx (L.h + 1) b.time (medianTime (b.time :: L.times))) d1 >>= _) = _
    have b1' : b.txs.foldlM (scanTx (L.h + 1) b.time (medianTime (b.time :: L.times))) d1 = .ok d2 := b1
    rw [b1']
    change ((ops (.reward b.id) b.reward).foldlM (rewardOne (L.h + 1)) d3 >>= _) = _
    have e1' : (ops (.reward b.id) b.reward).foldlM (rewardOne (L.h + 1)) d3 = .ok d4 := e1
    rw [e1']
    exact f1
  · rw [tipOf_times ht, hmain, same2.2]
    change _ ++ [d2.genesisTime] = b.time :: L.times
    rw [same.2, ← hi.times]; rfl
  · rw [tipOf_h ht, hmain]
    intro r hr
    rcases List.mem_cons.1 hr with hr | hr
    · rw [hr]; exact Nat.le_refl _
    · exact Nat.le_succ_of_le (hi.heights r hr)
  · rw [tipOf_m ht, tipOf_times ht]; rfl
  · exact a3.trans (b3.trans ((keeps_main (db := d2)).trans (e3.trans f3)))

theorem block_h (L : Ledger) (b : Block) : (L.block b).h = L.h + 1 := by
  have ht : tipOf (L.block b) = tipOf (L.tip b.time) := by
    unfold Ledger.block
    rw [tipOf_spends, tipOf_creates, tipOf_txs]
  exact tipOf_h ht

theorem inv_blocks : ∀ (bs : List Block) {db : Db} {L : Ledger}, Inv db L → ValidBlocks L bs →
    ∃ db', connect L.h db bs = .ok db' ∧ Inv db' (bs.foldl block L) ∧ Keeps (L.h + 1) db db' := by
  intro bs
  induction bs with
  | nil => intro db L hi _; exact ⟨db, rfl, hi, Keeps.refl _ _⟩
  | cons b bs ih =>
    intro db L hi hv
    obtain ⟨d, a1, a2, a3⟩ := inv_block hi hv.1
    obtain ⟨d', b1, b2, b3⟩ := ih a2 hv.2
    rw [block_h] at b1 b3
    refine ⟨d', ?_, b2, a3.trans fun c hc => b3 c (by omega)⟩
    unfold connect
    rw [a1]; exact b1

theorem inv_genesis {g : Genesis} (h : ValidCreates g.time ⟨[], [], 0, g.time, [g.time]⟩ (ops (.reward g.id) g.utxos)) :
    ∃ db, scanGenesis g = .ok db ∧ Inv db (Ledger.genesis g) := by
  have hr : Rel (Db.new g) ⟨[], [], 0, g.time, [g.time]⟩ := by
    exact ⟨nofun, nofun, nofun, nofun, fun _ _ => rfl, fun _ _ => rfl, by simp [Db.new], by simp [Db.new], List.Pairwise.nil, nofun,
      nofun, nofun, nofun, nofun, nofun, nofun, List.Pairwise.nil, List.nodup_nil, List.nodup_nil⟩
  obtain ⟨db, h1, h2, -⟩ := rel_rewards (t := g.time) (i := g.id) _ (fun y hy => ops_src hy) hr h
  have same := same_foldlM (same_rewardOne _) _ _ _ h1
  have ht : tipOf (Ledger.genesis g) = (0, g.time, [g.time]) := tipOf_creates _ _ _
  refine ⟨db, h1, ⟨h2, ?_, ?_, ?_⟩⟩
  · have : (Ledger.genesis g).times = [g.time] := congrArg (·.2.2) ht
    rw [same.1, same.2, this]; rfl
  · rw [same.1]; intro r hr; cases hr
  · have h3 : (Ledger.genesis g).times = [g.time] := congrArg (·.2.2) ht
    have h4 : (Ledger.genesis g).m = g.time := congrArg (·.2.1) ht
    rw [h3, h4]; simp [medianTime, BlockTree.medianOf]
    try rfl

/-- the ledger of a chain and the tables after a scan of it -/
theorem inv_chain {g : Genesis} {bs : List Block} (h : ValidChain g bs) :
    ∃ db, (scanGenesis g >>= fun d => connect 0 d bs) = .ok db ∧ Inv db (Ledger.chain g bs) := by
  obtain ⟨d, a1, a2⟩ := inv_genesis h.1
  have h0 : (Ledger.genesis g).h = 0 := congrArg (·.1) (tipOf_creates g.time (ops (.reward g.id) g.utxos) ⟨[], [], 0, g.time, [g.time]⟩)
  obtain ⟨d', b1, b2, -⟩ := inv_blocks bs a2 h.2
  rw [h0] at b1
  exact ⟨d', by rw [a1]; exact b1, b2⟩

end Verif.Scanner
