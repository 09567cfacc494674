import Verif.WalletSync.Groups

/-!
# The wallet follows the chain of its node (C71)
-/

set_option maxRecDepth 100000

namespace Verif.WalletSync

/-- **C71_follow.** The accounts of the wallet stand at the same block, anywhere: on the node's chain, on a branch the
node has left, at a block the node does not know. Then the synchronisation ends, and afterwards every account has
scanned exactly the chain of the node, block by block. The one other outcome is that the wallet discovers a new
account and may not add it (the account before it has no transaction, or the numbers are used up). -/
theorem C71_follow {E : Env} (ok : TreeOk E) {n : Node} (hn : NodeOk E n) {w : Wallet} {l : List Nat}
    (hw0 : w.accounts ≠ []) (hw : ∀ a, Holds w a → a.seen = l) (hl : Branch E l)
    (hlen : l.length ≤ (E.path n.tip).length) {fuel : Nat} (hf : (E.path n.tip).length + 2 ≤ fuel) :
    ((syncOnce E (still n) fuel 0 w).2 = .ok .synced ∧
      ∀ a, Holds (syncOnce E (still n) fuel 0 w).1 a → a.seen = E.path n.tip) ∨
    (syncOnce E (still n) fuel 0 w).2 = .error .emptyLast ∨ (syncOnce E (still n) fuel 0 w).2 = .error .tooMany := by
  rcases (syncOnce_single ok hn hf hw0 hw hl hlen 0).1 with ⟨h1, _, h2⟩ | h | h
  · exact Or.inl ⟨h1, h2⟩
  · exact Or.inr (Or.inl h)
  · exact Or.inr (Or.inr h)

/-- **C71_found.** If account numbers are used in order on the chain of the node, nothing is missed: after the
synchronisation every block that concerns an account, whichever its number, is recorded in that account of the wallet
with its height, and nothing else is recorded. -/
theorem C71_found {E : Env} (ok : TreeOk E) {n : Node} (hn : NodeOk E n) {w : Wallet} {l : List Nat}
    (hw0 : w.accounts ≠ []) (hw : ∀ a, Holds w a → a.seen = l) (hl : Branch E l)
    (hlen : l.length ≤ (E.path n.tip).length) {fuel : Nat} (hf : (E.path n.tip).length + 2 ≤ fuel)
    (hc : Complete E w) (ho : Ordered E (E.path n.tip)) (hm : w.accounts.length < E.maxAcc)
    (hb : ∀ k b, E.maxAcc ≤ k + 1 → b ∈ E.path n.tip → E.rel k b = false) :
    (syncOnce E (still n) fuel 0 w).2 = .ok .synced ∧
    (∀ k h b, (E.path n.tip)[h]? = some b → E.rel k b = true →
      ∃ a, (syncOnce E (still n) fuel 0 w).1.accounts[k]? = some a ∧ (b, h + 1) ∈ a.recs) ∧
    (∀ (k : Nat) a b h, (syncOnce E (still n) fuel 0 w).1.accounts[k]? = some a → (b, h) ∈ a.recs →
      1 ≤ h ∧ (E.path n.tip)[h - 1]? = some b ∧ E.rel k b = true) := by
  obtain ⟨h0, h1⟩ := syncOnce_single ok hn hf hw0 hw hl hlen 0
  obtain ⟨r1, r2⟩ := h1 hc ho hm hb
  have hall : AllAt (syncOnce E (still n) fuel 0 w).1 (E.path n.tip) := by
    rcases h0 with ⟨_, _, h⟩ | h | h
    · exact h
    · rw [r1] at h; cases h
    · rw [r1] at h; cases h
  generalize (syncOnce E (still n) fuel 0 w).1 = w' at r2 hall
  refine ⟨r1, ?_, ?_⟩
  · -- accounts from the unused one on have nothing
    have hnone : ∀ d b, b ∈ E.path n.tip → E.rel (w'.accounts.length + d) b = false := by
      intro d
      induction d with
      | zero => intro b hb; exact r2.none b (by rw [hall _ (Or.inr rfl)]; exact hb)
      | succ d ih =>
        intro b hb
        by_contra hcon
        have hr : E.rel (w'.accounts.length + d + 1) b = true := by simpa [Nat.add_assoc] using hcon
        obtain ⟨i, hi⟩ := List.mem_iff_getElem?.1 hb
        obtain ⟨j, b', _, hj, hjr⟩ := ho _ i b hi hr
        rw [ih b' (List.mem_of_getElem? hj)] at hjr; cases hjr
    intro k h b hh hr
    have hk : k < w'.accounts.length := by
      by_contra hcon
      have := hnone (k - w'.accounts.length) b (List.mem_of_getElem? hh)
      rw [show w'.accounts.length + (k - w'.accounts.length) = k by omega, hr] at this
      cases this
    refine ⟨w'.accounts[k], List.getElem?_eq_getElem hk, ?_⟩
    rw [r2.used k _ (List.getElem?_eq_getElem hk), hall _ (Or.inl (List.getElem_mem hk))]
    unfold expected
    exact List.mem_filter.2 ⟨List.mk_mem_zipIdx_iff_le_and_getElem?_sub.2 ⟨by omega, by simpa using hh⟩, hr⟩
  · intro k a b h ha hm
    rw [r2.used k a ha, hall a (Or.inl (List.mem_of_getElem? ha))] at hm
    unfold expected at hm
    obtain ⟨m1, m2⟩ := List.mem_filter.1 hm
    obtain ⟨m3, m4⟩ := List.mk_mem_zipIdx_iff_le_and_getElem?_sub.1 m1
    exact ⟨m3, m4, m2⟩

/-- **C71_apart.** The accounts stand at different blocks, none of them at the node's best block or higher, and no two
of those blocks share the same last block with the node's chain. If the chain holds nothing for the unused account,
the synchronisation ends, every account has scanned exactly the chain of the node, and the records of the accounts
are complete if they were before. -/
theorem C71_apart {E : Env} (ok : TreeOk E) {n : Node} (hn : NodeOk E n) {w : Wallet} (hw0 : w.accounts ≠ [])
    (hm : 0 < E.maxAcc) (hbr : ∀ a, Holds w a → Branch E a.seen)
    (hlow : ∀ a, Holds w a → a.seen.length ≤ (E.path n.tip).length)
    (hoff : ∀ a, Holds w a → a.seen ≠ E.path n.tip)
    (hne : ∀ a a', Holds w a → Holds w a' → a.seen ≠ a'.seen → ∀ h h', Resume E n a.seen h → Resume E n a'.seen h' →
      h ≠ h')
    (hq : ∀ b ∈ E.path n.tip, E.rel w.accounts.length b = false)
    {fuel : Nat} (hf : (E.path n.tip).length + 2 ≤ fuel) :
    (syncOnce E (still n) fuel 0 w).2 = .ok .synced ∧
    (syncOnce E (still n) fuel 0 w).1.accounts.length = w.accounts.length ∧
    (∀ a, Holds (syncOnce E (still n) fuel 0 w).1 a → a.seen = E.path n.tip) ∧
    (Complete E w → Complete E (syncOnce E (still n) fuel 0 w).1) := by
  obtain ⟨w1, k, r1, r2, r3, r4, r5⟩ := round_groups ok hn hm ⟨hbr, hlow, hoff⟩ hq hne 0
  obtain ⟨fuel, rfl⟩ : ∃ f, fuel = f + 1 := ⟨fuel - 1, by omega⟩
  have hw1 : w1.accounts ≠ [] := by
    intro hc
    rw [hc] at r3
    exact hw0 (List.length_eq_zero_iff.1 r3.symm)
  obtain ⟨s1, _, s3⟩ := syncOnce_chain ok hn (E.path n.tip).length fuel 1 w1 k r2 (by omega) (by omega) hw1 r4
  obtain ⟨t1, t2, t3⟩ := s3 (by rw [r3]; exact hq) hm
  have hall : AllAt (syncOnce E (still n) fuel 1 w1).1 (E.path n.tip) := by
    rcases s1 with ⟨_, _, h⟩ | h | h
    · exact h
    · rw [t1] at h; cases h
    · rw [t1] at h; cases h
  simp only [syncOnce, r1]
  refine ⟨t1, by rw [t2, r3], hall, ?_⟩
  intro hc
  have hrec : AllRec E w := by
    intro t a ha
    cases t with
    | account i => exact hc.used i a ha
    | unused => cases ha; exact hc.unused
  have hrec' := t3 (r5 hrec)
  refine ⟨fun i a ha => hrec' (.account i) a ha, hrec' .unused _ rfl, ?_⟩
  intro b hb
  rw [hall _ (Or.inr rfl)] at hb
  rw [t2, r3]
  exact hq b hb

/-- **C71_branch.** Whatever the node answers during the call, changing its best block at any moment: if the accounts
stand at the same block, then afterwards, also after an error, what each account has scanned is a branch of the tree
of blocks, with nothing skipped and no two branches mixed. -/
theorem C71_branch {E : Env} (ok : TreeOk E) (views : Nat → View) {w : Wallet} {l : List Nat} (hw0 : w.accounts ≠ [])
    (hw : ∀ a, Holds w a → a.seen = l) (hl : Branch E l) (fuel : Nat) :
    ∀ a, Holds (syncOnce E views fuel 0 w).1 a → Branch E a.seen :=
  syncOnce_branch ok views fuel 0 w l hw0 hw hl

/-- **C71_abort.** One account stands at the node's best block and another does not (the wallet was stopped after the
last batch had been scanned for one account and before it was scanned for the next): the process ends with a failed
assertion, each time, until the node has a new best block. -/
theorem C71_abort {E : Env} (ok : TreeOk E) (views : Nat → View) {w : Wallet} {a b : Acc} (ha : Holds w a) (hb : Holds w b)
    (hbr : ∀ a, Holds w a → Branch E a.seen)
    (ha1 : a.seen = E.path (views 0).info.tip) (hb1 : b.seen ≠ E.path (views 0).info.tip)
    (hlow : ∀ a, Holds w a → a.seen.length ≤ (E.path (views 0).info.tip).length) (fuel : Nat) :
    syncOnce E views (fuel + 1) 0 w = (w, .error .panic) := by
  have h1 : best E a = (views 0).info.tip := by unfold best; rw [ha1, lastOr_path ok]
  have h2 : best E b ≠ (views 0).info.tip := by
    obtain ⟨c, hc⟩ := hbr b hb
    have : best E b = c := by unfold best; rw [hc, lastOr_path ok]
    rw [this]
    intro heq
    exact hb1 (by rw [hc, heq])
  have := round_panic (v := views 0) ha hb h1 h2 hlow
  simp only [syncOnce, this]

/-- **C71_stuck.** Two accounts stand at different blocks whose branches leave the node's chain at the same block (or
one of them stands at the block where the other's branch leaves it): the synchronisation fails with "no new blocks
found", however often it is repeated. -/
theorem C71_stuck {E : Env} (ok : TreeOk E) {n : Node} (hn : NodeOk E n) (hm : 0 < E.maxAcc) {a a' : Acc} {h : Nat}
    (hne : a.seen ≠ a'.seen) (hr : Resume E n a.seen h) (hr' : Resume E n a'.seen h) (fuel : Nat) :
    ∀ (k : Nat) (w : Wallet), Holds w a → Holds w a' →
      (∀ a, Holds w a → Branch E a.seen) →
      (∀ a, Holds w a → a.seen.length ≤ (E.path n.tip).length) →
      (∀ a, Holds w a → a.seen ≠ E.path n.tip) →
      (∀ b ∈ E.path n.tip, E.rel w.accounts.length b = false) →
      (again E (still n) (fuel + 1) k w).2 = .error .noNewBlocks := by
  intro k
  induction k with
  | zero =>
    intro w ha ha' h1 h2 h3 hq
    obtain ⟨t, ht⟩ := holds_get.1 ha
    obtain ⟨t', ht'⟩ := holds_get.1 ha'
    obtain ⟨w', r1, _⟩ := round_dup ok hn hm ⟨h1, h2, h3⟩ hq ht ht' hne hr hr' 0
    simp only [again, syncOnce, r1]
  | succ k ih =>
    intro w ha ha' h1 h2 h3 hq
    obtain ⟨t, ht⟩ := holds_get.1 ha
    obtain ⟨t', ht'⟩ := holds_get.1 ha'
    obtain ⟨w', r1, r2, r3, r4, r5⟩ := round_dup ok hn hm ⟨h1, h2, h3⟩ hq ht ht' hne hr hr' 0
    simp only [again, syncOnce, r1]
    exact ih w' (holds_get.2 ⟨t, r3⟩) (holds_get.2 ⟨t', r4⟩) r5.branch r5.low r5.off (by rw [r2]; exact hq)

/-- **C71_wait.** If an account, any of them, has scanned more blocks than the node's chain has, the call waits for
the node: no account is touched. -/
theorem C71_wait {E : Env} (ok : TreeOk E) (views : Nat → View) {w : Wallet} {a : Acc} (ha : Holds w a)
    (hbr : Branch E a.seen) (hhigh : (E.path (views 0).info.tip).length < a.seen.length) (fuel : Nat) :
    syncOnce E views (fuel + 1) 0 w = (w, .ok .nodeOutOfSync) := by
  obtain ⟨t, ht⟩ := holds_accs.1 ha
  have h1 : best E a ≠ (views 0).info.tip := by
    obtain ⟨c, hc⟩ := hbr
    have : best E a = c := by unfold best; rw [hc, lastOr_path ok]
    rw [this]
    intro heq
    rw [hc, heq] at hhigh
    exact absurd hhigh (Nat.lt_irrefl _)
  have hn1 : ¬ ((accs w).all (fun p => decide ((views 0).info.tip = best E p.2)) = true) := by
    intro hall
    rw [List.all_eq_true] at hall
    exact h1 (of_decide_eq_true (hall (t, a) ht)).symm
  have hn2 : (accs w).any (fun p => decide ((E.path (views 0).info.tip).length < p.2.seen.length)) = true :=
    List.any_eq_true.2 ⟨(t, a), ht, decide_eq_true hhigh⟩
  have : round E (views 0) w = (w, .ok (some .nodeOutOfSync)) := by
    unfold round
    rw [if_neg hn1, if_pos hn2]
  simp only [syncOnce, this]

/-! ## Examples

The tree: 1 - 2 - 3 - 4 - 5 on genesis 0; 12 and 13 branch off after 1 (12 - 13); 99 alone on genesis. -/

/-- parents -/
def exPrev (b : Nat) : Nat :=
  if b = 2 then 1 else if b = 3 then 2 else if b = 4 then 3 else if b = 5 then 4
  else if b = 12 then 1 else if b = 13 then 12 else 0

/-- branches -/
def exPath (b : Nat) : List Nat :=
  if b = 0 then [] else if b = 2 then [1, 2] else if b = 3 then [1, 2, 3] else if b = 4 then [1, 2, 3, 4]
  else if b = 5 then [1, 2, 3, 4, 5] else if b = 12 then [1, 12] else if b = 13 then [1, 12, 13] else [b]

/-- Account 0 is concerned by blocks 2 and 4, account 1 by blocks 3 and 4, account 2 by block 4. -/
def exRel (k b : Nat) : Bool :=
  (k == 0 && (b == 2 || b == 4)) || (k == 1 && (b == 3 || b == 4)) || (k == 2 && b == 4)

def exEnv (rel : Nat → Nat → Bool) : Env := ⟨0, exPrev, exPath, rel, 8⟩

theorem exOk (rel : Nat → Nat → Bool) : TreeOk (exEnv rel) := by
  refine ⟨rfl, ?_⟩
  intro b hb
  have hb' : b ≠ 0 := hb
  show exPath b = exPath (exPrev b) ++ [b]
  by_cases h2 : b = 2
  · subst h2; decide
  by_cases h3 : b = 3
  · subst h3; decide
  by_cases h4 : b = 4
  · subst h4; decide
  by_cases h5 : b = 5
  · subst h5; decide
  by_cases h12 : b = 12
  · subst h12; decide
  by_cases h13 : b = 13
  · subst h13; decide
  simp [exPath, exPrev, *]

/-- The node at block 5; it does not know block 99. -/
def exNode : Node := ⟨5, fun b => b ≠ 99⟩

theorem exNodeOk (rel : Nat → Nat → Bool) : NodeOk (exEnv rel) exNode := by
  refine ⟨rfl, ?_⟩
  intro b hb
  have : b ∈ [1, 2, 3, 4, 5] := hb
  simp only [List.mem_cons, List.not_mem_nil, or_false] at this
  rcases this with rfl | rfl | rfl | rfl | rfl <;> rfl

/-- A new wallet (one account and the unused one). -/
def exFresh : Wallet := ⟨[⟨[], []⟩], ⟨[], []⟩⟩

def quiet : Nat → Nat → Bool := fun _ _ => false

-- a wallet on a stale branch is brought to the chain of the node
example : (syncOnce (exEnv quiet) (still exNode) 9 0 ⟨[⟨[1, 12, 13], []⟩], ⟨[1, 12, 13], []⟩⟩) =
    (⟨[⟨[1, 2, 3, 4, 5], []⟩], ⟨[1, 2, 3, 4, 5], []⟩⟩, .ok .synced) := by rfl

-- a new wallet finds accounts 0, 1 and 2 and all their blocks
example : (syncOnce (exEnv exRel) (still exNode) 9 0 exFresh) =
    (⟨[⟨[1, 2, 3, 4, 5], [(2, 2), (4, 4)]⟩, ⟨[1, 2, 3, 4, 5], [(3, 3), (4, 4)]⟩, ⟨[1, 2, 3, 4, 5], [(4, 4)]⟩],
      ⟨[1, 2, 3, 4, 5], []⟩⟩, .ok .synced) := by rfl

/-- the hypotheses of `C71_found` hold for the new wallet -/
theorem exOrdered : Ordered (exEnv exRel) (exPath 5) := by
  intro k i b hi hr
  have hk : k = 0 ∨ k = 1 ∨ 2 ≤ k := by omega
  have hr' : exRel (k + 1) b = true := hr
  have hi' : ([1, 2, 3, 4, 5] : List Nat)[i]? = some b := hi
  rcases hk with rfl | rfl | hk
  · refine ⟨1, 2, ?_, rfl, rfl⟩
    by_contra hc
    have h0 : i = 0 := by omega
    subst h0
    cases hi'; revert hr'; decide
  · refine ⟨2, 3, ?_, rfl, rfl⟩
    by_contra hc
    have h0 : i = 0 ∨ i = 1 := by omega
    rcases h0 with rfl | rfl <;> cases hi' <;> revert hr' <;> decide
  · exfalso
    have h1 : k + 1 ≠ 0 := by omega
    have h2 : k + 1 ≠ 1 := by omega
    have h3 : k + 1 ≠ 2 := by omega
    simp [exRel] at hr'
    omega

example : (syncOnce (exEnv exRel) (still exNode) 9 0 exFresh).2 = .ok .synced :=
  (C71_found (exOk _) (exNodeOk _) (w := exFresh) (l := []) (by decide)
    (by rintro a (h | h)
        · have : a = ⟨[], []⟩ := by simpa [exFresh] using h
          rw [this]
        · rw [h]; rfl)
    ⟨0, rfl⟩ (by decide) (by decide)
    ⟨fun i a h => by
        have h' : ([⟨[], []⟩] : List Acc)[i]? = some a := h
        have : a = ⟨[], []⟩ := by simpa using List.mem_of_getElem? h'
        rw [this]; rfl, rfl, fun b hb => by (cases hb)⟩
    exOrdered (by decide)
    (by
      intro k b hk hb
      have hk' : 8 ≤ k + 1 := hk
      show exRel k b = false
      simp [exRel]; omega)).1

-- three accounts: on the chain, on a stale branch, at a block the node does not know
def exApart : Wallet := ⟨[⟨[1, 2, 3], []⟩, ⟨[1, 12, 13], []⟩], ⟨[99], []⟩⟩

example : (syncOnce (exEnv quiet) (still exNode) 9 0 exApart) =
    (⟨[⟨[1, 2, 3, 4, 5], []⟩, ⟨[1, 2, 3, 4, 5], []⟩], ⟨[1, 2, 3, 4, 5], []⟩⟩, .ok .synced) := by rfl

theorem exApart_holds {a : Acc} (h : Holds exApart a) : a.seen = [1, 2, 3] ∨ a.seen = [1, 12, 13] ∨ a.seen = [99] := by
  rcases h with h | h
  · have : a = ⟨[1, 2, 3], []⟩ ∨ a = ⟨[1, 12, 13], []⟩ := by simpa [exApart] using h
    rcases this with rfl | rfl
    · exact Or.inl rfl
    · exact Or.inr (Or.inl rfl)
  · rw [h]; exact Or.inr (Or.inr rfl)

theorem exResume {l : List Nat} {h : Nat} (hr : Resume (exEnv quiet) exNode l h) :
    h = if exNode.known (l.getLast?.getD 0) then (common l [1, 2, 3, 4, 5]).length else 0 := by
  unfold Resume at hr
  split at hr
  · next hk =>
    have hk' : exNode.known (l.getLast?.getD 0) = true := hk
    rw [if_pos hk']; exact (fork_iff _ _ _).1 hr
  · next hk =>
    have hk' : ¬ exNode.known (l.getLast?.getD 0) = true := hk
    rw [if_neg hk']; exact hr

/-- the hypotheses of `C71_apart` hold for it -/
example : (syncOnce (exEnv quiet) (still exNode) 9 0 exApart).2 = .ok .synced :=
  (C71_apart (exOk _) (exNodeOk _) (w := exApart) (by decide) (by decide)
    (fun a ha => by
      rcases exApart_holds ha with h | h | h
      · exact ⟨3, h⟩
      · exact ⟨13, h⟩
      · exact ⟨99, h⟩)
    (fun a ha => by rcases exApart_holds ha with h | h | h <;> rw [h] <;> decide)
    (fun a ha => by rcases exApart_holds ha with h | h | h <;> rw [h] <;> decide)
    (fun a a' ha ha' hne h h' hr hr' => by
      have e := exResume hr
      have e' := exResume hr'
      rcases exApart_holds ha with x | x | x <;> rcases exApart_holds ha' with y | y | y <;>
        rw [x] at hne e <;> rw [y] at hne e' <;> first | exact absurd rfl hne | (rw [e, e']; decide))
    (fun _ _ => rfl) (by decide)).1

-- the node is at block 2, one account at block 3, the other one at block 1
example : syncOnce (exEnv quiet) (still ⟨2, fun _ => true⟩) 9 0 ⟨[⟨[1, 2, 3], []⟩], ⟨[1], []⟩⟩ =
    (⟨[⟨[1, 2, 3], []⟩], ⟨[1], []⟩⟩, .ok .nodeOutOfSync) :=
  C71_wait (a := ⟨[1, 2, 3], []⟩) (exOk quiet) _ (Or.inl (by simp)) ⟨3, rfl⟩ (by decide) 8

-- one account at the best block, the other one behind
example : syncOnce (exEnv quiet) (still exNode) 9 0 ⟨[⟨[1, 2, 3, 4, 5], []⟩], ⟨[1, 2, 3, 4], []⟩⟩ =
    (⟨[⟨[1, 2, 3, 4, 5], []⟩], ⟨[1, 2, 3, 4], []⟩⟩, .error .panic) := by rfl

-- the wallet was stopped between two accounts and the block was replaced: one account at block 12, the other at
-- block 1, where the branch of 12 leaves the chain
example : (again (exEnv quiet) (still exNode) 9 7 ⟨[⟨[1, 12], []⟩], ⟨[1], []⟩⟩).2 = .error .noNewBlocks := by rfl

/-- **Witness (discovery while accounts stand apart).** The unused account is behind the first one; it is promoted
while it catches up, is not scanned further in that round and stands behind when the others reach the best block: the
process ends with a failed assertion in the same call. -/
theorem C71_witness_promoted :
    let w : Wallet := ⟨[⟨[1, 2, 3], [(2, 2)]⟩], ⟨[1], []⟩⟩
    (syncOnce (exEnv (fun k b => (k == 0 && b == 2) || (k == 1 && b == 3))) (still exNode) 9 0 w).2 = .error .panic := by
  rfl

/-- **Witness (accounts used out of order).** A block concerns account 1, none concerns account 0. The first call
fails with `EmptyLastAccount`, the second reports that the wallet is in sync: the wallet has the transactions of
account 1 on record but does not list the account. -/
theorem C71_witness_hidden :
    let E := exEnv (fun k b => k == 1 && b == 3)
    (syncOnce E (still exNode) 9 0 exFresh).2 = .error .emptyLast ∧
    again E (still exNode) 9 1 exFresh =
      (⟨[⟨[1, 2, 3, 4, 5], []⟩], ⟨[1, 2, 3, 4, 5], [(3, 3)]⟩⟩, .ok .synced) := by
  exact ⟨rfl, rfl⟩

/-- **Witness (two reorganisations in one round).** Accounts at different blocks, and a node that leaves its chain for
the request of the first batch and returns to it for the second: the unused account has scanned 1, 12, 13, 4, 5 and
counts as being in sync. (With the accounts at the same block this cannot happen, `C71_branch`.) -/
theorem C71_witness_mixed :
    let views : Nat → View := fun _ =>
      ⟨exNode, fun _ => exNode, fun i => if i = 0 then ⟨13, fun _ => true⟩ else exNode⟩
    syncOnce (exEnv quiet) views 9 0 ⟨[⟨[1, 2, 3], []⟩], ⟨[], []⟩⟩ =
      (⟨[⟨[1, 2, 3, 4, 5], []⟩], ⟨[1, 12, 13, 4, 5], []⟩⟩, .ok .synced) := by
  rfl

end Verif.WalletSync
