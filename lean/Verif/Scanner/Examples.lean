import Verif.Scanner.Reorg

/-! A test of the hypothesis `ValidChain` that can be computed, for the examples. -/

namespace Verif.Scanner

open Verif Ledger

set_option maxRecDepth 100000

/-- an upper bound of what an output is worth -/
def size : Output → Nat
  | .transfer (.coin n) _ | .lockThenTransfer (.coin n) _ _ => n
  | .transfer (.tokenV1 _ n) _ | .lockThenTransfer (.tokenV1 _ n) _ _ => n
  | .issueNft _ _ => 1
  | _ => 0

theorem worth_le (out a c) : worth out a c ≤ size out := by
  unfold worth size
  split <;> first | (split <;> simp) | simp

def sizes (L : Ledger) : Nat := (L.outs.map fun e => size e.out).sum

theorem sum_le_sum {l : List Entry} {f g : Entry → Nat} (h : ∀ e ∈ l, f e ≤ g e) : (l.map f).sum ≤ (l.map g).sum := by
  induction l with
  | nil => exact Nat.le_refl _
  | cons e l ih =>
    rw [List.map_cons, List.map_cons, List.sum_cons, List.sum_cons]
    have h1 := h e List.mem_cons_self
    have h2 := ih fun x hx => h x (List.mem_cons_of_mem _ hx)
    omega

theorem roomy_of_sizes {L : Ledger} (h : sizes L < maxAmount) : Roomy L := by
  intro a c
  constructor
  · refine Nat.lt_of_le_of_lt ?_ h
    have : L.available a c + L.paid a c = (L.outs.map fun e =>
        (if e.reward = false ∧ e.op ∉ L.spent ∧ Free L.h L.m e then worth e.out a c else 0) + if e.reward = true then worth e.out a c else 0).sum :=
      (sum_split fun _ _ => rfl).symm
    rw [this]
    refine sum_le_sum fun e _ => ?_
    have := worth_le e.out a c
    cases hr : e.reward
    · simp only [true_and, Bool.false_eq_true, if_false]
      split <;> omega
    · simp only [Bool.true_eq_false, false_and, if_false, if_true]
      omega
  · refine Nat.lt_of_le_of_lt (sum_le_sum fun e _ => ?_) h
    have := worth_le e.out a c
    split <;> omega

def isPool : Output → Bool
  | .createPool _ _ | .produceBlock _ _ => true
  | _ => false

theorem isPool_iff {out} (h : isPool out = true) : (∃ p d, out = .createPool p d) ∨ ∃ d p, out = .produceBlock d p := by
  cases out with
  | createPool p d => exact Or.inl ⟨_, _, rfl⟩
  | produceBlock d p => exact Or.inr ⟨_, _, rfl⟩
  | _ => cases h

instance (s out) : Decidable (kindOk s out) := by unfold kindOk; split <;> infer_instance
instance (h t out) : Decidable (Fits h t out) := by unfold Fits; split <;> infer_instance

def checkSpends (before : Nat) : Ledger → List Op → Bool
  | _, [] => true
  | L, o :: os => L.outs.any (fun e => decide (e.op = o ∧ o ∉ L.spent ∧ e.out ≠ .other ∧ Free L.h before e)) && checkSpends before (L.spend o) os

def checkStakes : Ledger → List Op → Bool
  | _, [] => true
  | L, o :: os => L.outs.any (fun e => decide (e.op = o ∧ o ∉ L.spent ∧ isPool e.out = true)) && checkStakes (L.spend o) os

def checkCreates (t : Nat) : Ledger → List (Op × Output) → Bool
  | _, [] => true
  | L, x :: xs => L.outs.all (fun e => decide (e.op ≠ x.1)) && decide (kindOk x.1.src x.2) && decide (Fits L.h t x.2) &&
      decide (sizes (L.create t x) < maxAmount) && checkCreates t (L.create t x) xs

def checkTxs (before t : Nat) : Ledger → List Tx → Bool
  | _, [] => true
  | L, x :: xs => checkSpends before L x.ins && checkCreates t (x.ins.foldl Ledger.spend L) (ops (.tx x.id) x.outs) &&
      checkTxs before t (L.tx t x) xs

def checkBlock (L : Ledger) (b : Block) : Bool :=
  decide (L.m ≤ b.time) && decide (sizes (L.tip b.time) < maxAmount) && checkTxs L.m b.time (L.tip b.time) b.txs &&
  checkCreates b.time (b.txs.foldl (fun L => L.tx b.time) (L.tip b.time)) (ops (.reward b.id) b.reward) &&
  checkStakes ((ops (.reward b.id) b.reward).foldl (fun L => L.create b.time) (b.txs.foldl (fun L => L.tx b.time) (L.tip b.time))) b.kernel

def checkBlocks : Ledger → List Block → Bool
  | _, [] => true
  | L, b :: bs => checkBlock L b && checkBlocks (L.block b) bs

def checkChain (g : Genesis) (bs : List Block) : Bool :=
  checkCreates g.time ⟨[], [], 0, g.time, [g.time]⟩ (ops (.reward g.id) g.utxos) && checkBlocks (Ledger.genesis g) bs

theorem checkSpends_sound {before : Nat} : ∀ {os : List Op} {L : Ledger}, checkSpends before L os = true → ValidSpends before L os := by
  intro os
  induction os with
  | nil => intro L _; trivial
  | cons o os ih =>
    intro L h
    simp only [checkSpends, Bool.and_eq_true, List.any_eq_true, decide_eq_true_eq] at h
    exact ⟨h.1, ih h.2⟩

theorem checkStakes_sound : ∀ {os : List Op} {L : Ledger}, checkStakes L os = true → ValidStakes L os := by
  intro os
  induction os with
  | nil => intro L _; trivial
  | cons o os ih =>
    intro L h
    simp only [checkStakes, Bool.and_eq_true, List.any_eq_true, decide_eq_true_eq] at h
    obtain ⟨⟨e, e1, e2, e3, e4⟩, h2⟩ := h
    exact ⟨⟨e, e1, e2, e3, isPool_iff e4⟩, ih h2⟩

theorem checkCreates_sound {t : Nat} : ∀ {xs : List (Op × Output)} {L : Ledger}, checkCreates t L xs = true → ValidCreates t L xs := by
  intro xs
  induction xs with
  | nil => intro L _; trivial
  | cons x xs ih =>
    intro L h
    simp only [checkCreates, Bool.and_eq_true, List.all_eq_true, decide_eq_true_eq] at h
    obtain ⟨⟨⟨⟨h1, h2⟩, h3⟩, h4⟩, h5⟩ := h
    exact ⟨⟨h1, h2, fun _ => h3, roomy_of_sizes h4⟩, ih h5⟩

theorem checkTxs_sound {before t : Nat} : ∀ {xs : List Tx} {L : Ledger}, checkTxs before t L xs = true → ValidTxs before t L xs := by
  intro xs
  induction xs with
  | nil => intro L _; trivial
  | cons x xs ih =>
    intro L h
    simp only [checkTxs, Bool.and_eq_true] at h
    exact ⟨checkSpends_sound h.1.1, checkCreates_sound h.1.2, ih h.2⟩

theorem checkBlocks_sound : ∀ {bs : List Block} {L : Ledger}, checkBlocks L bs = true → ValidBlocks L bs := by
  intro bs
  induction bs with
  | nil => intro L _; trivial
  | cons b bs ih =>
    intro L h
    simp only [checkBlocks, checkBlock, Bool.and_eq_true, decide_eq_true_eq] at h
    obtain ⟨⟨⟨⟨⟨h1, h2⟩, h3⟩, h4⟩, h5⟩, h6⟩ := h
    exact ⟨⟨h1, roomy_of_sizes h2, checkTxs_sound h3, checkCreates_sound h4, checkStakes_sound h5⟩, ih h6⟩

theorem checkChain_sound {g : Genesis} {bs : List Block} (h : checkChain g bs = true) : ValidChain g bs := by
  simp only [checkChain, Bool.and_eq_true] at h
  exact ⟨checkCreates_sound h.1, checkBlocks_sound h.2⟩

/-! ## A chain -/

/-- address 1 gets 1000 coins and address 9 a pool -/
def gen : Genesis := ⟨0, 100, [.transfer (.coin 1000) 1, .createPool 7 9]⟩

/-- address 1 pays 300 to address 2, 200 to address 3 locked for two blocks, 400 back to itself; the pool makes the block -/
def blk1 : Block := ⟨1, 200, [⟨10, [⟨.reward 0, 0⟩], [.transfer (.coin 300) 2, .lockThenTransfer (.coin 200) 3 (.forBlockCount 2), .transfer (.coin 400) 1]⟩],
  [.produceBlock 9 7], [⟨.reward 0, 1⟩]⟩

/-- address 2 makes a token and a contract -/
def blk2 : Block := ⟨2, 300, [⟨11, [⟨.tx 10, 0⟩], [.issueNft 5 2, .htlc (.coin 50) 2 4, .transfer (.coin 150) 2, .other]⟩],
  [.produceBlock 9 7], [⟨.reward 1, 0⟩]⟩

/-- the 200 are free -/
def blk3 : Block := ⟨3, 400, [⟨12, [⟨.tx 11, 2⟩], [.lockThenTransfer (.coin 149) 4 (.untilTime 1000)]⟩], [], []⟩

/-- address 3 spends the 200 -/
def blk4 : Block := ⟨4, 500, [⟨13, [⟨.tx 10, 1⟩], [.transfer (.tokenV1 6 20) 3, .transfer (.coin 80) 3]⟩], [], []⟩

/-- another block 2, where address 1 pays 390 to address 4 -/
def blk2' : Block := ⟨22, 310, [⟨14, [⟨.tx 10, 2⟩], [.transfer (.coin 390) 4]⟩], [], []⟩

theorem chain_valid : ValidChain gen [blk1, blk2, blk3, blk4] := checkChain_sound (by decide +kernel)

/-- four blocks in two calls, then three of them go and one comes -/
def calls : List (Nat × List Block) := [(0, [blk1, blk2]), (2, [blk3, blk4]), (1, [blk2'])]

theorem calls_valid : ValidCalls gen [] calls := by
  refine ⟨by decide, checkChain_sound (by decide +kernel), by decide, checkChain_sound (by decide +kernel), by decide,
    checkChain_sound (by decide +kernel), trivial⟩

theorem gen_valid : ValidChain gen [] := checkChain_sound (by decide +kernel)

end Verif.Scanner
