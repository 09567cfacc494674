import Verif.Scanner.Blocks

/-! A change of the chain. -/

namespace Verif.Scanner

open Verif Ledger

/-- the scanner on new tables: the genesis, then the blocks -/
def scratch (g : Genesis) (bs : List Block) : Except Abort Db := scanGenesis g >>= fun d => connect 0 d bs

theorem connect_cons (c : Nat) (db : Db) (b : Block) (bs : List Block) :
    connect c db (b :: bs) = scanBlock (c + 1) db b >>= fun d => connect (c + 1) d bs := rfl

theorem connect_append : ∀ (as bs : List Block) (c : Nat) (db : Db),
    connect c db (as ++ bs) = connect c db as >>= fun d => connect (c + as.length) d bs := by
  intro as
  induction as with
  | nil => intro bs c db; rfl
  | cons a as ih =>
    intro bs c db
    rw [List.cons_append, connect_cons, connect_cons, bind_assoc]
    congr 1
    funext d
    rw [ih, List.length_cons, Nat.add_assoc, Nat.add_comm 1]

theorem scratch_append (g : Genesis) (as bs : List Block) : scratch g (as ++ bs) = scratch g as >>= fun d => connect as.length d bs := by
  unfold scratch
  rw [bind_assoc]
  congr 1
  funext d
  rw [connect_append, Nat.zero_add]

theorem validBlocks_append : ∀ (as bs : List Block) (L : Ledger), ValidBlocks L (as ++ bs) ↔
    ValidBlocks L as ∧ ValidBlocks (as.foldl block L) bs := by
  intro as
  induction as with
  | nil => intro bs L; simp [ValidBlocks]
  | cons a as ih =>
    intro bs L
    simp only [List.cons_append, ValidBlocks, ih, List.foldl_cons, and_assoc]

theorem chain_h (g : Genesis) (bs : List Block) : (Ledger.chain g bs).h = bs.length := by
  have h0 : (Ledger.genesis g).h = 0 := congrArg (·.1) (tipOf_creates g.time (ops (.reward g.id) g.utxos) ⟨[], [], 0, g.time, [g.time]⟩)
  have : ∀ (bs : List Block) (L : Ledger), (bs.foldl block L).h = L.h + bs.length := by
    intro bs
    induction bs with
    | nil => intro L; rfl
    | cons b bs ih => intro L; rw [List.foldl_cons, ih, block_h, List.length_cons]; omega
  unfold Ledger.chain
  rw [this, h0, Nat.zero_add]

theorem keep_self {db : Db} {L : Ledger} (hi : Inv db L) : Keep L.h db db := by
  refine ⟨cut_of_upTo hi.rel.balUp, cut_of_upTo hi.rel.lbalUp, cut_of_upTo hi.rel.utxoUp, cut_of_upTo hi.rel.lutxoUp, ?_, ?_, ?_, rfl⟩
  · refine List.filter_eq_self.2 fun r hr => hasKey_iff.2 ?_
    obtain ⟨e, e1, e2, e3, e4, -⟩ := (hi.rel.links r.1 r.2).1 hr
    rw [← e2]; exact hi.rel.uB e e1 e3 e4
  · refine List.filter_eq_self.2 fun r hr => hasKey_iff.2 ?_
    obtain ⟨e, e1, e2, e3, -⟩ := (hi.rel.llinks r.1 r.2).1 hr
    rw [← e2]; exact hi.rel.kB e e1 e3
  · refine List.filter_eq_self.2 fun r hr => ?_
    simpa using hi.heights r hr

theorem disconnect_keep {c : Nat} {db0 db : Db} {L : Ledger} (hi : Inv db L) (hk : Keep c db0 db) : db.disconnect c = db0 := by
  obtain ⟨bal, lbal, utxo, links, lutxo, llinks, main, time⟩ := db0
  obtain ⟨k1, k2, k3, k4, k5, k6, k7, k8⟩ := hk
  unfold Db.disconnect
  dsimp only at *
  rw [Db.mk.injEq]
  refine ⟨k1, k2, k3, ?_, k4, ?_, k7, k8⟩
  · rw [← k5]
    refine List.filter_congr fun r hr => ?_
    obtain ⟨e, e1, e2, e3, e4, -⟩ := (hi.rel.links r.1 r.2).1 hr
    have : db.utxo.hasKey r.2 = true := hasKey_iff.2 (by rw [← e2]; exact hi.rel.uB e e1 e3 e4)
    rw [k3, this]
    cases utxo.hasKey r.2 <;> rfl
  · rw [← k6]
    refine List.filter_congr fun r hr => ?_
    obtain ⟨e, e1, e2, e3, -⟩ := (hi.rel.llinks r.1 r.2).1 hr
    have : db.lutxo.hasKey r.2 = true := hasKey_iff.2 (by rw [← e2]; exact hi.rel.kB e e1 e3)
    rw [k4, this]
    cases lutxo.hasKey r.2 <;> rfl

/-- winding back is the same as never having scanned the blocks -/
theorem disconnect_scratch {g : Genesis} {bs : List Block} (hv : ValidChain g bs) {c : Nat} (hc : c ≤ bs.length) {db : Db}
    (hs : scratch g bs = .ok db) : scratch g (bs.take c) = .ok (db.disconnect c) := by
  have e : bs = bs.take c ++ bs.drop c := (List.take_append_drop c bs).symm
  have hlen : (bs.take c).length = c := by rw [List.length_take]; omega
  have hv' : ValidBlocks (Ledger.genesis g) (bs.take c ++ bs.drop c) := by rw [← e]; exact hv.2
  rw [validBlocks_append] at hv'
  obtain ⟨d, a1, a2⟩ := inv_chain (g := g) (bs := bs.take c) ⟨hv.1, hv'.1⟩
  have hh := chain_h g (bs.take c)
  rw [hlen] at hh
  obtain ⟨d', b1, b2, b3⟩ := inv_blocks (bs.drop c) a2 hv'.2
  have hs' : scratch g bs = .ok d' := by
    rw [e, scratch_append, hlen]
    unfold scratch
    rw [hh] at b1
    rw [a1]; exact b1
  rw [hs] at hs'
  cases hs'
  unfold scratch
  rw [a1, disconnect_keep b2 (b3 c (by omega) d (hh ▸ keep_self a2))]

/-! ## A history of calls -/

/-- the calls of `scan_blocks`, each with the height of the last common block and the new blocks -/
def run (g : Genesis) (calls : List (Nat × List Block)) : Except Abort Db :=
  scanGenesis g >>= fun d => calls.foldlM (fun db x => scanBlocks db x.1 x.2) d

/-- the chain that the node is at after a call -/
def follow (bs : List Block) (x : Nat × List Block) : List Block := bs.take x.1 ++ x.2

/-- the common block is on the chain, and every chain is one that the node accepts -/
def ValidCalls (g : Genesis) : List Block → List (Nat × List Block) → Prop
  | _, [] => True
  | bs, x :: xs => x.1 ≤ bs.length ∧ ValidChain g (follow bs x) ∧ ValidCalls g (follow bs x) xs

theorem run_from {g : Genesis} : ∀ (calls : List (Nat × List Block)) {bs : List Block} {db : Db}, ValidChain g bs →
    scratch g bs = .ok db → ValidCalls g bs calls →
    calls.foldlM (fun db x => scanBlocks db x.1 x.2) db = scratch g (calls.foldl follow bs) ∧ ValidChain g (calls.foldl follow bs) := by
  intro calls
  induction calls with
  | nil => intro bs db hv hs _; exact ⟨hs.symm, hv⟩
  | cons x xs ih =>
    intro bs db hv hs hc
    obtain ⟨c1, c2, c3⟩ := hc
    have h1 := disconnect_scratch hv c1 hs
    have hlen : (bs.take x.1).length = x.1 := by rw [List.length_take]; omega
    have h2 : scanBlocks db x.1 x.2 = scratch g (follow bs x) := by
      unfold follow
      rw [scratch_append, h1, hlen]; rfl
    obtain ⟨d, a1, -⟩ := inv_chain c2
    have h3 : scratch g (follow bs x) = .ok d := a1
    rw [List.foldlM_cons, h2, h3]
    exact ih c2 h3 c3

end Verif.Scanner
