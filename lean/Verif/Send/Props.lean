import Verif.Send.Chain

/-!
# C66: transactions that a wallet builds for a request

A request consists of inputs (outputs to be spent, commands, withdrawals) and outputs. The wallet adds inputs from its unspent outputs, and outputs with change.
-/

set_option maxRecDepth 100000

namespace Verif.Send
open Verif Verif.Accumulator

variable {ctx : Ctx} {pre : List PreIn} {outs : List Out} {us : List Utxo} {b : Built}

/-- The outputs of the request stay as they are and come first. After them there is at most one output of change per currency, of a positive amount, to the change address, and only for coins and for
tokens that the request is about. The inputs added are among the unspent outputs offered, none of them twice. -/
theorem C66_request (hf : ctx.Fair) (h : build ctx pre outs us = .ok b) :
    (∃ chs : List (Cur × Out), b.outs = outs ++ chs.map (·.2) ∧ (chs.map (·.1)).Nodup ∧ ∀ x ∈ chs, ChangeOk ctx x.1 x.2 ∧ (x.1 = coin ∨ Requested ctx pre outs x.1)) ∧
    b.sel.Subperm us :=
  ⟨(build_ok hf h).changes, (build_ok hf h).sub⟩

/-- Tokens: of those the request is about none is lost and none is created; others are neither spent nor sent. -/
theorem C66_tokens (hf : ctx.Fair) (h : build ctx pre outs us = .ok b) (pv : Pos.View) (c : Cur) (hc : c ≠ 0) :
    (Requested ctx pre outs c → valueOf c b.sel + given ctx pv pre c = paidOut ctx b.outs c + taken ctx pre c) ∧
    (¬ Requested ctx pre outs c → valueOf c b.sel = 0 ∧ paidOut ctx b.outs c = 0) := by
  have hb := build_ok hf h
  exact ⟨hb.token pv c hc, fun hn => ⟨(hb.other c hc hn).1, (hb.other c hc hn).2.1⟩⟩

/-- Coins: what remains of them is the fee that is paid. Unless the inputs of the request bring more than it costs, it is at least the fee the user is told, and exactly this fee if there is change. -/
theorem C66_fee (hf : ctx.Fair) (h : build ctx pre outs us = .ok b) (pv : Pos.View) :
    ∃ paid, valueOf 0 b.sel + given ctx pv pre 0 = paidOut ctx b.outs 0 + taken ctx pre 0 + paid ∧
      (given ctx pv pre 0 ≤ paidOut ctx outs 0 + taken ctx pre 0 → b.fee ≤ paid ∧ (paidOut ctx b.outs 0 ≠ paidOut ctx outs 0 → paid = b.fee)) := by
  rcases (build_ok hf h).coins pv with ⟨x, e1, e2, e3⟩ | ⟨v, lt, x, d, cost, e, -⟩
  · exact ⟨x, e1, fun _ => ⟨e2, e3⟩⟩
  · refine ⟨x, ?_, fun hle => absurd lt (Nat.not_lt.2 hle)⟩
    change valueOf coin b.sel + given ctx pv pre coin = _
    rw [v, e, Nat.zero_add]
    rfl

/-- In any case at most the cost of an output of change is missing from the fee that is paid. -/
theorem C66_fee_bound (hf : ctx.Fair) (h : build ctx pre outs us = .ok b) (pv : Pos.View) {d : Nat} (hd : ctx.dest 0 = some d) {paid : Nat}
    (hp : valueOf 0 b.sel + given ctx pv pre 0 = paidOut ctx b.outs 0 + taken ctx pre 0 + paid) :
    1000 * b.fee ≤ 1000 * paid + ctx.rate * ctx.outSize (changeOut 0 (U128 - 1) d) + 999 := by
  rcases (build_ok hf h).coins pv with ⟨x, e1, e2, -⟩ | ⟨v, lt, x, d', cost, e, e2, e3, e4⟩
  · have e1' : valueOf 0 b.sel + given ctx pv pre 0 = paidOut ctx b.outs 0 + taken ctx pre 0 + x := e1
    omega
  · have e' : given ctx pv pre 0 = paidOut ctx b.outs 0 + taken ctx pre 0 + x := e
    have v' : valueOf 0 b.sel = 0 := v
    have : some d' = some d := e2.symm.trans hd
    cases this
    have q := fee_ok e3
    have q' : cost = (ctx.rate * ctx.outSize (changeOut 0 (U128 - 1) d) + 999) / 1000 := q
    omega

/-- The fee the user is told is at least what the fee rate demands for the size of the signed transaction. -/
theorem C66_rate (hf : ctx.Fair) (h : build ctx pre outs us = .ok b) (hs : Sized ctx) : ctx.rate * realSize ctx pre b ≤ 1000 * b.fee := (build_ok hf h).rate hs

/-- The chain accepts the amounts of the transaction, and takes the fee that is paid, if it accepts each of the inputs and amounts stay below 2^128. At most one of the inputs fills or concludes an
order, and what the wallet was told about it is true; coins withdrawn from delegations are locked by the outputs of the request. -/
theorem C66_accepted (hf : ctx.Fair) (h : build ctx pre outs us = .ok b) {ov : Orders.View} {pv : Pos.View} {tv : Tokens.View} {s : Accumulator.St} (hov : Orders.SoundView ov)
    (hone : pre.countP (fun x => isOrder x.input) ≤ 1)
    (hknown : ∀ x ∈ pre, ∀ id, (x.input = .concludeOrder id ∨ ∃ n, x.input = .fillOrder id n) → Known ctx ov id)
    (hloop : inputLoop ctx.cfg ⟨Acc.empty, BMap.empty, Pos.Cache.new pv, Tokens.Cache.new tv, ⟨ov, Orders.Delta.empty⟩⟩ ((inputsOf pre b).zip (spentOf pre b)) = .ok s)
    (hv0 : ∀ o ∈ outs, ∀ d, o.1 = .createOrder d → curOf d.give ≠ none) (hfit : ∀ c, paidOut ctx b.outs c < U128)
    (hlock : ctx.cfg.maturity ≠ 0 → withdrawn pre ≤ (outs.map fun o => lockedOut ctx.cfg.maturity o.1).sum) :
    ∃ i o f, fromInputs ctx.cfg ov pv tv (inputsOf pre b) (spentOf pre b) = .ok i ∧ fromOutputs ctx.cfg (b.outs.map (·.1)) = .ok o ∧ satisfyWith i o = .ok f ∧
      (∀ c, c ≠ 0 → Requested ctx pre outs c → f.total c = 0) ∧
      (given ctx pv pre 0 ≤ paidOut ctx outs 0 + taken ctx pre 0 → b.fee ≤ f.total 0 ∧ (paidOut ctx b.outs 0 ≠ paidOut ctx outs 0 → f.total 0 = b.fee)) := by
  obtain ⟨i, o, f, h1, h2, h3, h4⟩ := accepted hov (build_ok hf h) hone hknown hloop hv0 hfit hlock
  refine ⟨i, o, f, h1, h2, h3, fun c hc hr => ?_, fun hle => ?_⟩
  · have := (C66_tokens hf h pv c hc).1 hr
    have := h4 c
    omega
  · obtain ⟨paid, e1, e2⟩ := C66_fee hf h pv
    have e3 := h4 0
    have e : f.total 0 = paid := by omega
    rw [e]
    exact e2 hle

/-! ### Concrete cases -/

/-- one coin per byte; outputs of 30 bytes, inputs of 100, change to address 99 -/
def sampleCtx : Ctx where
  cfg := exCfg
  rate := 1000
  longRate := 1000
  info := fun id => if id = 7 then some ⟨0, 100, 4, 50, 70, 35⟩ else none
  emptySize := 20
  outSize := fun _ => 30
  inWeight := fun _ => 100
  dest := fun _ => some 99
  rand := fun c => Select.sampleRand (decide (c = coin))
  algo := .randomize
  max := 100000

theorem sampleCtx_fair : sampleCtx.Fair := fun _ => Select.sampleRand_fair _

/-- 20 coins are paid into order 7 (for 10 of token 3) -/
def samplePre : List PreIn := [⟨.fillOrder 7 20, none, 100⟩]
/-- 12 of token 3 and 5000 coins are sent -/
def sampleOuts : List Out := [(.transfer (.tokenV1 3 12), 1), (.transfer (.coin 5000), 2)]
def sampleUtxos : List Utxo := [(1, .transfer (.coin 4000)), (2, .transfer (.coin 3000)), (3, .transfer (.tokenV1 3 5)), (4, .transfer (.coin 2500)), (5, .issueNft 8)]

/-- 10 tokens come from the order and 5 from an output, 3 go to the change address; 7000 coins are spent, 5000 sent, 20 paid into the order, 1410 are change and 570 the fee for 540 bytes -/
theorem sample_built : ∃ b, build sampleCtx samplePre sampleOuts sampleUtxos = .ok b ∧ b.sel = sampleUtxos.take 3 ∧ b.fee = 570 ∧
    b.outs = sampleOuts ++ [(.transfer (.tokenV1 3 3), 99), (.transfer (.coin 1410), 99)] ∧ realSize sampleCtx samplePre b = 540 := by
  obtain ⟨b, h1, h2⟩ := okAnd_spec (x := build sampleCtx samplePre sampleOuts sampleUtxos)
    (P := fun b => decide (b.sel = sampleUtxos.take 3 ∧ b.fee = 570 ∧ b.outs = sampleOuts ++ [(.transfer (.tokenV1 3 3), 99), (.transfer (.coin 1410), 99)] ∧ realSize sampleCtx samplePre b = 540))
    (by decide +kernel)
  exact ⟨b, h1, of_decide_eq_true h2⟩

/-- the hypotheses of the theorems hold for it: `C66_fee` says that the fee is 570, `C66_tokens` that no token is lost -/
example : sampleCtx.Fair ∧ Sized sampleCtx ∧ Requested sampleCtx samplePre sampleOuts 4 ∧ ¬ Requested sampleCtx samplePre sampleOuts 9 ∧
    given sampleCtx exPools.view samplePre 0 ≤ paidOut sampleCtx sampleOuts 0 + taken sampleCtx samplePre 0 ∧ given sampleCtx exPools.view samplePre 4 = 10 ∧ taken sampleCtx samplePre 0 = 20 := by
  refine ⟨sampleCtx_fair, fun _ _ _ _ => Nat.le_refl _, .inl ⟨_, List.mem_cons_self, rfl⟩, ?_, by decide +kernel, by decide +kernel, by decide +kernel⟩
  rintro (⟨o, ho, h⟩ | h)
  · simp only [sampleOuts, List.mem_cons, List.not_mem_nil, or_false] at ho
    rcases ho with rfl | rfl <;> revert h <;> decide
  · revert h; decide +kernel

/-- and the chain accepts it with this fee -/
example : ∃ b i o f, build sampleCtx samplePre sampleOuts sampleUtxos = .ok b ∧
    fromInputs exCfg exOrders.view exPools.view Tokens.emptyDB.view (inputsOf samplePre b) (spentOf samplePre b) = .ok i ∧ fromOutputs exCfg (b.outs.map (·.1)) = .ok o ∧
    satisfyWith i o = .ok f ∧ f.total 0 = 570 := by
  obtain ⟨b, hb, hsel, hfee, houts, -⟩ := sample_built
  have hin : inputsOf samplePre b = [.fillOrder 7 20, .utxo, .utxo, .utxo] := by rw [inputsOf, hsel]; rfl
  have hsp : spentOf samplePre b = [none, some (.transfer (.coin 4000)), some (.transfer (.coin 3000)), some (.transfer (.tokenV1 3 5))] := by rw [spentOf, hsel]; rfl
  have hk : Known sampleCtx exOrders.view 7 := ⟨_, exOrder, rfl, by decide +kernel, by decide +kernel, by decide +kernel, rfl, rfl, rfl, rfl⟩
  have hl : ∃ s, inputLoop exCfg ⟨Acc.empty, BMap.empty, Pos.Cache.new exPools.view, Tokens.Cache.new Tokens.emptyDB.view, ⟨exOrders.view, Orders.Delta.empty⟩⟩
      ((inputsOf samplePre b).zip (spentOf samplePre b)) = .ok s := by
    rw [hin, hsp]
    obtain ⟨s, h, -⟩ := okAnd_spec (x := inputLoop exCfg ⟨Acc.empty, BMap.empty, Pos.Cache.new exPools.view, Tokens.Cache.new Tokens.emptyDB.view, ⟨exOrders.view, Orders.Delta.empty⟩⟩
      ([TxInput.fillOrder 7 20, .utxo, .utxo, .utxo].zip [none, some (.transfer (.coin 4000)), some (.transfer (.coin 3000)), some (.transfer (.tokenV1 3 5))])) (P := fun _ => true) (by decide +kernel)
    exact ⟨s, h⟩
  obtain ⟨s, hl⟩ := hl
  obtain ⟨i, o, f, h1, h2, h3, -, h5⟩ := C66_accepted sampleCtx_fair hb exOrders_sound (by decide)
    (by
      intro x hx id hid
      simp only [samplePre, List.mem_singleton] at hx
      subst hx
      rcases hid with hid | ⟨n, hid⟩
      · cases hid
      · cases hid
        exact hk) hl
    (by
      intro o ho d hd
      simp only [sampleOuts, List.mem_cons, List.not_mem_nil, or_false] at ho
      rcases ho with rfl | rfl <;> cases hd)
    (by
      intro c
      have e : paidOut sampleCtx b.outs c ≤ 10000 := by
        rw [houts]
        simp only [paidOut, sampleOuts, List.cons_append, List.nil_append, List.map_cons, List.map_nil, List.sum_cons, List.sum_nil, placed, val]
        split_ifs <;> omega
      exact Nat.lt_of_le_of_lt e (by decide))
    (fun _ => by decide +kernel)
  refine ⟨b, i, o, f, hb, h1, h2, h3, ?_⟩
  rw [(h5 (by decide +kernel)).2 (by rw [houts]; decide +kernel), hfee]

/-- If the inputs of the request bring more coins than needed (no caller in the wallet does so), the fee that is paid is lower than the one the user is told, and lower than what the rate demands:
180 bytes at one coin per byte, told 180, paid 150. -/
theorem C66_surplus : ∃ (pre : List PreIn) (outs : List Out) (b : Built), build sampleCtx pre outs [] = .ok b ∧ sampleCtx.Fair ∧ b.fee = 180 ∧ realSize sampleCtx pre b = 180 ∧
    valueOf 0 b.sel + given sampleCtx exPools.view pre 0 = paidOut sampleCtx b.outs 0 + taken sampleCtx pre 0 + 150 := by
  obtain ⟨b, h1, h2⟩ := okAnd_spec (x := build sampleCtx [⟨.utxo, some (.transfer (.coin 10000)), 100⟩] [(.transfer (.coin 5000), 2)] [])
    (P := fun b => decide (b.fee = 180 ∧ realSize sampleCtx [⟨.utxo, some (.transfer (.coin 10000)), 100⟩] b = 180 ∧
      valueOf 0 b.sel + given sampleCtx exPools.view [⟨.utxo, some (.transfer (.coin 10000)), 100⟩] 0 =
        paidOut sampleCtx b.outs 0 + taken sampleCtx [⟨.utxo, some (.transfer (.coin 10000)), 100⟩] 0 + 150)) (by decide +kernel)
  obtain ⟨h3, h4, h5⟩ := of_decide_eq_true h2
  exact ⟨_, _, b, h1, sampleCtx_fair, h3, h4, h5⟩

end Verif.Send
