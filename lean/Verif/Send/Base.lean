import Verif.Send.Spec
import Verif.Select.Props
import Verif.FeeRate.Lemmas
import Verif.Accumulator.TxLemmas

/-!
# Lemmas: requests, amounts and groups
-/

namespace Verif.Send
open Verif Verif.Accumulator

set_option maxRecDepth 100000

/-! ### fees -/

theorem fee_ok {rate size f : Nat} (h : fee rate size = .ok f) : f = (rate * size + 999) / 1000 := by
  unfold fee at h
  rw [mapError_eq_ok, FeeRate.computeFee_ok] at h
  exact h.2

theorem fee_ge {rate size f : Nat} (h : fee rate size = .ok f) : rate * size ≤ 1000 * f := by
  rw [fee_ok h]; omega

theorem add_ok {a b c : Nat} {e : Err} (h : okOr (Amt.add a b) e = .ok c) : c = a + b := by
  rw [okOr_eq_ok] at h
  unfold Amt.add at h
  split at h
  · exact (Option.some.inj h).symm
  · cases h

theorem add_lt {a b c : Nat} {e : Err} (h : okOr (Amt.add a b) e = .ok c) : a + b < U128 := by
  rw [okOr_eq_ok] at h
  unfold Amt.add at h
  split at h
  · assumption
  · cases h

theorem sub_ok {a b c : Nat} {e : Err} (h : okOr (Amt.sub a b) e = .ok c) : c = a - b := by
  rw [okOr_eq_ok] at h
  unfold Amt.sub at h
  split at h
  · exact (Option.some.inj h).symm
  · cases h

theorem compactLen_ok {n l : Nat} (h : compactLen n = .ok l) : l = lenOf n ∧ n < 2 ^ 32 := by
  unfold compactLen at h
  unfold lenOf
  split at h
  · next h1 => cases h; exact ⟨by rw [if_pos h1], by omega⟩
  · next h1 =>
    split at h
    · next h2 => cases h; exact ⟨by rw [if_neg h1, if_pos h2], by omega⟩
    · next h2 =>
      split at h
      · next h3 => cases h; exact ⟨by rw [if_neg h1, if_neg h2, if_pos h3], by omega⟩
      · next h3 =>
        split at h
        · next h4 => cases h; exact ⟨by rw [if_neg h1, if_neg h2, if_neg h3], h4⟩
        · cases h

theorem lenOf_mono {m n : Nat} (h : m ≤ n) : lenOf m ≤ lenOf n := by
  unfold lenOf
  repeat' split
  all_goals omega

theorem txSize_ok {ctx : Ctx} {o i n : Nat} (h : txSize ctx o i = .ok n) : n = ctx.emptySize + (lenOf o - 1) + (lenOf i - 1) * 2 := by
  simp only [txSize, bind_eq_ok, pure_eq_ok] at h
  obtain ⟨a, h1, b, h2, rfl⟩ := h
  rw [(compactLen_ok h1).1, (compactLen_ok h2).1]

/-! ### inputs of the request -/

def burnOf (m : BMap Cur Pre) (c : Cur) : Nat := ((m.get c).getD {}).burn

def amountOf (m : BMap Cur Pre) (c : Cur) : Nat := ((m.get c).getD {}).amount

theorem updatePre_ok {m m' : BMap Cur Pre} {c bc : Cur} {a b : Nat} (h : updatePre m c a bc b = .ok m') (k : Cur) :
    amountOf m' k = amountOf m k + (if k = c then a else 0) ∧ burnOf m' k = burnOf m k + if k = bc then b else 0 := by
  simp only [updatePre, bind_eq_ok, pure_eq_ok] at h
  obtain ⟨x, h1, y, h2, rfl⟩ := h
  have e1 := add_ok h1
  have e2 := add_ok h2
  subst e1 e2
  unfold amountOf burnOf
  by_cases hb : k = bc
  · subst hb
    rw [BMap.get_insert, if_pos rfl]
    by_cases hc : k = c
    · subst hc
      rw [BMap.get_insert, if_pos rfl]
      simp
    · rw [BMap.get_insert, if_neg hc]
      simp [hc]
  · rw [BMap.get_insert, if_neg hb]
    by_cases hc : k = c
    · subst hc
      rw [BMap.get_insert, if_pos rfl]
      simp [hb]
    · rw [BMap.get_insert, if_neg hc]
      simp [hc, hb]

theorem value_ok {v : Orders.OutputValue} {c n : Nat} (h : spendable.value v = .ok (c, n)) (k : Cur) : val k v = if k = c then n else 0 := by
  cases v <;> simp only [spendable.value, Except.ok.injEq, Prod.mk.injEq, reduceCtorEq] at h
  · obtain ⟨rfl, rfl⟩ := h; rfl
  · obtain ⟨rfl, rfl⟩ := h; rfl

theorem spendable_ok {o : TxOutput} {c n : Nat} (h : spendable o = .ok (c, n)) (k : Cur) (i : Nat) (pv : Pos.View) :
    valueOf k [(i, o)] = (if k = c then n else 0) ∧ brought pv k (.utxo, some o) = (if k = c then n else 0) ∧ unstaked pv (.utxo, some o) = 0 := by
  cases o <;> simp only [spendable, reduceCtorEq] at h
  case issueNft id =>
    cases h
    refine ⟨by simp [valueOf, token]; congr, by simp [brought, unstaked, token]; congr, rfl⟩
  all_goals
    have hv := value_ok h k
    refine ⟨by simp [valueOf, hv], by simp [brought, unstaked, hv], rfl⟩

theorem filled_ok {a g n f : Nat} (h : Orders.calculateFilledAmount a g n = some f) : f = g * n / a := by
  unfold Orders.calculateFilledAmount at h
  split at h
  · cases h
  · split at h
    · exact (Option.some.inj h).symm
    · cases h

theorem inputPre_ok {ctx : Ctx} {m m' : BMap Cur Pre} {x : PreIn} (h : inputPre ctx m x = .ok m') (pv : Pos.View) (k : Cur) :
    amountOf m' k = amountOf m k + (brought pv k (x.input, x.utxo) + orderGives ctx k x.input) ∧
    burnOf m' k = burnOf m k + (commandFee ctx.cfg k x.input + orderTakes ctx k x.input) := by
  obtain ⟨i, u, w⟩ := x
  unfold inputPre at h
  dsimp only at h ⊢
  cases i with
  | utxo =>
    dsimp only at h
    simp only [bind_eq_ok, okOr_eq_ok] at h
    obtain ⟨o, rfl, ⟨c, n⟩, h1, h2⟩ := h
    obtain ⟨e1, e2⟩ := updatePre_ok h2 k
    obtain ⟨-, e3, -⟩ := spendable_ok h1 k 0 pv
    rw [e1, e2, e3]
    simp [orderGives, orderTakes, commandFee]
  | delegation d n =>
    obtain ⟨e1, e2⟩ := updatePre_ok h k
    rw [e1, e2]
    by_cases hk : k = 0 <;> simp [orderGives, orderTakes, commandFee, brought, unstaked, coin, hk]
  | mint id n =>
    obtain ⟨e1, e2⟩ := updatePre_ok h k
    rw [e1, e2]
    by_cases hk : k = 0 <;> by_cases hi : k = id + 1 <;> simp [orderGives, orderTakes, commandFee, brought, unstaked, coin, token, hk, hi]
  | concludeOrder id =>
    dsimp only at h
    simp only [concludePre, bind_eq_ok, okOr_eq_ok] at h
    obtain ⟨o, h1, m1, h2, f, h3, h4⟩ := h
    obtain ⟨e1, e2⟩ := updatePre_ok h2 k
    obtain ⟨e3, e4⟩ := updatePre_ok h4 k
    have e5 := sub_ok (e := .outputOverflow) (okOr_eq_ok.2 h3)
    subst e5
    rw [e3, e4, e1, e2]
    simp only [orderGives, h1, orderTakes, commandFee, brought, unstaked, ite_self]
    by_cases q1 : k = o.giveCur <;> by_cases q2 : k = o.askCur <;> simp [q1, q2] <;> omega
  | fillOrder id n =>
    dsimp only at h
    simp only [fillPre, bind_eq_ok, okOr_eq_ok] at h
    obtain ⟨o, h1, f, h2, h3⟩ := h
    obtain ⟨e1, e2⟩ := updatePre_ok h3 k
    have e5 : f = fillValue ctx o n := by
      unfold fillValue
      split at h2
      · next hv => rw [hv]; exact filled_ok h2
      · next hv => rw [hv]; exact filled_ok h2
    rw [e1, e2, e5]
    simp only [orderGives, h1, orderTakes, commandFee, brought, unstaked, ite_self]
    constructor <;> omega
  | freezeOrder id =>
    cases h
    simp [orderGives, orderTakes, commandFee, brought, unstaked]
  | _ =>
    obtain ⟨e1, e2⟩ := updatePre_ok h k
    rw [e1, e2]
    by_cases hk : k = 0 <;> simp [orderGives, orderTakes, commandFee, brought, unstaked, coin, hk]

/-- what is known after the inputs of the request -/
structure PresOk (ctx : Ctx) (pre : List PreIn) (p : Pres) : Prop where
  amount : ∀ pv k, amountOf p.amounts k = given ctx pv pre k
  burn : ∀ k, burnOf p.amounts k = taken ctx pre k
  sizes : p.sizes = (pre.map (·.weight)).sum
  fees : ctx.rate * p.sizes ≤ 1000 * p.fees

theorem presStep_ok {ctx : Ctx} {l : List PreIn} {p p' : Pres} {x : PreIn} (hp : PresOk ctx l p) (h : presStep ctx p x = .ok p') : PresOk ctx (l ++ [x]) p' := by
  simp only [presStep, bind_eq_ok, pure_eq_ok] at h
  obtain ⟨f, h1, fs, h2, m, h3, rfl⟩ := h
  have e1 := fee_ge h1
  have e2 := add_ok h2
  refine ⟨fun pv k => ?_, fun k => ?_, ?_, ?_⟩
  · have := (inputPre_ok h3 pv k).1
    dsimp only
    rw [this, hp.amount pv]
    simp [given]
  · have := (inputPre_ok h3 ⟨fun _ => .ok 0, fun _ => .ok none, fun _ => .ok none, fun _ => .ok 0, fun _ => .ok none, fun _ => .ok 0⟩ k).2
    dsimp only
    rw [this, hp.burn]
    simp [taken]
  · simp [hp.sizes]
  · dsimp only
    rw [e2, Nat.mul_add, Nat.mul_add]
    have := hp.fees
    omega

theorem presFold_ok {ctx : Ctx} : ∀ {l seen : List PreIn} {p p' : Pres}, PresOk ctx seen p → l.foldlM (presStep ctx) p = .ok p' → PresOk ctx (seen ++ l) p'
  | [], seen, p, p', hp, h => by
    rw [List.foldlM_nil, pure_eq_ok] at h
    subst h
    simpa using hp
  | x :: l, seen, p, p', hp, h => by
    rw [List.foldlM_cons, bind_eq_ok] at h
    obtain ⟨q, h1, h2⟩ := h
    have := presFold_ok (presStep_ok hp h1) h2
    simpa using this

theorem groupPres_ok {ctx : Ctx} {l : List PreIn} {p : Pres} (h : groupPres ctx l = .ok p) : PresOk ctx l p :=
  presFold_ok (seen := []) ⟨fun _ _ => rfl, fun _ => rfl, rfl, by simp⟩ h

/-! ### outputs of the request -/

def amtOf (m : BMap Cur Nat) (c : Cur) : Nat := (m.get c).getD 0

theorem addAmount_ok {m m' : BMap Cur Nat} {c n : Nat} (h : addAmount m c n = .ok m') (k : Cur) :
    amtOf m' k = amtOf m k + (if k = c then n else 0) ∧ (m'.get k ≠ none ↔ m.get k ≠ none ∨ k = c) := by
  simp only [addAmount, bind_eq_ok, pure_eq_ok] at h
  obtain ⟨a, h1, rfl⟩ := h
  have e := add_ok h1
  subst e
  unfold amtOf
  rw [BMap.get_insert]
  by_cases hc : k = c
  · subst hc; simp
  · simp [hc]

theorem outStep_ok {cfg : Config} {m m' : BMap Cur Nat} {o : Out} (h : outStep cfg m o = .ok m') (hm : m.get coin ≠ none) (k : Cur) :
    amtOf m' k = amtOf m k + placed cfg k o.1 ∧ (m'.get k ≠ none ↔ m.get k ≠ none ∨ outCur o.1 = some k) := by
  obtain ⟨o, d⟩ := o
  have kc : ∀ n, addAmount m coin n = .ok m' → amtOf m' k = amtOf m k + (if k = 0 then n else 0) ∧ (m'.get k ≠ none ↔ m.get k ≠ none) := by
    intro n h
    obtain ⟨e1, e2⟩ := addAmount_ok h k
    refine ⟨e1, e2.trans ⟨fun h => h.elim id fun h => h ▸ hm, .inl⟩⟩
  have kv : ∀ v, (match (some v : Option Orders.OutputValue) with
      | some (.coin n) => addAmount m coin n
      | some (.tokenV1 id n) => addAmount m (token id) n
      | some .tokenV0 => pure m
      | none => pure m) = .ok m' → amtOf m' k = amtOf m k + val k v ∧ (m'.get k ≠ none ↔ m.get k ≠ none ∨ curOf v = some k) := by
    intro v h
    cases v with
    | coin n =>
      obtain ⟨e1, e2⟩ := kc n h
      refine ⟨e1, e2.trans ⟨.inl, fun h => h.elim id fun h => ?_⟩⟩
      simp only [curOf, Option.some.injEq] at h
      exact h ▸ hm
    | tokenV0 => cases h; simp [val, curOf]
    | tokenV1 id n =>
      obtain ⟨e1, e2⟩ := addAmount_ok h k
      refine ⟨e1, e2.trans ?_⟩
      simp only [curOf, Option.some.injEq, eq_comm]
  unfold outStep at h
  rw [bind_eq_ok] at h
  obtain ⟨v, h1, h2⟩ := h
  dsimp only at h1 ⊢
  cases o <;> simp only [outValue, Except.ok.injEq, reduceCtorEq] at h1 <;> subst h1
  case createDelegationId => cases h2; simp [placed, outCur]
  case createStakePool => simpa [placed, outCur] using kc _ h2
  case delegateStaking => simpa [placed, outCur] using kc _ h2
  case issueFungibleToken => simpa [placed, outCur] using kc _ h2
  case issueNft => simpa [placed, outCur] using kc _ h2
  case dataDeposit => simpa [placed, outCur] using kc _ h2
  all_goals exact kv _ h2

theorem outFold_ok {cfg : Config} : ∀ {l : List Out} {m m' : BMap Cur Nat}, m.get coin ≠ none → l.foldlM (outStep cfg) m = .ok m' →
    m'.get coin ≠ none ∧ ∀ k, amtOf m' k = amtOf m k + (l.map fun o => placed cfg k o.1).sum ∧ (m'.get k ≠ none ↔ m.get k ≠ none ∨ ∃ o ∈ l, outCur o.1 = some k)
  | [], m, m', hm, h => by
    rw [List.foldlM_nil, pure_eq_ok] at h
    subst h
    exact ⟨hm, fun k => by simp⟩
  | o :: l, m, m', hm, h => by
    rw [List.foldlM_cons, bind_eq_ok] at h
    obtain ⟨q, h1, h2⟩ := h
    have hq : q.get coin ≠ none := ((outStep_ok h1 hm coin).2).2 (.inl hm)
    obtain ⟨i1, i2⟩ := outFold_ok hq h2
    refine ⟨i1, fun k => ?_⟩
    obtain ⟨e1, e2⟩ := outStep_ok h1 hm k
    obtain ⟨e3, e4⟩ := i2 k
    refine ⟨?_, ?_⟩
    · rw [e3, e1]; simp only [List.map_cons, List.sum_cons]; omega
    · rw [e4, e2]; simp only [List.mem_cons, exists_eq_or_imp, or_assoc]

theorem burnFold_ok : ∀ {l : List (Cur × Pre)} {m m' : BMap Cur Nat}, l.Pairwise (fun a b => a.1 < b.1) → l.foldlM burnStep m = .ok m' →
    ∀ k, amtOf m' k = amtOf m k + ((BMap.lookupL l k).getD {}).burn ∧ (m'.get k ≠ none ↔ m.get k ≠ none ∨ 0 < ((BMap.lookupL l k).getD {}).burn)
  | [], m, m', _, h, k => by
    rw [List.foldlM_nil, pure_eq_ok] at h
    subst h
    simp [BMap.lookupL]
  | (c, p) :: l, m, m', hs, h, k => by
    rw [List.foldlM_cons, bind_eq_ok] at h
    obtain ⟨q, h1, h2⟩ := h
    rw [List.pairwise_cons] at hs
    obtain ⟨i1, i2⟩ := burnFold_ok hs.2 h2 k
    have e : amtOf q k = amtOf m k + (if k = c then p.burn else 0) ∧ (q.get k ≠ none ↔ m.get k ≠ none ∨ (k = c ∧ 0 < p.burn)) := by
      unfold burnStep at h1
      dsimp only at h1
      split at h1
      · next hb =>
        obtain ⟨a, b⟩ := addAmount_ok h1 k
        exact ⟨a, b.trans (by simp [hb])⟩
      · next hb =>
        cases h1
        have : p.burn = 0 := by omega
        simp [this]
    rw [i1, i2, e.1, e.2]
    have el : BMap.lookupL ((c, p) :: l) k = if k = c then some p else BMap.lookupL l k := rfl
    rw [el]
    by_cases hc : k = c
    · subst hc
      have : BMap.lookupL l k = none := BMap.lookupL_eq_none_of_lt fun x hx => hs.1 x hx
      simp [this]
    · simp [hc]

/-- the amounts to be paid -/
structure AmountsOk (ctx : Ctx) (pre : List PreIn) (outs : List Out) (m : BMap Cur Nat) : Prop where
  amount : ∀ k, amtOf m k = paidOut ctx outs k + taken ctx pre k
  key : ∀ k, k ≠ coin → (m.get k ≠ none ↔ Requested ctx pre outs k)

theorem amounts_ok {ctx : Ctx} {pre : List PreIn} {outs : List Out} {p : Pres} {m m' : BMap Cur Nat} (hp : PresOk ctx pre p) (h1 : groupOutputs ctx.cfg outs = .ok m)
    (h2 : p.amounts.entries.foldlM burnStep m = .ok m') : AmountsOk ctx pre outs m' := by
  have hi : ((BMap.empty : BMap Cur Nat).insert coin 0).get coin ≠ none := by simp [BMap.get_insert]
  obtain ⟨-, a⟩ := outFold_ok hi h1
  have b := burnFold_ok p.amounts.sorted h2
  have e0 : ∀ k, ((BMap.lookupL p.amounts.entries k).getD {}).burn = taken ctx pre k := fun k => hp.burn k
  refine ⟨fun k => ?_, fun k hk => ?_⟩
  · rw [(b k).1, (a k).1, e0]
    have : amtOf ((BMap.empty : BMap Cur Nat).insert coin 0) k = 0 := by
      unfold amtOf
      rw [BMap.get_insert]
      split <;> rfl
    rw [this]
    unfold paidOut
    omega
  · rw [(b k).2, (a k).2, e0, BMap.get_insert, if_neg hk]
    unfold Requested
    have : (BMap.empty : BMap Cur Nat).get k = none := rfl
    simp [this]

/-! ### groups -/

/-- a group made of an unspent output -/
structure GroupOk (ctx : Ctx) (u : Utxo) (x : Cur × Select.Group Utxo) : Prop where
  outputs : x.2.outputs = [u]
  value : ∀ k, valueOf k [u] = if k = x.1 then x.2.value else 0
  weight : x.2.weight = ctx.inWeight u
  fee : ctx.rate * x.2.weight ≤ 1000 * x.2.fee
  spend : ∃ n, spendable u.2 = .ok (x.1, n)

theorem groupOf_ok {ctx : Ctx} {u : Utxo} {x : Cur × Select.Group Utxo} (h : groupOf ctx u = .ok x) : GroupOk ctx u x := by
  simp only [groupOf, bind_eq_ok, pure_eq_ok] at h
  obtain ⟨⟨c, n⟩, h1, f, h2, l, h3, rfl⟩ := h
  exact ⟨rfl, fun k => (spendable_ok h1 k u.1 ⟨fun _ => .ok 0, fun _ => .ok none, fun _ => .ok none, fun _ => .ok 0, fun _ => .ok none, fun _ => .ok 0⟩).1, rfl, fee_ge h2, n, h1⟩

theorem groupsAll_ok {ctx : Ctx} : ∀ {us : List Utxo} {l : List (Cur × Select.Group Utxo)}, groupsAll ctx us = .ok l → List.Forall₂ (GroupOk ctx) us l
  | [], l, h => by cases h; exact .nil
  | u :: us, l, h => by
    simp only [groupsAll, bind_eq_ok, pure_eq_ok] at h
    obtain ⟨g, h1, gs, h2, rfl⟩ := h
    exact .cons (groupOf_ok h1) (groupsAll_ok h2)

end Verif.Send
