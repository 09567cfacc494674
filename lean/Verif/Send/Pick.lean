import Verif.Send.Base

/-!
# Lemmas: the selections
-/

namespace Verif.Send
open Verif Verif.Accumulator

/-- the currency of an unspent output -/
def utxoCur (u : Utxo) : Option Cur := (spendable u.2).toOption.map (·.1)

/-- the unspent outputs of a currency -/
def ofCur (us : List Utxo) (c : Cur) : List Utxo := us.filter fun u => decide (utxoCur u = some c)

theorem valueOf_append (k : Cur) (a b : List Utxo) : valueOf k (a ++ b) = valueOf k a + valueOf k b := by simp [valueOf]

theorem valueOf_cons (k : Cur) (u : Utxo) (b : List Utxo) : valueOf k (u :: b) = valueOf k [u] + valueOf k b := by simp [valueOf]

theorem valueOf_nil (k : Cur) : valueOf k [] = 0 := rfl

/-- a group of the pool for currency `c` -/
structure PoolOk (ctx : Ctx) (c : Cur) (g : Select.Group Utxo) : Prop where
  one : ∃ u, g.outputs = [u] ∧ utxoCur u = some c ∧ (∀ k, valueOf k [u] = if k = c then g.value else 0) ∧ g.weight = ctx.inWeight u
  fee : ctx.rate * g.weight ≤ 1000 * g.fee
  worth : c = coin → g.fee ≤ g.value

theorem GroupOk.cur {ctx : Ctx} {u : Utxo} {x : Cur × Select.Group Utxo} (h : GroupOk ctx u x) : utxoCur u = some x.1 := by
  obtain ⟨n, hn⟩ := h.spend
  simp [utxoCur, hn, Except.toOption]

theorem groupsOf_ok {ctx : Ctx} {us : List Utxo} {l : List (Cur × Select.Group Utxo)} (h : List.Forall₂ (GroupOk ctx) us l) (c : Cur) :
    (∀ g ∈ groupsOf l c, PoolOk ctx c g) ∧ ((groupsOf l c).flatMap (·.outputs)).Sublist (ofCur us c) := by
  induction h with
  | nil => exact ⟨fun g hg => by simp [groupsOf] at hg, by simp [groupsOf, ofCur]⟩
  | @cons u x us l h1 h2 ih =>
    obtain ⟨i1, i2⟩ := ih
    have hcur := h1.cur
    unfold groupsOf ofCur at *
    by_cases hx : (decide (x.1 = c) && (decide (c ≠ coin) || decide (x.2.fee < x.2.value))) = true
    · rw [List.filter_cons, if_pos hx, List.map_cons]
      have hc : x.1 = c := by
        simp only [Bool.and_eq_true, decide_eq_true_eq] at hx
        exact hx.1
      rw [List.filter_cons, if_pos (by simp [hcur, hc]), List.flatMap_cons, h1.outputs]
      refine ⟨fun g hg => ?_, by simpa using i2⟩
      rcases List.mem_cons.1 hg with rfl | hg
      · refine ⟨⟨u, h1.outputs, hc ▸ hcur, fun k => ?_, h1.weight⟩, h1.fee, fun h0 => ?_⟩
        · rw [h1.value k, hc]
        · subst h0
          simp only [ne_eq, not_true_eq_false, decide_false, Bool.false_or, Bool.and_eq_true, decide_eq_true_eq] at hx
          omega
      · exact i1 g hg
    · rw [List.filter_cons, if_neg hx]
      refine ⟨i1, i2.trans ?_⟩
      rw [List.filter_cons]
      split
      · exact List.sublist_cons_self _ _
      · exact List.Sublist.refl _

theorem subperm_flatMap {A B : Type} (f : A → List B) {a b : List A} (h : a.Subperm b) : (a.flatMap f).Subperm (b.flatMap f) := by
  obtain ⟨x, h1, h2⟩ := h
  exact ⟨x.flatMap f, h1.flatMap_right f, h2.flatMap f⟩

/-- outputs picked from those of a currency -/
structure Picked (ctx : Ctx) (us : List Utxo) (c : Cur) (r : Select.Result Utxo) : Prop where
  sub : r.outputs.Subperm (ofCur us c)
  other : ∀ k, k ≠ c → valueOf k r.outputs = 0
  weight : r.weight = (r.outputs.map ctx.inWeight).sum
  fees : ctx.rate * r.weight ≤ 1000 * r.fees

theorem sel_sums {ctx : Ctx} {c : Cur} : ∀ {sel : List (Select.Group Utxo)}, (∀ g ∈ sel, PoolOk ctx c g) →
    valueOf c (sel.flatMap (·.outputs)) = Select.total (·.value) sel ∧ (∀ k, k ≠ c → valueOf k (sel.flatMap (·.outputs)) = 0) ∧
    Select.total (·.weight) sel = ((sel.flatMap (·.outputs)).map ctx.inWeight).sum ∧ ctx.rate * Select.total (·.weight) sel ≤ 1000 * Select.total (·.fee) sel ∧
    (sel.flatMap (·.outputs)).length = sel.length
  | [], _ => by simp [valueOf, Select.total]
  | g :: sel, h => by
    obtain ⟨a1, a2, a3, a4, a5⟩ := sel_sums fun x hx => h x (List.mem_cons_of_mem _ hx)
    have hg := h g List.mem_cons_self
    obtain ⟨u, b1, b2, b3, b4⟩ := hg.one
    have e : ∀ f : Select.Group Utxo → Nat, Select.total f (g :: sel) = f g + Select.total f sel := fun f => by simp [Select.total]
    rw [List.flatMap_cons, b1, e, e, e]
    refine ⟨?_, fun k hk => ?_, ?_, ?_, ?_⟩
    · rw [valueOf_append, b3 c, if_pos rfl, a1]
    · rw [valueOf_append, b3 k, if_neg hk, a2 k hk]
    · simp [a3, b4]
    · have := hg.fee
      rw [Nat.mul_add]
      omega
    · simp [a5]

theorem worth_total {pay : Bool} : ∀ {sel : List (Select.Group Utxo)}, (∀ g ∈ sel, pay = true → g.fee ≤ g.value) →
    Select.total (·.value) sel = Select.total (Select.worth pay) sel + if pay then Select.total (·.fee) sel else 0
  | [], _ => by simp [Select.total]
  | g :: sel, h => by
    have a := worth_total fun x hx => h x (List.mem_cons_of_mem _ hx)
    have hg := h g List.mem_cons_self
    have e : ∀ f : Select.Group Utxo → Nat, Select.total f (g :: sel) = f g + Select.total f sel := fun f => by simp [Select.total]
    rw [e, e, e, a]
    unfold Select.worth
    cases pay with
    | true => simp only [if_true]; have := hg rfl; omega
    | false => simp only [Bool.false_eq_true, if_false]; omega

theorem payable_of {ctx : Ctx} {us : List Utxo} {l : List (Cur × Select.Group Utxo)} (h : List.Forall₂ (GroupOk ctx) us l) (c : Cur) :
    Select.Payable (decide (c = coin)) (groupsOf l c) := fun g hg hp => ((groupsOf_ok h c).1 g hg).worth (of_decide_eq_true hp)

/-- what `select` returns -/
theorem select_ok {ctx : Ctx} {us : List Utxo} {l : List (Cur × Select.Group Utxo)} {c : Cur} {target cost : Nat} {r : Select.Result Utxo} (hf : ctx.Fair)
    (hl : List.Forall₂ (GroupOk ctx) us l) (h : select ctx c (groupsOf l c) target cost = .ok r) :
    Picked ctx us c r ∧ r.outputs.length ≤ ((groupsOf l c).map fun g => g.outputs.length).sum ∧
    (target = 0 → r.outputs = [] ∧ r.change = 0 ∧ r.fees = 0) ∧
    (target ≠ 0 → let due := if c = coin then r.fees else 0
      target + due ≤ valueOf c r.outputs ∧
      (0 < r.change → valueOf c r.outputs = target + r.change + due + (if c = coin then cost else 0) ∧ cost ≤ r.change) ∧
      (r.change = 0 → valueOf c r.outputs = target + due ∨ valueOf c r.outputs < target + due + (if c = coin then 2 * cost else cost))) := by
  unfold select at h
  rw [mapError_eq_ok] at h
  by_cases ht : target = 0
  · subst ht
    obtain ⟨e1, e2, e3, e4⟩ := Select.C65_nothing h
    refine ⟨⟨by rw [e1]; exact List.nil_subperm, fun k _ => by rw [e1]; rfl, by rw [e1, e4]; rfl, by rw [e4]; simp⟩, by rw [e1]; simp, fun _ => ⟨e1, e2, e3⟩, fun h => absurd rfl h⟩
  · obtain ⟨sel, hp, -⟩ := Select.C65_selection (hf c) (payable_of hl c) ht h
    obtain ⟨g1, g2⟩ := groupsOf_ok hl c
    have hsel : ∀ g ∈ sel, PoolOk ctx c g := fun g hg => g1 g (hp.some_of.subset hg)
    obtain ⟨a1, a2, a3, a4, a5⟩ := sel_sums hsel
    have hw := worth_total (pay := decide (c = coin)) (sel := sel) fun g hg hpay => (hsel g hg).worth (of_decide_eq_true hpay)
    refine ⟨⟨?_, ?_, ?_, ?_⟩, ?_, fun h => absurd h ht, fun _ => ?_⟩
    · rw [hp.outputs]; exact (subperm_flatMap _ hp.some_of).trans g2.subperm
    · intro k hk; rw [hp.outputs]; exact a2 k hk
    · rw [hp.weight, hp.outputs, a3]
    · rw [hp.weight, hp.fees]; exact a4
    · rw [hp.outputs]
      have := (subperm_flatMap (·.outputs) hp.some_of).length_le
      rw [List.length_flatMap (l := groupsOf l c)] at this
      exact this
    · have hc := hp.covers
      have hch := hp.change
      have hex := hp.exact
      rw [hp.outputs, a1, hw, hp.fees]
      by_cases h0 : c = coin
      · simp only [h0, decide_true, if_true] at hc hch hex ⊢
        refine ⟨by omega, fun h => ?_, fun h => ?_⟩
        · have := hch h; omega
        · have := hex h; omega
      · simp only [h0, decide_false, Bool.false_eq_true, if_false] at hc hch hex ⊢
        refine ⟨by omega, fun h => ?_, fun h => ?_⟩
        · have := hch h; omega
        · have := hex h; omega

/-- for tokens nothing is lost -/
theorem select_token {ctx : Ctx} {us : List Utxo} {l : List (Cur × Select.Group Utxo)} {c : Cur} {target : Nat} {r : Select.Result Utxo} (hf : ctx.Fair)
    (hl : List.Forall₂ (GroupOk ctx) us l) (hc : c ≠ coin) (h : select ctx c (groupsOf l c) target 0 = .ok r) :
    valueOf c r.outputs = target + r.change := by
  obtain ⟨-, -, h1, h2⟩ := select_ok hf hl h
  by_cases ht : target = 0
  · obtain ⟨e1, e2, -⟩ := h1 ht
    rw [e1, e2, ht]; rfl
  · have := h2 ht
    simp only [if_neg hc] at this
    by_cases hr : r.change = 0 <;> omega

/-- picks of different currencies together -/
theorem picks_sub {us : List Utxo} : ∀ {l : List (Cur × List Utxo)}, (l.map (·.1)).Nodup → (∀ x ∈ l, x.2.Subperm (ofCur us x.1)) →
    (l.flatMap (·.2)).Subperm (us.filter fun u => l.any fun y => decide (utxoCur u = some y.1))
  | [], _, _ => List.nil_subperm
  | x :: l, hn, h => by
    rw [List.map_cons, List.nodup_cons] at hn
    have ih := picks_sub hn.2 fun y hy => h y (List.mem_cons_of_mem _ hy)
    have h1 := h x List.mem_cons_self
    rw [List.flatMap_cons]
    refine (h1.append ih).trans ?_
    have key : ∀ vs : List Utxo, (ofCur vs x.1 ++ vs.filter fun u => l.any fun y => decide (utxoCur u = some y.1)).Subperm
        (vs.filter fun u => (x :: l).any fun y => decide (utxoCur u = some y.1)) := by
      intro vs
      induction vs with
      | nil => exact List.Subperm.refl _
      | cons v vs ihv =>
        unfold ofCur at *
        by_cases hv : utxoCur v = some x.1
        · have h3 : ¬ (l.any fun y => decide (utxoCur v = some y.1)) = true := by
            simp only [List.any_eq_true, decide_eq_true_eq]
            rintro ⟨y, hy, he⟩
            rw [hv] at he
            exact hn.1 (List.mem_map.2 ⟨y, hy, (Option.some.inj he).symm⟩)
          rw [List.filter_cons, if_pos (by simpa using hv), List.filter_cons, if_neg h3, List.filter_cons,
            if_pos (by rw [List.any_cons, hv]; simp), List.cons_append]
          exact (List.subperm_cons v).2 ihv
        · by_cases h3 : (l.any fun y => decide (utxoCur v = some y.1)) = true
          · rw [List.filter_cons, if_neg (by simpa using hv), List.filter_cons, if_pos h3, List.filter_cons, if_pos (by rw [List.any_cons, h3]; simp)]
            exact List.perm_middle.subperm.trans ((List.subperm_cons v).2 ihv)
          · rw [List.filter_cons, if_neg (by simpa using hv), List.filter_cons, if_neg h3, List.filter_cons, if_neg]
            · exact ihv
            · rw [List.any_cons, Bool.or_eq_true, not_or]
              exact ⟨by simpa using hv, h3⟩
    exact key us

end Verif.Send
