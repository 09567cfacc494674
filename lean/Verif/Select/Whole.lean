import Verif.Select.Srd
import Verif.Select.Knap
import Verif.Select.BnbOpt

/-!
# The three ways of selecting and the choice among them
-/

namespace Verif.Select
open Verif

variable {O : Type} {pay : Bool}

theorem ok_bind {X Y : Type} {x : Except SelErr X} {f : X → Except SelErr Y} (hx : ∃ a, x = .ok a) (hf : ∀ a, x = .ok a → ∃ b, f a = .ok b) : ∃ b, (x >>= f) = .ok b := by
  obtain ⟨a, h⟩ := hx
  obtain ⟨b, h'⟩ := hf a h
  exact ⟨b, by rw [h]; exact h'⟩

theorem ok_some {X : Type} {o : Option X} {e : SelErr} {a : X} (h : o = some a) : ∃ b, okOr o e = .ok b := ⟨a, okOr_eq_ok.2 h⟩

theorem ok_pure {X : Type} {a : X} : ∃ b, (pure a : Except SelErr X) = .ok b := ⟨a, rfl⟩

theorem Small.perm {pool pool' : List (Group O)} {target cost : Nat} (h : Small pay pool target cost) (hp : pool'.Perm pool) : Small pay pool' target cost := by
  unfold Small at h ⊢
  rw [total_perm _ hp, total_perm _ hp, total_perm _ hp]
  exact h

theorem waste_range {pool sel : List (Group O)} {target cost : Nat} (hS : Small pay pool target cost) (hs : sel.Subperm pool) {x : Int} (h0 : 0 ≤ x)
    (h1 : x ≤ target + cost + total (worth pay) pool) : SAmt.InRange (wasteOf sel + x) := by
  have h2 := total_subperm (·.fee) hs
  have h3 := total_subperm (·.longFee) hs
  unfold Small at hS
  unfold SAmt.InRange wasteOf
  generalize I128 = I at *
  omega

theorem addInput_ok {pool sel : List (Group O)} {target cost : Nat} {r : Result O} {g : Group O} (hS : Small pay pool target cost) (hp : Payable pay pool)
    (hs : (sel ++ [g]).Subperm pool) (hr : Rep pay target sel r) : ∃ r', r.addInput pay g = .ok r' := by
  have hg : g ∈ pool := hs.subset (by simp)
  have h1 := total_subperm (worth pay) hs
  have h2 := total_subperm (·.fee) hs
  have h5 := waste_range hS hs (x := 0) (by omega) (by omega)
  have h6 := total_mem (·.fee) hg
  have h7 := total_mem (·.longFee) hg
  simp only [total_append, total_cons, total_nil] at h1 h2
  have e1 : Amt.add r.eff (worth pay g) = some (r.eff + worth pay g) := add_some.2 ⟨rfl, lt_u128 (by rw [hr.eff]; unfold Small at hS; omega)⟩
  have e2 : Amt.add r.fees g.fee = some (r.fees + g.fee) := add_some.2 ⟨rfl, lt_u128 (by rw [hr.fees]; unfold Small at hS; omega)⟩
  have e3 : g.diff = some ((g.fee : Int) - g.longFee) := diff_ok (by unfold Small at hS; omega)
  have e4 : SAmt.add r.waste ((g.fee : Int) - g.longFee) = some (r.waste + ((g.fee : Int) - g.longFee)) := by
    refine sadd_some.2 ⟨rfl, ?_⟩
    have : r.waste + ((g.fee : Int) - g.longFee) = wasteOf (sel ++ [g]) + 0 := by
      rw [hr.waste]
      simp only [wasteOf, total_append, total_cons, total_nil]
      omega
    rw [this]; exact h5
  have e5 : (do let d ← g.diff; SAmt.add r.waste d) = some (r.waste + ((g.fee : Int) - g.longFee)) := by
    rw [e3]; exact e4
  unfold Result.addInput
  rw [effective_ok (hp g hg)]
  refine ok_bind ⟨_, rfl⟩ fun v hv => ?_
  simp only [Except.ok.injEq] at hv
  subst hv
  exact ok_bind (ok_some e1) fun _ _ => ok_bind (ok_some e5) fun _ _ => ok_bind (ok_some e2) fun _ _ => ok_pure

theorem addInputs_ok {pool : List (Group O)} {target cost : Nat} (hS : Small pay pool target cost) (hp : Payable pay pool) : ∀ {gs sel : List (Group O)} {r : Result O},
    (sel ++ gs).Subperm pool → Rep pay target sel r → ∃ r', r.addInputs pay gs = .ok r'
  | [], _, r, _, _ => ⟨r, rfl⟩
  | g :: gs, sel, r, hs, hr => by
    have hs' : (sel ++ [g]).Subperm pool := List.Subperm.trans (List.Sublist.subperm (by simp)) hs
    obtain ⟨r1, h1⟩ := addInput_ok hS hp hs' hr
    obtain ⟨r2, h2⟩ := addInputs_ok hS hp (sel := sel ++ [g]) (by simpa using hs) (addInput_rep hr h1)
    exact ⟨r2, by unfold Result.addInputs; rw [h1]; exact h2⟩

theorem finish_ok {pool sel : List (Group O)} {target cost : Nat} {r : Result O} (hS : Small pay pool target cost) (hs : sel.Subperm pool) (hr : Rep pay target sel r)
    (ht : target ≤ total (worth pay) sel) : ∃ r', r.finish pay cost = .ok r' := by
  have h1 := total_subperm (worth pay) hs
  have e1 : Amt.sub r.eff r.target = some (r.eff - r.target) := sub_some.2 ⟨rfl, by rw [hr.eff, hr.target]; exact ht⟩
  have e2 : Amt.intoSigned cost = some (cost : Int) := signed_some.2 ⟨rfl, by unfold Small at hS; omega⟩
  have e3 : Amt.intoSigned (r.eff - r.target) = some ((r.eff - r.target : Nat) : Int) := signed_some.2 ⟨rfl, by rw [hr.eff]; unfold Small at hS; omega⟩
  have e4 : SAmt.add r.waste (cost : Int) = some (r.waste + cost) := sadd_some.2 ⟨rfl, by rw [hr.waste]; exact waste_range hS hs (by omega) (by omega)⟩
  have e5 : SAmt.add r.waste ((r.eff - r.target : Nat) : Int) = some (r.waste + ((r.eff - r.target : Nat) : Int)) :=
    sadd_some.2 ⟨rfl, by rw [hr.waste]; exact waste_range hS hs (by omega) (by rw [hr.eff]; omega)⟩
  have e6 : (do let c ← Amt.intoSigned cost; SAmt.add r.waste c) = some (r.waste + cost) := by
    rw [e2]; exact e4
  have e7 : (do let c ← Amt.intoSigned (r.eff - r.target); SAmt.add r.waste c) = some (r.waste + ((r.eff - r.target : Nat) : Int)) := by
    rw [e3]; exact e5
  unfold Result.finish
  refine ok_bind ?_ fun x _ => ok_bind ?_ fun _ _ => ok_pure
  · unfold Result.calcChange
    exact ok_bind (ok_some e1) fun _ _ => ok_pure
  · unfold Result.lastWaste
    split
    · exact ok_some e6
    · refine ok_bind (ok_some e1) fun d hd => ?_
      rw [okOr_eq_ok, e1, Option.some.injEq] at hd
      subst hd
      exact ok_some e7

/-! ### branch and bound -/

/-- what a finished selection is -/
def Done (pay : Bool) (pool : List (Group O)) (target cost : Nat) (r : Result O) (sel : List (Group O)) : Prop :=
  Pays pay pool target cost sel r ∧ r.waste = finalWaste pay target cost sel r.change

theorem Done.perm {pool pool' sel : List (Group O)} {target cost : Nat} {r : Result O} (h : Done pay pool target cost r sel) (hp : pool.Perm pool') : Done pay pool' target cost r sel :=
  ⟨{ h.1 with some_of := h.1.some_of.trans hp.subperm }, h.2⟩

theorem finalWaste_near {target cost : Nat} {sel : List (Group O)} {r : Result O} {pool : List (Group O)} (h : Pays pay pool target cost sel r)
    (hle : total (worth pay) sel ≤ target + cost) : finalWaste pay target cost sel r.change = wasteOf sel + ((total (worth pay) sel : Int) - target) := by
  unfold finalWaste
  split
  · next hc =>
    obtain ⟨h1, h2⟩ := h.change (by omega)
    cases pay
    · simp only [Bool.false_eq_true, if_false] at h1
      omega
    · simp only [if_true] at h1
      omega
  · rfl

variable {c : BnbIn O} {st : Bnb}

theorem best_facts (h : Found c st.best st.bestWaste) : groupsAt c.pool st.best.reverse = .ok (st.best.reverse.filterMap (c.pool[·]?)) ∧
    (st.best.reverse.filterMap (c.pool[·]?)).Sublist c.pool ∧
    ∀ f, total f (st.best.reverse.filterMap (c.pool[·]?)) = sumB f c.pool (mem st.best) := by
  have hb : ∀ i ∈ st.best.reverse, i < c.pool.length := fun i hi => h.down.below i (by simpa using hi)
  have hs : st.best.reverse.Pairwise (· < ·) := by
    rw [List.pairwise_reverse]; exact h.down.sorted
  refine ⟨groupsAt_ok hb, ?_, ?_⟩
  · have := chosen_sublist (k := 0) hs (fun _ _ => Nat.zero_le _) hb
    simpa using this
  · intro f
    rw [chosen_total f (hs.imp (fun hab => Nat.ne_of_lt hab)) hb]
    apply sumB_congr
    intro j _
    simp [mem]

theorem bnbResult_np (hin : Input c) (h : BInv c st) : NP (bnbResult c st) := by
  unfold bnbResult
  split
  · split <;> exact NP.error (by decide)
  · next hne =>
    rcases h.best with hb | hb
    · simp [hb] at hne
    · obtain ⟨h1, h2, h3⟩ := best_facts hb
      rw [h1]
      refine NP.bind NP.ok fun gs hgs => ?_
      simp only [Except.ok.injEq] at hgs
      subst hgs
      refine NP.bind (addInputs_np fun g hg => hin.pay g (h2.subset hg)) fun r hr => ?_
      have hrep := addInputs_rep (rep_new c.pay c.target) hr
      rw [List.nil_append] at hrep
      have hge : c.target ≤ total (worth c.pay) (st.best.reverse.filterMap (c.pool[·]?)) := by rw [h3]; exact hb.ge
      refine NP.bind (finish_np (by rw [hrep.eff, hrep.target]; exact hge)) fun r' hr' => ?_
      obtain ⟨hpays, hw, -⟩ := finish_spec hrep h2.subperm hr'
      rw [finalWaste_near hpays (by rw [h3]; exact hb.le)] at hw
      refine NP.bind (NP.ensure_true ?_) fun _ _ => NP.pure
      rw [hw, hb.waste]
      unfold wasteB wasteOf
      rw [h3, h3, h3]

theorem bnbResult_spec (h : BInv c st) {r : Result O} (hr : bnbResult c st = .ok r) :
    ∃ sel, Done c.pay c.pool c.target c.cost r sel ∧ r.weight ≤ c.max ∧ r.waste = st.bestWaste ∧ total (worth c.pay) sel ≤ c.target + c.cost := by
  unfold bnbResult at hr
  split at hr
  · cases hr
  · next hne =>
    rcases h.best with hb | hb
    · simp [hb] at hne
    · obtain ⟨h1, h2, h3⟩ := best_facts hb
      simp only [bind_eq_ok, h1, ensure_eq_ok, pure_eq_ok] at hr
      obtain ⟨gs, hgs, r1, hr1, r2, hr2, -, hw, rfl⟩ := hr
      simp only [Except.ok.injEq] at hgs
      subst hgs
      have hrep := addInputs_rep (rep_new c.pay c.target) hr1
      rw [List.nil_append] at hrep
      obtain ⟨hpays, hw2, -⟩ := finish_spec hrep h2.subperm hr2
      exact ⟨_, ⟨hpays, hw2⟩, by rw [hpays.weight, h3]; exact hb.weight, hw.symm, by rw [h3]; exact hb.le⟩

/-- a selection that was found is returned -/
theorem bnbResult_ok (hin : Input c) (hS : c.Small) (h : BInv c st) (hne : st.best ≠ []) : ∃ r, bnbResult c st = .ok r ∧ r.waste = st.bestWaste := by
  have hnp := bnbResult_np hin h
  rcases h.best with hb | hb
  · exact absurd hb hne
  · obtain ⟨h1, h2, h3⟩ := best_facts hb
    have hge : c.target ≤ total (worth c.pay) (st.best.reverse.filterMap (c.pool[·]?)) := by rw [h3]; exact hb.ge
    obtain ⟨r1, hr1⟩ := addInputs_ok hS hin.pay (sel := []) (gs := st.best.reverse.filterMap (c.pool[·]?)) (by simpa using h2.subperm) (rep_new c.pay c.target)
    have hrep := addInputs_rep (rep_new c.pay c.target) hr1
    rw [List.nil_append] at hrep
    obtain ⟨r2, hr2⟩ := finish_ok hS h2.subperm hrep hge
    have hkey : bnbResult c st = (do ensure (st.bestWaste = r2.waste) SelErr.panic; pure r2) := by
      unfold bnbResult
      rw [if_neg (by simpa using hne), h1]
      change (do
        let r ← Result.addInputs c.pay { target := c.target } (st.best.reverse.filterMap (c.pool[·]?))
        let r ← r.finish c.pay c.cost
        ensure (st.bestWaste = r.waste) SelErr.panic
        pure r) = _
      rw [hr1]
      change (do
        let r ← r1.finish c.pay c.cost
        ensure (st.bestWaste = r.waste) SelErr.panic
        pure r) = _
      rw [hr2]; rfl
    obtain ⟨hpays, hw, -⟩ := finish_spec hrep h2.subperm hr2
    rw [finalWaste_near hpays (by rw [h3]; exact hb.le)] at hw
    have he : st.bestWaste = r2.waste := by
      rw [hw, hb.waste]
      unfold wasteB wasteOf
      rw [h3, h3, h3]
    refine ⟨r2, ?_, he.symm⟩
    rw [hkey]
    simp [ensure, he]

theorem sorted_ne {gs : List (Group O)} (h : gs ≠ []) : ∃ g, (sortDesc pay gs)[0]? = some g := by
  have hl := (sort_perm (pay := pay) gs).length_eq
  have : 0 < (sortDesc pay gs).length := by
    rw [hl]; exact List.length_pos_of_ne_nil h
  exact ⟨_, List.getElem?_eq_getElem this⟩

theorem binv_new {pool : List (Group O)} {target cost max : Nat} {high : Bool} :
    BInv ⟨pay, pool, target, cost, max, high⟩ { avail := total (worth pay) pool } := by
  refine ⟨Nat.zero_le _, ⟨List.Pairwise.nil, by simp⟩, ?_, ?_, ?_, ?_, .inl rfl⟩
  · rw [sumB_none _ (by intro j _; simp [mem])]
  · rw [sumB_none _ (by intro j _; simp [mem])]
  · unfold wasteB; rw [sumB_none _ (by intro j _; simp [mem]), sumB_none _ (by intro j _; simp [mem])]; rfl
  · simp

theorem bopt_new {pool : List (Group O)} {target cost max : Nat} {high : Bool} :
    BOpt ⟨pay, pool, target, cost, max, high⟩ { avail := total (worth pay) pool } := by
  refine ⟨fun S _ => .inr (.inl (fun j hj => ?_)), fun _ => rfl⟩
  exact absurd hj (by simp)

theorem input_of {pool : List (Group O)} {target cost max : Nat} {high : Bool} (hp : Payable pay pool) (hu : total (worth pay) pool < U128) (ht : 0 < target) :
    Input ⟨pay, sortDesc pay pool, target, cost, max, high⟩ :=
  ⟨fun g hg => hp g ((sort_perm (pay := pay) pool).subset hg), by simpa [total_perm _ (sort_perm (pay := pay) pool)] using hu, ht⟩

/-- the search with its input -/
theorem selectBnb_eq {pool : List (Group O)} {target cost max : Nat} {r : Result O} (hp : Payable pay pool) (h : selectBnb pay pool target cost max = .ok r) :
    ∃ high st, bnbLoop ⟨pay, sortDesc pay pool, target, cost, max, high⟩ totalTries { avail := total (worth pay) pool } = .ok st ∧
      bnbResult ⟨pay, sortDesc pay pool, target, cost, max, high⟩ st = .ok r := by
  simp only [selectBnb, effectives_ok hp, bind_eq_ok, okOr_eq_ok] at h
  obtain ⟨vs, hvs, av, hav, h⟩ := h
  simp only [Except.ok.injEq] at hvs
  subst hvs
  have := sum_some hav
  subst this
  split at h
  · cases h
  · simp only [bind_eq_ok, okOr_eq_ok] at h
    obtain ⟨g, -, st, h1, h2⟩ := h
    exact ⟨_, st, h1, h2⟩

theorem selectBnb_spec {pool : List (Group O)} {target cost max : Nat} {r : Result O} (hp : Payable pay pool) (hu : total (worth pay) pool < U128) (ht : 0 < target)
    (h : selectBnb pay pool target cost max = .ok r) : ∃ sel, Done pay pool target cost r sel ∧ r.weight ≤ max := by
  obtain ⟨high, st, h1, h2⟩ := selectBnb_eq hp h
  have hperm := sort_perm (pay := pay) pool
  have hinv : BInv ⟨pay, sortDesc pay pool, target, cost, max, high⟩ { avail := total (worth pay) pool } := by
    rw [← total_perm _ hperm]; exact binv_new
  have hbi := (loop_inv (input_of hp hu ht) totalTries hinv).2 st h1
  obtain ⟨sel, h3, h4, -⟩ := bnbResult_spec hbi h2
  exact ⟨sel, h3.perm hperm, h4⟩

theorem selectBnb_np {pool : List (Group O)} {target cost max : Nat} (hp : Payable pay pool) (hu : total (worth pay) pool < U128) (hne : pool ≠ []) (ht : 0 < target) :
    NP (selectBnb pay pool target cost max) := by
  unfold selectBnb
  rw [effectives_ok hp]
  refine NP.bind NP.ok fun vs hvs => ?_
  simp only [Except.ok.injEq] at hvs
  subst hvs
  refine NP.bind (NP.okOr (by decide)) fun av hav => ?_
  rw [okOr_eq_ok] at hav
  have := sum_some hav
  subst this
  split
  · exact NP.error (by simp)
  · obtain ⟨g, hg⟩ := sorted_ne (pay := pay) hne
    dsimp only
    refine NP.bind (NP.okOr_some hg) fun g' hg' => ?_
    have hperm := sort_perm (pay := pay) pool
    have hinv : BInv ⟨pay, sortDesc pay pool, target, cost, max, decide (g'.fee > g'.longFee)⟩ { avail := (pool.map (worth pay)).sum } := by
      have : (pool.map (worth pay)).sum = total (worth pay) (sortDesc pay pool) := (total_perm (worth pay) hperm).symm
      rw [this]; exact binv_new
    exact NP.bind (loop_inv (input_of hp hu ht) totalTries hinv).1.1 fun st hst => bnbResult_np (input_of hp hu ht) ((loop_inv (input_of hp hu ht) totalTries hinv).2 st hst)

/-- the only errors are a panic or an arithmetic one -/
def PA {X : Type} (x : Except SelErr X) : Prop := ∀ e, x = .error e → e = .panic ∨ e = .arithmetic

theorem PA.pure {X : Type} {a : X} : PA (pure a : Except SelErr X) := fun _ h => by cases h

theorem PA.ok {X : Type} {a : X} : PA (.ok a : Except SelErr X) := fun _ h => by cases h

theorem PA.bind {X Y : Type} {x : Except SelErr X} {f : X → Except SelErr Y} (hx : PA x) (hf : ∀ a, PA (f a)) : PA (x >>= f) := by
  cases x with
  | error e => intro e' h; cases h; exact hx _ rfl
  | ok a => exact hf a

theorem PA.panic {X : Type} {o : Option X} : PA (okOr o .panic) := by
  cases o with
  | none => intro e h; cases h; exact .inl rfl
  | some a => exact PA.ok

theorem PA.arith {X : Type} {o : Option X} : PA (okOr o .arithmetic) := by
  cases o with
  | none => intro e h; cases h; exact .inr rfl
  | some a => exact PA.ok

theorem effective_pa (g : Group O) : PA (g.effective pay) := by
  unfold Group.effective
  split
  · exact PA.panic
  · exact PA.ok

theorem effectives_pa : ∀ l : List (Group O), PA (effectives pay l)
  | [] => PA.ok
  | g :: l => PA.bind (effective_pa g) fun _ => PA.bind (effectives_pa l) fun _ => PA.pure

theorem step_pa : PA (bnbStep c st) := by
  unfold bnbStep
  refine PA.bind ?_ fun x => ?_
  · unfold bnbCheck
    refine PA.bind PA.panic fun _ => ?_
    split
    · exact PA.pure
    · refine PA.bind PA.arith fun _ => ?_
      split
      · exact PA.pure
      · split
        · exact PA.pure
        · split
          · exact PA.bind PA.panic fun _ => PA.bind PA.arith fun _ => PA.pure
          · exact PA.pure
  · obtain ⟨st1, b⟩ := x
    cases b with
    | true =>
      simp only [if_true]
      refine PA.bind ?_ fun o => ?_
      · unfold bnbBack
        split
        · exact PA.ok
        · exact PA.bind (effectives_pa _) fun _ => PA.bind PA.panic fun _ => PA.bind PA.panic fun _ => PA.bind PA.panic fun _ => PA.bind (effective_pa _) fun _ =>
            PA.bind PA.panic fun _ => PA.bind PA.arith fun _ => PA.bind PA.panic fun _ => PA.pure
      · cases o <;> exact PA.pure
    | false =>
      simp only [Bool.false_eq_true, if_false]
      refine PA.bind ?_ fun _ => PA.pure
      unfold bnbForward
      refine PA.bind PA.panic fun g => PA.bind (effective_pa g) fun v => PA.bind PA.panic fun _ => PA.bind ?_ fun inc => ?_
      · unfold bnbInclude
        split
        · exact PA.ok
        · split
          · exact PA.ok
          · exact PA.bind PA.panic fun _ => PA.bind (effective_pa _) fun _ => PA.bind (effective_pa _) fun _ => PA.pure
      · cases inc with
        | true => exact PA.bind PA.panic fun _ => PA.bind PA.arith fun _ => PA.pure
        | false => exact PA.pure

theorem loop_err : ∀ (n : Nat) {st : Bnb} {e : SelErr}, bnbLoop c n st = .error e → e = .panic ∨ e = .arithmetic
  | 0, _, _, h => by cases h
  | n + 1, st, e, h => by
    have : PA (bnbLoop c (n + 1) st) := by
      unfold bnbLoop
      refine PA.bind step_pa fun x => ?_
      obtain ⟨st1, b⟩ := x
      cases b with
      | true => exact fun e h => loop_err n h
      | false => exact PA.pure
    exact this e h

/-- a choice of positions for a selection -/
theorem sublist_choice {l sel : List (Group O)} (h : sel.Sublist l) : ∃ S : Nat → Bool, ∀ f, sumB f l S = total f sel := by
  induction h with
  | slnil => exact ⟨fun _ => false, fun _ => rfl⟩
  | cons a _ ih =>
    obtain ⟨S, hS⟩ := ih
    refine ⟨fun j => match j with | 0 => false | k + 1 => S k, fun f => ?_⟩
    unfold sumB
    simp [hS f]
  | cons_cons a _ ih =>
    obtain ⟨S, hS⟩ := ih
    refine ⟨fun j => match j with | 0 => true | k + 1 => S k, fun f => ?_⟩
    unfold sumB
    simp [hS f]

/-- with few groups the search finds a selection without change that wastes least -/
theorem selectBnb_best {pool sel : List (Group O)} {target cost max : Nat} (hp : Payable pay pool) (hS : Small pay pool target cost) (ht : 0 < target) (hr : Regular pay pool)
    (hn : pool.length ≤ 15) (hs : sel.Subperm pool) (h1 : target ≤ total (worth pay) sel) (h2 : total (worth pay) sel ≤ target + cost) (h3 : total (·.weight) sel ≤ max) :
    ∃ r, selectBnb pay pool target cost max = .ok r ∧ r.waste ≤ wasteOf sel + ((total (worth pay) sel : Int) - target) := by
  have hu : total (worth pay) pool < U128 := lt_u128 (by unfold Small at hS; omega)
  have hperm := sort_perm (pay := pay) pool
  have hne : pool ≠ [] := by
    rintro rfl
    have := total_subperm (worth pay) hs
    rw [total_nil] at this
    omega
  obtain ⟨g, hg⟩ := sorted_ne (pay := pay) hne
  have hS' : BnbIn.Small ⟨pay, sortDesc pay pool, target, cost, max, decide (g.fee > g.longFee)⟩ := hS.perm hperm
  have hin := input_of (cost := cost) (max := max) (high := decide (g.fee > g.longFee)) hp hu ht
  have hinv : BInv ⟨pay, sortDesc pay pool, target, cost, max, decide (g.fee > g.longFee)⟩ { avail := total (worth pay) pool } := by
    rw [← total_perm _ hperm]; exact binv_new
  have hopt : BOpt ⟨pay, sortDesc pay pool, target, cost, max, decide (g.fee > g.longFee)⟩ { avail := total (worth pay) pool } := by
    rw [← total_perm _ hperm]; exact bopt_new
  have hreg : Regular pay (sortDesc pay pool) :=
    ⟨fun g hg => hr.costly g (hperm.subset hg), fun g hg p hp' => hr.same g (hperm.subset hg) p (hperm.subset hp')⟩
  obtain ⟨sel', hp1, hp2⟩ := hs.trans hperm.symm.subperm
  obtain ⟨S, hSum⟩ := sublist_choice hp2
  have hSum' : ∀ f, sumB f (sortDesc pay pool) S = total f sel := fun f => by rw [hSum f, total_perm f hp1]
  have hfe : Feasible ⟨pay, sortDesc pay pool, target, cost, max, decide (g.fee > g.longFee)⟩ S :=
    ⟨by rw [hSum']; exact h1, by rw [hSum']; exact h2, by rw [hSum']; exact h3⟩
  have hsub := total_subperm (worth pay) hs
  have hloop := (loop_inv hin totalTries hinv)
  have hnotdone : ∀ e, bnbLoop ⟨pay, sortDesc pay pool, target, cost, max, decide (g.fee > g.longFee)⟩ totalTries { avail := total (worth pay) pool } = .error e → e = .panic ∨ e = .arithmetic :=
    fun e he => loop_err totalTries he
  cases hl : bnbLoop ⟨pay, sortDesc pay pool, target, cost, max, decide (g.fee > g.longFee)⟩ totalTries { avail := total (worth pay) pool } with
  | error e =>
    exfalso
    rcases hnotdone e hl with rfl | rfl
    · exact hloop.1.1 hl
    · exact hloop.1.2 hS' hl
  | ok st =>
    have hacc := loop_opt hin hS' hreg totalTries hinv hopt (by
      have hlen := hperm.length_eq
      unfold nodes totalTries
      dsimp only
      rw [hlen]
      have : 2 ^ (pool.length + 1 - 0) ≤ 2 ^ 16 := Nat.pow_le_pow_right (by decide) (by omega)
      simp only [List.map_nil, List.sum_nil]
      omega) hl S hfe
    obtain ⟨r, h5, h6⟩ := bnbResult_ok hin hS' (hloop.2 st hl) hacc.1
    refine ⟨r, ?_, ?_⟩
    · unfold selectBnb
      rw [bind_eq_ok]
      refine ⟨_, effectives_ok hp, ?_⟩
      rw [bind_eq_ok]
      refine ⟨total (worth pay) pool, okOr_eq_ok.2 (sum_ok hu), ?_⟩
      rw [if_neg (by omega)]
      dsimp only
      rw [bind_eq_ok]
      refine ⟨g, okOr_eq_ok.2 hg, ?_⟩
      rw [bind_eq_ok]
      exact ⟨st, hl, h5⟩
    · rw [h6]
      refine Int.le_trans hacc.2 ?_
      unfold wasteS wasteB wasteOf
      simp only [hSum']
      omega

/-! ### the solver finds a selection -/

theorem split_ok {target full : Nat} {pool : List (Group O)} (hp : Payable pay pool) (hu : total (worth pay) pool < U128) : ∀ {gs seen : List (Group O)} {st : Split O},
    seen ++ gs = pool → SplitInv pay full seen st → ∃ x, split pay target full st gs = .ok x
  | [], _, st, _, _ => ⟨.inr st, rfl⟩
  | g :: gs, seen, st, he, h => by
    have hg : g ∈ pool := by rw [← he]; simp
    have htot : total (worth pay) seen + worth pay g ≤ total (worth pay) pool := by
      rw [← he]; simp only [total_append, total_cons]; omega
    have hstep : ∃ st', splitStep pay full st g = .ok st' := by
      unfold splitStep
      rw [effective_ok (hp g hg)]
      refine ok_bind ⟨_, rfl⟩ fun v hv => ?_
      simp only [Except.ok.injEq] at hv
      subst hv
      split
      · have h1 := total_sublist (worth pay) h.lower
        have h2 := h.sum
        exact ok_bind (ok_some (add_some.2 ⟨rfl, Nat.lt_of_le_of_lt (by omega) hu⟩)) fun _ _ => ok_pure
      · refine ok_bind ?_ fun _ _ => ok_pure
        unfold lowest
        split
        · exact ⟨_, rfl⟩
        · next l hl =>
          have hlm : l ∈ pool := by rw [← he]; simp [(h.larger l hl).1]
          exact ok_bind ⟨_, effective_ok (hp g hg)⟩ fun _ _ => ok_bind ⟨_, effective_ok (hp l hlm)⟩ fun _ _ => ok_pure
    unfold split
    refine ok_bind ⟨_, effective_ok (hp g hg)⟩ fun v _ => ?_
    split
    · exact ok_pure
    · exact ok_bind hstep fun st' h1 => split_ok hp hu (by simp [he]) (splitStep_inv h h1)

theorem knapsack_ok {pool : List (Group O)} {target cost max : Nat} {coins : Coins} (hp : Payable pay pool) (hS : Small pay pool target cost)
    (hw : total (·.weight) pool ≤ max) (ht : target ≤ total (worth pay) pool) : ∃ r, knapsack pay pool target cost max coins = .ok r := by
  have hu : total (worth pay) pool < U128 := lt_u128 (by unfold Small at hS; omega)
  have hone : ∀ g ∈ pool, ∃ r, Result.addInput pay { target := target } g = .ok r := fun g hg =>
    addInput_ok hS hp (sel := []) (by simpa using (List.singleton_sublist.2 hg).subperm) (rep_new pay target)
  have hmany : ∀ gs : List (Group O), gs.Subperm pool → ∃ r, Result.addInputs pay { target := target } gs = .ok r := fun gs hg =>
    addInputs_ok hS hp (sel := []) (by simpa using hg) (rep_new pay target)
  have hweight : ∀ (gs : List (Group O)) r, gs.Subperm pool → Result.addInputs pay { target := target } gs = .ok r → ¬ r.weight > max := by
    intro gs r hg hr
    have h1 := (addInputs_rep (rep_new pay target) hr).weight
    have h2 := total_subperm (·.weight) hg
    rw [List.nil_append] at h1
    omega
  have himpl : ∃ r, knapsackImpl pay pool target cost max coins = .ok r := by
    unfold knapsackImpl
    have hadd : Amt.add target cost = some (target + cost) := add_some.2 ⟨rfl, lt_u128 (by unfold Small at hS; omega)⟩
    refine ok_bind (ok_some hadd) fun full hf => ?_
    rw [okOr_eq_ok, hadd, Option.some.injEq] at hf
    subst hf
    refine ok_bind (split_ok hp hu (by simp) (splitInv_new _)) fun x hx => ?_
    rcases split_spec (splitInv_new _) hx with ⟨g, rfl, h5, h6⟩ | ⟨st, rfl, hi⟩
    · exact hone g h5
    · rw [List.nil_append] at hi
      dsimp only
      unfold knapsackRest
      dsimp only
      split
      · exact hmany _ hi.lower.subperm
      · next h1 =>
        split
        · next h2 =>
          split
          · next g hgg => exact hone g (hi.larger g hgg).1
          · next hnone =>
            exfalso
            have h3 := hi.sum
            rw [hi.all hnone] at h3
            omega
        · next h2 =>
          have hperm := sort_perm (pay := pay) st.lower
          have htot : total (worth pay) (sortDesc pay st.lower) = st.total := by rw [total_perm _ hperm, hi.sum]
          have hlow : (sortDesc pay st.lower).Subperm pool := hperm.subperm.trans hi.lower.subperm
          obtain ⟨b, hb1, hb2⟩ := twoSubsets_spec (pay := pay) (gs := sortDesc pay st.lower) (target := target) (full := target + cost) (coins := coins) (by rw [htot]; exact hi.small)
            (hp.subperm hlow) (by rw [htot]; omega) (Nat.le_add_right _ _)
          rw [htot] at hb1
          refine ok_bind ⟨_, hb1⟩ fun b' _ => ?_
          have hpick : (pick (sortDesc pay st.lower) b'.1).Subperm pool := (pick_sublist _ _).subperm.trans hlow
          unfold chooseSubset
          dsimp only
          split
          · refine ok_bind (hmany _ hpick) fun r hr => ?_
            rw [if_neg (hweight _ _ hpick hr)]
            exact ok_pure
          · next g hgg =>
            have hgm := (hi.larger g hgg).1
            refine ok_bind ⟨_, effective_ok (hp g hgm)⟩ fun v _ => ?_
            split
            · exact hone g hgm
            · refine ok_bind (hmany _ hpick) fun r hr => ?_
              rw [if_neg (hweight _ _ hpick hr)]
              exact ok_pure
  obtain ⟨r, hr⟩ := himpl
  have hsol : Solves pay target pool r := by
    have h := hr
    simp only [knapsackImpl, bind_eq_ok, okOr_eq_ok] at h
    obtain ⟨full, h1, x, h2, h3⟩ := h
    obtain ⟨h1, -⟩ := add_some.1 h1
    rcases split_spec (splitInv_new full) h2 with ⟨g, rfl, h5, h6⟩ | ⟨st, rfl, h5⟩
    · exact solves_one h5 (by omega) h3
    · exact knapsackRest_spec hp (by simpa using h5) (by omega) h3
  obtain ⟨sel, h1, h2, -⟩ := hsol
  refine ⟨r, ?_⟩
  unfold knapsack
  rw [hr]
  have h3 := total_subperm (·.weight) h1
  have h4 : r.weight ≤ max := by rw [h2.weight]; omega
  rw [bind_eq_ok]
  refine ⟨r, rfl, ?_⟩
  rw [bind_eq_ok]
  exact ⟨(), ensure_eq_ok.2 (by omega), rfl⟩

/-! ### the least waste -/

theorem minWaste_spec : ∀ {l : List (Result O)} {r : Result O}, minWaste l = some r → r ∈ l ∧ ∀ x ∈ l, r.waste ≤ x.waste
  | [], r, h => by cases h
  | a :: l, r, h => by
    unfold minWaste at h
    split at h
    · next hn =>
      simp only [Option.some.injEq] at h
      subst h
      cases l with
      | nil => exact ⟨by simp, by simp⟩
      | cons b l =>
        exfalso
        unfold minWaste at hn
        split at hn
        · cases hn
        · split at hn <;> cases hn
    · next s hs =>
      obtain ⟨h1, h2⟩ := minWaste_spec hs
      split at h
      · next hlt =>
        simp only [Option.some.injEq] at h
        subst h
        refine ⟨List.mem_cons_of_mem _ h1, fun x hx => ?_⟩
        rcases List.mem_cons.1 hx with rfl | hx
        · omega
        · exact h2 x hx
      · next hlt =>
        simp only [Option.some.injEq] at h
        subst h
        refine ⟨by simp, fun x hx => ?_⟩
        rcases List.mem_cons.1 hx with rfl | hx
        · omega
        · have := h2 x hx; omega

theorem minWaste_ne {l : List (Result O)} (h : l ≠ []) : ∃ r, minWaste l = some r := by
  cases l with
  | nil => exact absurd rfl h
  | cons a l =>
    unfold minWaste
    split
    · exact ⟨_, rfl⟩
    · split <;> exact ⟨_, rfl⟩

theorem attempt_spec {acc acc' : List (Result O) × List SelErr} {x : Except SelErr (Result O)} {f : Result O → Except SelErr (Result O)} (h : attempt acc x f = .ok acc') :
    (∃ r r', x = .ok r ∧ f r = .ok r' ∧ acc'.1 = acc.1 ++ [r']) ∨ (∃ e, x = .error e ∧ acc'.1 = acc.1) := by
  unfold attempt at h
  split at h
  · simp only [bind_eq_ok, pure_eq_ok] at h
    obtain ⟨r', h1, rfl⟩ := h
    exact .inl ⟨_, r', rfl, h1, rfl⟩
  · cases h
  · simp only [pure_eq_ok] at h
    subst h
    exact .inr ⟨_, rfl, rfl⟩

theorem attempt_np {acc : List (Result O) × List SelErr} {x : Except SelErr (Result O)} {f : Result O → Except SelErr (Result O)} (hx : NP x) (hf : ∀ r, x = .ok r → NP (f r)) :
    NP (attempt acc x f) := by
  unfold attempt
  split
  · exact NP.bind (hf _ rfl) fun _ _ => NP.pure
  · exact absurd rfl hx
  · exact NP.pure

theorem attempt_ok {acc : List (Result O) × List SelErr} {x : Except SelErr (Result O)} {f : Result O → Except SelErr (Result O)} (hx : NP x) (hf : ∀ r, x = .ok r → ∃ r', f r = .ok r') :
    ∃ acc', attempt acc x f = .ok acc' := by
  unfold attempt
  split
  · exact ok_bind (hf _ rfl) fun _ _ => ok_pure
  · exact absurd rfl hx
  · exact ok_pure

theorem attempt_errs {acc acc' : List (Result O) × List SelErr} {x : Except SelErr (Result O)} {f : Result O → Except SelErr (Result O)} (h : attempt acc x f = .ok acc')
    (he : SelErr.panic ∉ acc.2) : SelErr.panic ∉ acc'.2 := by
  unfold attempt at h
  split at h
  · simp only [bind_eq_ok, pure_eq_ok] at h
    obtain ⟨r', -, rfl⟩ := h
    exact he
  · cases h
  · next e hne =>
    simp only [pure_eq_ok] at h
    subst h
    intro hc
    rcases List.mem_append.1 hc with hc | hc
    · exact he hc
    · simp only [List.mem_singleton] at hc
      exact hne hc.symm

/-- the result is the best of those of the three ways -/
theorem selectRandom_spec {rand : Rand O} {pool : List (Group O)} {target cost max : Nat} {r : Result O} (hfair : rand.Fair pay) (hp : Payable pay pool)
    (hu : total (worth pay) pool < U128) (ht : 0 < target) (h : selectRandom rand pay pool target cost max = .ok r) :
    (∃ sel, Done pay pool target cost r sel ∧ r.weight ≤ max) ∧
    ∀ r', selectBnb pay (rand.second pool) target cost max = .ok r' → r.waste ≤ r'.waste := by
  simp only [selectRandom, bind_eq_ok] at h
  obtain ⟨a1, h1, a2, h2, a3, h3, h⟩ := h
  have hp1 := hfair.first pool
  have hp2 := hfair.second pool
  have g1 : ∀ x ∈ a1.1, ∃ sel, Done pay pool target cost x sel ∧ x.weight ≤ max := by
    rcases attempt_spec h1 with ⟨y, x, hy, hx, he⟩ | ⟨e, -, he⟩
    · intro z hz
      rw [he] at hz
      simp only [List.nil_append, List.mem_singleton] at hz
      subst hz
      obtain ⟨sel, k1, k2, k3⟩ := selectSrd_spec hfair.pop hy
      obtain ⟨k4, k5, -⟩ := finish_spec k2 k1 hx
      exact ⟨sel, Done.perm ⟨k4, k5⟩ hp1, by rw [k4.weight]; exact k3⟩
    · intro z hz
      rw [he] at hz; cases hz
  have hpp : Payable pay (rand.second pool) := fun g hg => hp g (hp2.subset hg)
  have hup : total (worth pay) (rand.second pool) < U128 := by rw [total_perm _ hp2]; exact hu
  have g2 : ∀ x ∈ a2.1, ∃ sel, Done pay pool target cost x sel ∧ x.weight ≤ max := by
    rcases attempt_spec h2 with ⟨y, x, hy, hx, he⟩ | ⟨e, -, he⟩
    · intro z hz
      rw [he] at hz
      rcases List.mem_append.1 hz with hz | hz
      · exact g1 z hz
      · simp only [List.mem_singleton] at hz
        subst hz
        obtain ⟨⟨sel, k1, k2, k3⟩, k6⟩ := knapsack_spec hpp hy
        obtain ⟨k4, k5, -⟩ := finish_spec k2 k1 hx
        exact ⟨sel, Done.perm ⟨k4, k5⟩ hp2, by rw [k4.weight, ← k2.weight]; exact k6⟩
    · rw [he]; exact g1
  have g3 : (∀ x ∈ a3.1, ∃ sel, Done pay pool target cost x sel ∧ x.weight ≤ max) ∧ ∀ r', selectBnb pay (rand.second pool) target cost max = .ok r' → r' ∈ a3.1 := by
    rcases attempt_spec h3 with ⟨y, x, hy, hx, he⟩ | ⟨e, hy, he⟩
    · rw [pure_eq_ok] at hx
      subst hx
      refine ⟨fun z hz => ?_, fun r' hr' => ?_⟩
      · rw [he] at hz
        rcases List.mem_append.1 hz with hz | hz
        · exact g2 z hz
        · simp only [List.mem_singleton] at hz
          subst hz
          obtain ⟨sel, k1, k2⟩ := selectBnb_spec hpp hup ht hy
          exact ⟨sel, k1.perm hp2, k2⟩
      · rw [hy, Except.ok.injEq] at hr'
        subst hr'
        rw [he]; simp
    · rw [he]
      exact ⟨g2, fun r' hr' => by rw [hy] at hr'; cases hr'⟩
  split at h
  · next s hs =>
    rw [pure_eq_ok] at h
    subst h
    obtain ⟨k1, k2⟩ := minWaste_spec hs
    exact ⟨g3.1 _ k1, fun r' hr' => k2 _ (g3.2 r' hr')⟩
  · cases h

/-- without a panic of the random draw there is none -/
theorem selectRandom_np {rand : Rand O} {pool : List (Group O)} {target cost max : Nat} (hfair : rand.Fair pay) (hp : Payable pay pool) (hu : total (worth pay) pool < U128)
    (hne : pool ≠ []) (ht : 0 < target) {w : Option Nat} (hev : Even max w pool) : NP (selectRandom rand pay pool target cost max) := by
  have hp1 := hfair.first pool
  have hp2 := hfair.second pool
  have hpp : Payable pay (rand.second pool) := fun g hg => hp g (hp2.subset hg)
  have hpp1 : Payable pay (rand.first pool) := fun g hg => hp g (hp1.subset hg)
  have hup : total (worth pay) (rand.second pool) < U128 := by rw [total_perm _ hp2]; exact hu
  have hne2 : rand.second pool ≠ [] := fun hc => by rw [hc] at hp2; exact hne hp2.nil_eq.symm
  unfold selectRandom
  refine NP.bind (attempt_np (selectSrd_np hfair.pop hpp1) fun r hr => ?_) fun a1 h1 => NP.bind (attempt_np (knapsack_np hpp) fun r hr => ?_) fun a2 h2 =>
    NP.bind (attempt_np (selectBnb_np hpp hup hne2 ht) fun _ _ => NP.pure) fun a3 h3 => ?_
  · obtain ⟨sel, -, k2, -⟩ := selectSrd_spec hfair.pop hr
    exact finish_np (by rw [k2.target]; exact selectSrd_covers hfair.pop ht (even_perm hev hp1) hr)
  · obtain ⟨⟨sel, k1, k2, k3⟩, -⟩ := knapsack_spec hpp hr
    exact finish_np (by rw [k2.target, k2.eff]; exact k3)
  · have he := attempt_errs h3 (attempt_errs h2 (attempt_errs h1 (by simp)))
    split
    · exact NP.pure
    · refine NP.error fun hc => ?_
      cases hl : a3.2.getLast? with
      | none => rw [hl] at hc; cases hc
      | some e =>
        rw [hl] at hc
        simp only [Option.getD_some] at hc
        subst hc
        exact he (List.mem_of_getLast? hl)

/-- with one way that succeeds there is a result -/
theorem selectRandom_ok {rand : Rand O} {pool : List (Group O)} {target cost max : Nat} (hfair : rand.Fair pay) (hp : Payable pay pool) (hS : Small pay pool target cost)
    (hne : pool ≠ []) (ht : 0 < target) {w : Option Nat} (hev : Even max w pool)
    (hone : (∃ r, knapsack pay (rand.second pool) target cost max rand.coins = .ok r) ∨ ∃ r, selectBnb pay (rand.second pool) target cost max = .ok r) :
    ∃ r, selectRandom rand pay pool target cost max = .ok r := by
  have hu : total (worth pay) pool < U128 := lt_u128 (by unfold Small at hS; omega)
  have hp1 := hfair.first pool
  have hp2 := hfair.second pool
  have hpp : Payable pay (rand.second pool) := fun g hg => hp g (hp2.subset hg)
  have hpp1 : Payable pay (rand.first pool) := fun g hg => hp g (hp1.subset hg)
  have hup : total (worth pay) (rand.second pool) < U128 := by rw [total_perm _ hp2]; exact hu
  have hne2 : rand.second pool ≠ [] := fun hc => by rw [hc] at hp2; exact hne hp2.nil_eq.symm
  unfold selectRandom
  refine ok_bind (attempt_ok (selectSrd_np hfair.pop hpp1) fun r hr => ?_) fun a1 h1 => ok_bind (attempt_ok (knapsack_np hpp) fun r hr => ?_) fun a2 h2 =>
    ok_bind (attempt_ok (selectBnb_np hpp hup hne2 ht) fun _ _ => ok_pure) fun a3 h3 => ?_
  · obtain ⟨sel, k1, k2, -⟩ := selectSrd_spec hfair.pop hr
    exact finish_ok (hS.perm hp1) k1 k2 (by rw [← k2.eff]; exact selectSrd_covers hfair.pop ht (even_perm hev hp1) hr)
  · obtain ⟨⟨sel, k1, k2, k3⟩, -⟩ := knapsack_spec hpp hr
    exact finish_ok (hS.perm hp2) k1 k2 k3
  · have hnil : a3.1 ≠ [] := by
      rcases attempt_spec h3 with ⟨_, _, -, -, he⟩ | ⟨e, hx, he⟩
      · rw [he]; simp
      · rw [he]
        rcases attempt_spec h2 with ⟨_, _, -, -, he⟩ | ⟨e', hx', he⟩
        · rw [he]; simp
        · exfalso
          rcases hone with ⟨r, hr⟩ | ⟨r, hr⟩
          · rw [hr] at hx'; cases hx'
          · rw [hr] at hx; cases hx
    obtain ⟨r, hr⟩ := minWaste_ne hnil
    rw [hr]
    exact ok_pure

/-- the checks before the choice -/
theorem selectCoins_eq {rand : Rand O} {pool : List (Group O)} {target cost max : Nat} {algo : Algo} {r : Result O} (ht : target ≠ 0)
    (h : selectCoins rand pool target pay cost algo max = .ok r) : pool ≠ [] ∧ total (worth pay) pool < U128 ∧ target ≤ total (worth pay) pool ∧
      (match algo with | .preselected => selectAll pay pool target cost | .randomize => selectRandom rand pay pool target cost max) = .ok r := by
  simp only [selectCoins, if_neg ht, bind_eq_ok, ensure_eq_ok, okOr_eq_ok] at h
  obtain ⟨-, h1, vs, h2, t, h3, -, h4, h5⟩ := h
  have h2 := effectives_eq h2
  subst h2
  have hne : pool.map (worth pay) ≠ [] := by simpa using h1
  have h6 := sum_go.1 h3
  rw [Nat.zero_add] at h6
  refine ⟨h1, h6.2 hne, ?_, h5⟩
  have := h6.1
  unfold total
  omega

theorem selectCoins_start {rand : Rand O} {pool : List (Group O)} {target cost max : Nat} {algo : Algo} (hp : Payable pay pool) (ht : target ≠ 0) (h1 : pool ≠ [])
    (h2 : total (worth pay) pool < U128) (h3 : target ≤ total (worth pay) pool) : selectCoins rand pool target pay cost algo max =
      (match algo with | .preselected => selectAll pay pool target cost | .randomize => selectRandom rand pay pool target cost max) := by
  have e1 : Amt.sum (pool.map (worth pay)) = some (total (worth pay) pool) := sum_ok h2
  simp only [selectCoins, if_neg ht]
  rw [effectives_ok hp, ensure, if_pos h1]
  simp only [bind, Except.bind, e1, okOr, ensure]
  rw [if_pos h3]
  rfl

end Verif.Select
