import Verif.Select.Base
import Verif.Select.Knap

/-!
# Branch and bound: what the search keeps
-/

namespace Verif.Select
open Verif

variable {O : Type}

/-- the sum over the groups whose indices are in `S` -/
def sumB (f : Group O → Nat) : List (Group O) → (Nat → Bool) → Nat
  | [], _ => 0
  | g :: l, S => (if S 0 then f g else 0) + sumB f l (fun j => S (j + 1))

theorem sumB_congr (f : Group O → Nat) : ∀ {l : List (Group O)} {S T : Nat → Bool}, (∀ j, j < l.length → S j = T j) → sumB f l S = sumB f l T
  | [], _, _, _ => rfl
  | g :: l, S, T, h => by
    unfold sumB
    rw [h 0 (by simp), sumB_congr f (fun j hj => h (j + 1) (by simpa using hj))]

theorem sumB_none (f : Group O → Nat) : ∀ {l : List (Group O)} {S : Nat → Bool}, (∀ j, j < l.length → S j = false) → sumB f l S = 0
  | [], _, _ => rfl
  | g :: l, S, h => by
    unfold sumB
    rw [h 0 (by simp), sumB_none f (fun j hj => h (j + 1) (by simpa using hj))]
    rfl

theorem sumB_le (f : Group O → Nat) : ∀ (l : List (Group O)) (S : Nat → Bool), sumB f l S ≤ total f l
  | [], _ => Nat.le_refl _
  | g :: l, S => by
    unfold sumB
    have := sumB_le f l (fun j => S (j + 1))
    rw [total_cons]
    split <;> omega

theorem sumB_add (f : Group O → Nat) : ∀ {l : List (Group O)} {S : Nat → Bool} {i : Nat} {g : Group O}, l[i]? = some g → S i = false →
    sumB f l (fun j => decide (j = i) || S j) = sumB f l S + f g
  | [], _, _, _, h, _ => by simp at h
  | x :: l, S, 0, g, h, hS => by
    simp at h; subst h
    unfold sumB
    rw [hS]
    have : (fun j => decide (j + 1 = 0) || S (j + 1)) = fun j => S (j + 1) := by
      funext j; simp
    simp only [this]
    simp [Nat.add_comm]
  | x :: l, S, i + 1, g, h, hS => by
    simp only [List.getElem?_cons_succ] at h
    have ih := sumB_add f (S := fun j => S (j + 1)) h hS
    unfold sumB
    have : (fun j => decide (j + 1 = i + 1) || S (j + 1)) = fun j => decide (j = i) || S (j + 1) := by
      funext j
      congr 1
      simp
    simp only [this, ih]
    simp
    omega

theorem sumB_split (f : Group O → Nat) : ∀ (m : Nat) (l : List (Group O)) (S : Nat → Bool), sumB f l S = sumB f (l.take m) S + sumB f (l.drop m) (fun j => S (j + m))
  | 0, l, S => by simp [sumB]
  | m + 1, [], S => by simp [sumB]
  | m + 1, g :: l, S => by
    have := sumB_split f m l (fun j => S (j + 1))
    simp only [List.take_succ_cons, List.drop_succ_cons, sumB, this]
    have e : (fun j => S (j + m + 1)) = fun j => S (j + (m + 1)) := rfl
    rw [e]
    omega

/-- the indices of a selection -/
def mem (sel : List Nat) : Nat → Bool := fun j => decide (j ∈ sel)

theorem sumB_cons (f : Group O → Nat) {l : List (Group O)} {sel : List Nat} {i : Nat} {g : Group O} (h : l[i]? = some g) (hi : i ∉ sel) :
    sumB f l (mem (i :: sel)) = sumB f l (mem sel) + f g := by
  rw [← sumB_add f h (S := mem sel) (by simp [mem, hi])]
  apply sumB_congr
  intro j _
  simp [mem, List.mem_cons]

/-- a selection: decreasing indices below a bound -/
structure Down (sel : List Nat) (m : Nat) : Prop where
  sorted : sel.Pairwise (· > ·)
  below : ∀ i ∈ sel, i < m

theorem Down.notin {i : Nat} {sel : List Nat} {m : Nat} (h : Down (i :: sel) m) : i ∉ sel := by
  intro hc
  have := (List.pairwise_cons.1 h.sorted).1 i hc
  omega

theorem Down.tail {i : Nat} {sel : List Nat} {m : Nat} (h : Down (i :: sel) m) : Down sel i :=
  ⟨(List.pairwise_cons.1 h.sorted).2, fun j hj => (List.pairwise_cons.1 h.sorted).1 j hj⟩

theorem Down.mono {sel : List Nat} {m n : Nat} (h : Down sel m) (hmn : m ≤ n) : Down sel n := ⟨h.sorted, fun i hi => Nat.lt_of_lt_of_le (h.below i hi) hmn⟩

theorem Down.push {sel : List Nat} {m : Nat} (h : Down sel m) : Down (m :: sel) (m + 1) :=
  ⟨List.pairwise_cons.2 ⟨h.below, h.sorted⟩, by
    intro i hi
    rcases List.mem_cons.1 hi with rfl | hi
    · omega
    · have := h.below i hi; omega⟩

theorem groupsAt_ok {pool : List (Group O)} : ∀ {l : List Nat}, (∀ i ∈ l, i < pool.length) → groupsAt pool l = .ok (l.filterMap (pool[·]?))
  | [], _ => rfl
  | i :: l, h => by
    have hi := h i (by simp)
    unfold groupsAt
    rw [groupsAt_ok (fun j hj => h j (by simp [hj])), List.getElem?_eq_getElem hi]
    simp [okOr, Bind.bind, Except.bind, pure, Except.pure, List.getElem?_eq_getElem hi]

theorem chosen_sublist {pool : List (Group O)} : ∀ {l : List Nat} {k : Nat}, l.Pairwise (· < ·) → (∀ i ∈ l, k ≤ i) → (∀ i ∈ l, i < pool.length) →
    (l.filterMap (pool[·]?)).Sublist (pool.drop k)
  | [], _, _, _, _ => List.nil_sublist _
  | i :: l, k, hs, hk, hl => by
    have hi := hl i (by simp)
    have h1 := hk i (by simp)
    rw [List.filterMap_cons, List.getElem?_eq_getElem hi]
    dsimp only
    have h2 := List.pairwise_cons.1 hs
    have ih := chosen_sublist (k := i + 1) h2.2 (fun j hj => h2.1 j hj) (fun j hj => hl j (by simp [hj]))
    have h3 : pool.drop i = pool[i] :: pool.drop (i + 1) := List.drop_eq_getElem_cons hi
    have h4 : (pool.drop i).Sublist (pool.drop k) := by
      have : pool.drop i = (pool.drop k).drop (i - k) := by rw [List.drop_drop]; congr 1; omega
      rw [this]
      exact List.drop_sublist _ _
    exact (ih.cons_cons pool[i]).trans (h3 ▸ h4)

theorem chosen_total (f : Group O → Nat) {pool : List (Group O)} : ∀ {l : List Nat}, l.Nodup → (∀ i ∈ l, i < pool.length) →
    total f (l.filterMap (pool[·]?)) = sumB f pool (mem l)
  | [], _, _ => by
    rw [sumB_none f (by intro j _; simp [mem])]; rfl
  | i :: l, hn, hl => by
    have hi := hl i (by simp)
    have hn' := List.nodup_cons.1 hn
    rw [List.filterMap_cons, List.getElem?_eq_getElem hi]
    dsimp only
    rw [total_cons, chosen_total f hn'.2 (fun j hj => hl j (by simp [hj])), sumB_cons f (List.getElem?_eq_getElem hi) hn'.1]
    omega

/-! ### errors -/

/-- neither a panic nor, if `A` holds, an arithmetic error -/
def ON (A : Prop) {X : Type} (x : Except SelErr X) : Prop := NP x ∧ (A → x ≠ .error .arithmetic)

variable {A : Prop}

theorem ON.ok {X : Type} {a : X} : ON A (.ok a : Except SelErr X) := ⟨NP.ok, by simp⟩

theorem ON.pure {X : Type} {a : X} : ON A (pure a : Except SelErr X) := ON.ok

theorem ON.error {X : Type} {e : SelErr} (h : e ≠ .panic) (h' : e ≠ .arithmetic) : ON A (.error e : Except SelErr X) := ⟨NP.error h, fun _ => by simpa using h'⟩

theorem ON.bind {X Y : Type} {x : Except SelErr X} {f : X → Except SelErr Y} (hx : ON A x) (hf : ∀ a, x = .ok a → ON A (f a)) : ON A (x >>= f) := by
  refine ⟨hx.1.bind fun a ha => (hf a ha).1, fun hA => ?_⟩
  cases x with
  | error e =>
    intro hc
    simp only [Bind.bind, Except.bind, Except.error.injEq] at hc
    subst hc
    exact hx.2 hA rfl
  | ok a => exact (hf a rfl).2 hA

theorem ON.okOr_some {X : Type} {o : Option X} {e : SelErr} {a : X} (h : o = some a) : ON A (Verif.okOr o e) := by
  subst h; exact ON.ok

theorem ON.arith {X : Type} {o : Option X} (h : A → ∃ a, o = some a) : ON A (okOr o .arithmetic) := by
  refine ⟨NP.okOr (by decide), fun hA => ?_⟩
  obtain ⟨a, rfl⟩ := h hA
  simp [okOr]

theorem ON.get {X : Type} {x : Except SelErr X} (h : ON A x) (hA : A) : (∃ a, x = .ok a) ∨ ∃ e, x = .error e ∧ e ≠ .panic ∧ e ≠ .arithmetic := by
  cases x with
  | ok a => exact .inl ⟨a, rfl⟩
  | error e => exact .inr ⟨e, rfl, fun hc => h.1 (by rw [hc]), fun hc => h.2 hA (by rw [hc])⟩

theorem lt_u128 {n : Nat} (h : (n : Int) < I128) : n < U128 := by
  have h1 : I128 ≤ (U128 : Int) := by decide
  exact_mod_cast Int.lt_of_lt_of_le h h1

theorem diff_ok {g : Group O} (h : ((g.fee + g.longFee : Nat) : Int) < I128) : g.diff = some ((g.fee : Int) - g.longFee) := by
  have h1 : (g.fee : Int) < I128 := Int.lt_of_le_of_lt (by omega) h
  have h2 : (g.longFee : Int) < I128 := Int.lt_of_le_of_lt (by omega) h
  have h3 : SAmt.InRange ((g.fee : Int) - g.longFee) := by
    unfold SAmt.InRange
    generalize I128 = I at *
    omega
  have h4 : Amt.intoSigned g.fee = some (g.fee : Int) := signed_some.2 ⟨rfl, h1⟩
  have h5 : Amt.intoSigned g.longFee = some (g.longFee : Int) := signed_some.2 ⟨rfl, h2⟩
  have h6 : SAmt.sub (g.fee : Int) g.longFee = some ((g.fee : Int) - g.longFee) := ssub_some.2 ⟨rfl, h3⟩
  simp only [Group.diff, h4, h5, Option.bind_eq_bind, Option.bind_some, h6]

/-! ### the invariant -/

/-- the difference of the fees of a selection -/
def wasteB (pool : List (Group O)) (S : Nat → Bool) : Int := (sumB (·.fee) pool S : Int) - sumB (·.longFee) pool S

/-- a selection found: it is within the range and the weight -/
structure Found (c : BnbIn O) (sel : List Nat) (w : Int) : Prop where
  down : Down sel c.pool.length
  ge : c.target ≤ sumB (worth c.pay) c.pool (mem sel)
  le : sumB (worth c.pay) c.pool (mem sel) ≤ c.target + c.cost
  weight : sumB (·.weight) c.pool (mem sel) ≤ c.max
  waste : w = wasteB c.pool (mem sel) + ((sumB (worth c.pay) c.pool (mem sel) : Int) - c.target)

structure BInv (c : BnbIn O) (st : Bnb) : Prop where
  index : st.index ≤ c.pool.length
  down : Down st.sel st.index
  value : st.value = sumB (worth c.pay) c.pool (mem st.sel)
  weight : st.weight = sumB (·.weight) c.pool (mem st.sel)
  waste : st.waste = wasteB c.pool (mem st.sel)
  avail : st.avail = total (worth c.pay) (c.pool.drop st.index)
  best : st.best = [] ∨ Found c st.best st.bestWaste

/-- what is assumed of the input -/
structure Input (c : BnbIn O) : Prop where
  pay : Payable c.pay c.pool
  small : total (worth c.pay) c.pool < U128
  target : 0 < c.target

variable {c : BnbIn O} {st : Bnb}

/-- `Small` for the input of the search -/
def BnbIn.Small (c : BnbIn O) : Prop := Select.Small c.pay c.pool c.target c.cost

theorem take_drop_total (f : Group O → Nat) (l : List (Group O)) (m : Nat) : total f (l.take m) + total f (l.drop m) = total f l := by
  rw [← total_append, List.take_append_drop]

theorem BInv.value_le (h : BInv c st) : st.value + st.avail ≤ total (worth c.pay) c.pool := by
  rw [h.value, h.avail, ← take_drop_total _ c.pool st.index, sumB_split _ st.index]
  have h1 := sumB_le (worth c.pay) (c.pool.take st.index) (mem st.sel)
  have h2 : sumB (worth c.pay) (c.pool.drop st.index) (fun j => mem st.sel (j + st.index)) = 0 := by
    apply sumB_none
    intro j _
    simp only [mem, decide_eq_false_iff_not]
    intro hc
    have := h.down.below _ hc
    omega
  omega

theorem small_add (hS : c.Small) : ∃ a, Amt.add c.target c.cost = some a :=
  ⟨_, add_some.2 ⟨rfl, lt_u128 (by unfold BnbIn.Small Select.Small at hS; omega)⟩⟩

theorem small_waste (hS : c.Small) (S : Nat → Bool) {x : Int} (h0 : 0 ≤ x) (h1 : x ≤ total (worth c.pay) c.pool) : SAmt.InRange (wasteB c.pool S + x) := by
  have h2 := sumB_le (·.fee) c.pool S
  have h3 := sumB_le (·.longFee) c.pool S
  unfold BnbIn.Small Select.Small at hS
  unfold SAmt.InRange wasteB
  omega

theorem small_diff (hS : c.Small) {g : Group O} (hg : g ∈ c.pool) : g.diff = some ((g.fee : Int) - g.longFee) := by
  have h2 := total_mem (·.fee) hg
  have h3 := total_mem (·.longFee) hg
  unfold BnbIn.Small Select.Small at hS
  exact diff_ok (by omega)

theorem small_excess (hS : c.Small) (h : BInv c st) {d : Nat} (hd : d ≤ st.value) : ∃ w, (do let x ← Amt.intoSigned d; SAmt.add st.waste x) = some w := by
  have hv := h.value_le
  have h4 : (d : Int) < I128 := by unfold BnbIn.Small Select.Small at hS; omega
  refine ⟨st.waste + d, ?_⟩
  rw [signed_some.2 ⟨rfl, h4⟩]
  simp only [Option.bind_eq_bind, Option.bind_some]
  refine sadd_some.2 ⟨rfl, ?_⟩
  rw [h.waste]
  exact small_waste hS _ (by omega) (by omega)

theorem small_sub (hS : c.Small) (h : BInv c st) {i : Nat} {sel : List Nat} {g : Group O} (hs : st.sel = i :: sel) (hg : c.pool[i]? = some g) (hi : i ∉ sel) :
    ∃ w, (do let d ← g.diff; SAmt.sub st.waste d) = some w := by
  refine ⟨wasteB c.pool (mem sel) + 0, ?_⟩
  rw [small_diff hS (List.mem_of_getElem? hg)]
  simp only [Option.bind_eq_bind, Option.bind_some]
  have h1 : st.waste - ((g.fee : Int) - g.longFee) = wasteB c.pool (mem sel) + 0 := by
    rw [h.waste, hs]
    unfold wasteB
    rw [sumB_cons _ hg hi, sumB_cons _ hg hi]
    omega
  refine ssub_some.2 ⟨h1.symm, ?_⟩
  rw [h1]
  exact small_waste hS _ (by omega) (by omega)

theorem small_take (hS : c.Small) (h : BInv c st) {g : Group O} (hg : c.pool[st.index]? = some g) : ∃ w, (do let d ← g.diff; SAmt.add st.waste d) = some w := by
  have hi : st.index ∉ st.sel := fun hc => Nat.lt_irrefl _ (h.down.below _ hc)
  refine ⟨wasteB c.pool (mem (st.index :: st.sel)) + 0, ?_⟩
  rw [small_diff hS (List.mem_of_getElem? hg)]
  simp only [Option.bind_eq_bind, Option.bind_some]
  have h1 : st.waste + ((g.fee : Int) - g.longFee) = wasteB c.pool (mem (st.index :: st.sel)) + 0 := by
    rw [h.waste]
    unfold wasteB
    rw [sumB_cons _ hg hi, sumB_cons _ hg hi]
    omega
  refine sadd_some.2 ⟨h1.symm, ?_⟩
  rw [h1]
  exact small_waste hS _ (by omega) (by omega)

theorem check_spec (hin : Input c) (h : BInv c st) : ON c.Small (bnbCheck c st) ∧ ∀ st' b, bnbCheck c st = .ok (st', b) →
    BInv c st' ∧ st'.sel = st.sel ∧ st'.index = st.index ∧ (b = false → st.value < c.target ∧ c.target ≤ st.value + st.avail) := by
  have hv := h.value_le
  have ha : Amt.add st.value st.avail = some (st.value + st.avail) := add_some.2 ⟨rfl, Nat.lt_of_le_of_lt hv hin.small⟩
  constructor
  · unfold bnbCheck
    refine ON.bind (ON.okOr_some ha) fun all _ => ?_
    split
    · exact ON.pure
    · refine ON.bind (ON.arith small_add) fun full _ => ?_
      split
      · exact ON.pure
      · split
        · exact ON.pure
        · split
          · next hge =>
            refine ON.bind (ON.okOr_some (sub_some.2 ⟨rfl, hge⟩)) fun d hd => ON.bind (ON.arith fun hS => small_excess hS h ?_) fun _ _ => ON.pure
            rw [okOr_eq_ok] at hd
            obtain ⟨hd, -⟩ := sub_some.1 hd
            omega
          · exact ON.pure
  · intro st' b hb
    simp only [bnbCheck, bind_eq_ok, okOr_eq_ok] at hb
    obtain ⟨all, hall, hb⟩ := hb
    obtain ⟨rfl, -⟩ := add_some.1 hall
    clear hall
    split at hb
    · simp only [pure_eq_ok, Prod.mk.injEq] at hb
      obtain ⟨rfl, rfl⟩ := hb
      exact ⟨h, rfl, rfl, by intro hh; cases hh⟩
    · next hge =>
      simp only [bind_eq_ok, okOr_eq_ok] at hb
      obtain ⟨full, hf, hb⟩ := hb
      obtain ⟨hf, -⟩ := add_some.1 hf
      split at hb
      · simp only [pure_eq_ok, Prod.mk.injEq] at hb
        obtain ⟨rfl, rfl⟩ := hb
        exact ⟨h, rfl, rfl, by intro hh; cases hh⟩
      · next hno =>
        split at hb
        · simp only [pure_eq_ok, Prod.mk.injEq] at hb
          obtain ⟨rfl, rfl⟩ := hb
          exact ⟨⟨h.index, h.down, h.value, h.weight, h.waste, h.avail, h.best⟩, rfl, rfl, by intro hh; cases hh⟩
        · next hw =>
          split at hb
          · next hge2 =>
            simp only [bind_eq_ok, okOr_eq_ok] at hb
            obtain ⟨d, hd, w, hw1, hb⟩ := hb
            simp only [pure_eq_ok, Prod.mk.injEq] at hb
            obtain ⟨rfl, rfl⟩ := hb
            obtain ⟨hd, -⟩ := sub_some.1 hd
            have hw2 : w = st.waste + d := by
              simp only [Option.bind_eq_bind, Option.bind_eq_some_iff, signed_some, sadd_some] at hw1
              obtain ⟨x, ⟨rfl, -⟩, h4, -⟩ := hw1
              exact h4
            clear hw1
            split
            · refine ⟨⟨h.index, h.down, h.value, h.weight, h.waste, h.avail, .inr ⟨h.down.mono h.index, ?_, ?_, ?_, ?_⟩⟩, rfl, rfl, by intro hh; cases hh⟩
              · rw [← h.value]; exact hge2
              · rw [← h.value]
                have : ¬ st.value > full := fun hc => hno (.inl hc)
                omega
              · rw [← h.weight]; omega
              · dsimp only; rw [hw2, h.waste, ← h.value, hd, Int.ofNat_sub hge2]
            · exact ⟨h, rfl, rfl, by intro hh; cases hh⟩
          · next hlt =>
            simp only [pure_eq_ok, Prod.mk.injEq] at hb
            obtain ⟨rfl, rfl⟩ := hb
            exact ⟨h, rfl, rfl, fun _ => ⟨by omega, by omega⟩⟩

theorem drop_take_drop (l : List (Group O)) {k m : Nat} (hk : k ≤ m) (hm : m ≤ l.length) : (l.take m).drop k ++ l.drop m = l.drop k := by
  conv_rhs => rw [← List.take_append_drop m l]
  rw [List.drop_append_of_le_length (by rw [List.length_take]; omega)]

theorem back_spec (hin : Input c) (h : BInv c st) : ON c.Small (bnbBack c st) ∧ ∀ o, bnbBack c st = .ok o →
    (o = none ∧ st.sel = []) ∨ ∃ i sel st', st.sel = i :: sel ∧ o = some st' ∧ BInv c st' ∧ st'.sel = sel ∧ st'.index = i + 1 ∧ st'.best = st.best ∧ st'.bestWaste = st.bestWaste := by
  cases hs : st.sel with
  | nil =>
    unfold bnbBack
    rw [hs]
    exact ⟨ON.ok, fun o ho => .inl ⟨by simpa using ho.symm, rfl⟩⟩
  | cons i sel =>
    have hd := h.down
    rw [hs] at hd
    have hi := hd.below i (by simp)
    have hil : i < c.pool.length := Nat.lt_of_lt_of_le hi h.index
    have hg : c.pool[i]? = some c.pool[i] := List.getElem?_eq_getElem hil
    have hpay := hin.pay _ (List.getElem_mem hil)
    have hdt := congrArg (total (worth c.pay)) (drop_take_drop c.pool (k := i + 1) hi h.index)
    rw [total_append, ← h.avail] at hdt
    have hle := total_sublist (worth c.pay) (List.drop_sublist (i + 1) c.pool)
    have hv := h.value
    have hw := h.weight
    have hwa := h.waste
    have hfee : sumB (·.fee) c.pool (mem (i :: sel)) = sumB (·.fee) c.pool (mem sel) + c.pool[i].fee := sumB_cons _ hg hd.notin
    have hlong : sumB (·.longFee) c.pool (mem (i :: sel)) = sumB (·.longFee) c.pool (mem sel) + c.pool[i].longFee := sumB_cons _ hg hd.notin
    rw [hs, sumB_cons _ hg hd.notin] at hv hw
    have hes : effectives c.pay ((c.pool.take st.index).drop (i + 1)) = .ok (((c.pool.take st.index).drop (i + 1)).map (worth c.pay)) :=
      effectives_ok (fun g hg => hin.pay g (List.mem_of_mem_take (List.mem_of_mem_drop hg)))
    have hsum : Amt.sum (((c.pool.take st.index).drop (i + 1)).map (worth c.pay)) = some (total (worth c.pay) ((c.pool.take st.index).drop (i + 1))) :=
      sum_ok (Nat.lt_of_le_of_lt (by show total _ _ ≤ total (worth c.pay) c.pool; omega) hin.small)
    have hadd : Amt.add st.avail (total (worth c.pay) ((c.pool.take st.index).drop (i + 1))) = some (total (worth c.pay) (c.pool.drop (i + 1))) :=
      add_some.2 ⟨by omega, Nat.lt_of_le_of_lt (by omega) hin.small⟩
    have hsubv : Amt.sub st.value (worth c.pay c.pool[i]) = some (sumB (worth c.pay) c.pool (mem sel)) := sub_some.2 ⟨by omega, by omega⟩
    have hsubw : Amt.sub st.weight c.pool[i].weight = some (sumB (·.weight) c.pool (mem sel)) := sub_some.2 ⟨by omega, by omega⟩
    constructor
    · unfold bnbBack
      rw [hs]
      refine ON.bind (by rw [hes]; exact ON.ok) fun vs hvs => ?_
      rw [hes, Except.ok.injEq] at hvs
      subst hvs
      refine ON.bind (ON.okOr_some hsum) fun n hn => ?_
      rw [okOr_eq_ok, hsum, Option.some.injEq] at hn
      subst hn
      refine ON.bind (ON.okOr_some hadd) fun a _ => ON.bind (ON.okOr_some hg) fun g hgg => ?_
      rw [okOr_eq_ok, hg, Option.some.injEq] at hgg
      subst hgg
      rw [effective_ok hpay]
      refine ON.bind ON.ok fun v hvv => ?_
      rw [Except.ok.injEq] at hvv
      subst hvv
      exact ON.bind (ON.okOr_some hsubv) fun _ _ => ON.bind (ON.arith fun hS => small_sub hS h hs hg hd.notin) fun _ _ => ON.bind (ON.okOr_some hsubw) fun _ _ => ON.pure
    · intro o ho
      simp only [bnbBack, hs, bind_eq_ok, okOr_eq_ok, pure_eq_ok] at ho
      obtain ⟨vs, h1, n, h2, a, h3, g, h4, v, h5, val, h6, w, h7, we, h8, rfl⟩ := ho
      rw [hes, Except.ok.injEq] at h1
      subst h1
      rw [hsum, Option.some.injEq] at h2
      subst h2
      rw [hadd, Option.some.injEq] at h3
      subst h3
      rw [hg, Option.some.injEq] at h4
      subst h4
      rw [effective_ok hpay, Except.ok.injEq] at h5
      subst h5
      rw [hsubv, Option.some.injEq] at h6
      subst h6
      rw [hsubw, Option.some.injEq] at h8
      subst h8
      have hww : w = wasteB c.pool (mem sel) := by
        rw [Option.bind_eq_bind, Option.bind_eq_some_iff] at h7
        obtain ⟨d, h1, h2⟩ := h7
        have h1 := diff_some h1
        obtain ⟨h2, -⟩ := ssub_some.1 h2
        rw [hs] at hwa
        simp only [wasteB] at hwa ⊢
        omega
      exact .inr ⟨i, sel, _, rfl, rfl, ⟨hil, hd.tail.mono (Nat.le_succ i), rfl, rfl, hww, rfl, h.best⟩, rfl, rfl, rfl, rfl⟩

theorem include_spec (hin : Input c) (h : BInv c st) {g : Group O} (hg : c.pool[st.index]? = some g) : ON c.Small (bnbInclude c st g) ∧
    (bnbInclude c st g = .ok false → ∃ p, 0 < st.index ∧ st.index - 1 ∉ st.sel ∧ c.pool[st.index - 1]? = some p ∧ worth c.pay g = worth c.pay p ∧ g.fee = p.fee) := by
  have hpg := hin.pay g (List.mem_of_getElem? hg)
  unfold bnbInclude
  split
  · exact ⟨ON.ok, by simp⟩
  · next i l hs =>
    have hd := h.down
    rw [hs] at hd
    have hi := hd.below i (by simp)
    split
    · exact ⟨ON.ok, by simp⟩
    · next hne =>
      have hl : st.index - 1 < c.pool.length := by have := h.index; omega
      have hp : c.pool[st.index - 1]? = some c.pool[st.index - 1] := List.getElem?_eq_getElem hl
      have hep := effective_ok (hin.pay _ (List.getElem_mem hl))
      rw [hp, effective_ok hpg]
      simp only [okOr, Bind.bind, Except.bind, pure, Except.pure, hep]
      refine ⟨ON.ok, ?_⟩
      intro ho
      simp only [Except.ok.injEq, Bool.or_eq_false_iff, decide_eq_false_iff_not, not_not] at ho
      refine ⟨_, by omega, ?_, rfl, ho.1, ho.2⟩
      intro hc
      rw [hs] at hc
      rcases List.mem_cons.1 hc with e | hc
      · exact hne e
      · have := hd.tail.below _ hc
        omega

/-- going on: the next group is taken, or left out because the one before is equal and was left out -/
theorem forward_spec (hin : Input c) (h : BInv c st) (h1 : st.value < c.target) (h2 : c.target ≤ st.value + st.avail) : ON c.Small (bnbForward c st) ∧ ∀ st', bnbForward c st = .ok st' →
    st.index < c.pool.length ∧ BInv c st' ∧ st'.index = st.index + 1 ∧ st'.best = st.best ∧ st'.bestWaste = st.bestWaste ∧
      (st'.sel = st.index :: st.sel ∨ st'.sel = st.sel ∧ ∃ g p, c.pool[st.index]? = some g ∧ 0 < st.index ∧ st.index - 1 ∉ st.sel ∧ c.pool[st.index - 1]? = some p ∧
        worth c.pay g = worth c.pay p ∧ g.fee = p.fee) := by
  have hlt : st.index < c.pool.length := by
    rcases Nat.lt_or_ge st.index c.pool.length with hh | hh
    · exact hh
    · exfalso
      have := h.avail
      rw [List.drop_of_length_le hh] at this
      simp at this
      omega
  have hg : c.pool[st.index]? = some c.pool[st.index] := List.getElem?_eq_getElem hlt
  have hpay := hin.pay _ (List.getElem_mem hlt)
  have hdrop : c.pool.drop st.index = c.pool[st.index] :: c.pool.drop (st.index + 1) := List.drop_eq_getElem_cons hlt
  have hav := h.avail
  rw [hdrop, total_cons] at hav
  have hsub : Amt.sub st.avail (worth c.pay c.pool[st.index]) = some (total (worth c.pay) (c.pool.drop (st.index + 1))) := sub_some.2 ⟨by omega, by omega⟩
  have hvl := h.value_le
  have hadd : Amt.add st.value (worth c.pay c.pool[st.index]) = some (st.value + worth c.pay c.pool[st.index]) := add_some.2 ⟨rfl, Nat.lt_of_le_of_lt (by omega) hin.small⟩
  obtain ⟨hi1, hi2⟩ := include_spec hin h hg
  have hnot : st.index ∉ st.sel := fun hc => Nat.lt_irrefl _ (h.down.below _ hc)
  constructor
  · unfold bnbForward
    refine ON.bind (ON.okOr_some hg) fun g hgg => ?_
    rw [okOr_eq_ok, hg, Option.some.injEq] at hgg
    subst hgg
    rw [effective_ok hpay]
    refine ON.bind ON.ok fun v hvv => ?_
    rw [Except.ok.injEq] at hvv
    subst hvv
    refine ON.bind (ON.okOr_some hsub) fun a _ => ON.bind hi1 fun b _ => ?_
    dsimp only
    split
    · unfold bnbTake
      exact ON.bind (ON.okOr_some hadd) fun _ _ => ON.bind (ON.arith fun hS => small_take hS h hg) fun _ _ => ON.pure
    · exact ON.pure
  · intro st' ho
    simp only [bnbForward, bind_eq_ok, okOr_eq_ok] at ho
    obtain ⟨g, h3, v, h4, a, h5, b, h6, ho⟩ := ho
    rw [hg, Option.some.injEq] at h3
    subst h3
    rw [effective_ok hpay, Except.ok.injEq] at h4
    subst h4
    rw [hsub, Option.some.injEq] at h5
    subst h5
    cases b with
    | true =>
      simp only [if_true, bnbTake, bind_eq_ok, okOr_eq_ok, pure_eq_ok] at ho
      obtain ⟨val, h7, w, h8, rfl⟩ := ho
      rw [hadd, Option.some.injEq] at h7
      subst h7
      have hww : w = wasteB c.pool (mem (st.index :: st.sel)) := by
        rw [Option.bind_eq_bind, Option.bind_eq_some_iff] at h8
        obtain ⟨d, h1, h2⟩ := h8
        have h1 := diff_some h1
        obtain ⟨h2, -⟩ := sadd_some.1 h2
        have hwa := h.waste
        simp only [wasteB, sumB_cons _ hg hnot] at hwa ⊢
        omega
      refine ⟨hlt, ⟨hlt, h.down.push, ?_, ?_, hww, rfl, h.best⟩, rfl, rfl, rfl, .inl rfl⟩
      · dsimp only; rw [sumB_cons _ hg hnot, h.value]
      · dsimp only; rw [sumB_cons _ hg hnot, h.weight]
    | false =>
      simp only [Bool.false_eq_true, if_false, pure_eq_ok] at ho
      subst ho
      obtain ⟨p, p1, p2, p3, p4, p5⟩ := hi2 h6
      exact ⟨hlt, ⟨hlt, h.down.mono (Nat.le_succ _), h.value, h.weight, h.waste, rfl, h.best⟩, rfl, rfl, rfl, .inr ⟨rfl, _, p, hg, p1, p2, p3, p4, p5⟩⟩

end Verif.Select
