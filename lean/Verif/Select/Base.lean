import Verif.Select.Spec
import Mathlib.Data.List.Perm.Subperm

/-!
# Results: what they add up to
-/

namespace Verif.Select
open Verif

variable {O : Type}

/-- not a panic -/
def NP {A : Type} (x : Except SelErr A) : Prop := x ≠ .error .panic

theorem NP.ok {A : Type} {a : A} : NP (.ok a : Except SelErr A) := by simp [NP]

theorem NP.pure {A : Type} {a : A} : NP (pure a : Except SelErr A) := NP.ok

theorem NP.error {A : Type} {e : SelErr} (h : e ≠ .panic) : NP (.error e : Except SelErr A) := by simpa [NP] using h

theorem NP.bind {A B : Type} {x : Except SelErr A} {f : A → Except SelErr B} (hx : NP x) (hf : ∀ a, x = .ok a → NP (f a)) : NP (x >>= f) := by
  cases x with
  | error e =>
    intro hc
    simp only [Bind.bind, Except.bind, Except.error.injEq] at hc
    subst hc
    exact hx rfl
  | ok a => exact hf a rfl

theorem NP.okOr {A : Type} {o : Option A} {e : SelErr} (h : e ≠ .panic) : NP (okOr o e) := by
  cases o with
  | none => exact NP.error h
  | some a => exact NP.ok

theorem NP.okOr_some {A : Type} {o : Option A} {e : SelErr} {a : A} (h : o = some a) : NP (Verif.okOr o e) := by
  subst h; exact NP.ok

theorem NP.ensure {c : Prop} [Decidable c] {e : SelErr} (h : e ≠ .panic) : NP (ensure c e) := by
  unfold Verif.ensure
  split
  · exact NP.ok
  · exact NP.error h

theorem NP.ensure_true {c : Prop} [Decidable c] {e : SelErr} (h : c) : NP (Verif.ensure c e) := by
  unfold Verif.ensure
  rw [if_pos h]
  exact NP.ok

/-! ### amounts -/

theorem add_some {a b c : Nat} : Amt.add a b = some c ↔ c = a + b ∧ a + b < U128 := by
  unfold Amt.add
  split
  · simp; constructor
    · intro h; exact ⟨h.symm, by assumption⟩
    · intro h; exact h.1.symm
  · simp; intro _; omega

theorem sub_some {a b c : Nat} : Amt.sub a b = some c ↔ c = a - b ∧ b ≤ a := by
  unfold Amt.sub
  split
  · simp; constructor
    · intro h; exact ⟨h.symm, by assumption⟩
    · intro h; exact h.1.symm
  · simp; intro _; omega

theorem signed_some {a : Nat} {x : Int} : Amt.intoSigned a = some x ↔ x = a ∧ (a : Int) < I128 := by
  unfold Amt.intoSigned
  split
  · simp; constructor
    · intro h; exact ⟨h.symm, by assumption⟩
    · intro h; exact h.1.symm
  · simp; intro _; omega

theorem sadd_some {a b c : Int} : SAmt.add a b = some c ↔ c = a + b ∧ SAmt.InRange (a + b) := by
  unfold SAmt.add SAmt.chk
  split
  · simp; constructor
    · intro h; exact ⟨h.symm, by assumption⟩
    · intro h; exact h.1.symm
  · simp; intro _; assumption

theorem ssub_some {a b c : Int} : SAmt.sub a b = some c ↔ c = a - b ∧ SAmt.InRange (a - b) := by
  unfold SAmt.sub SAmt.chk
  split
  · simp; constructor
    · intro h; exact ⟨h.symm, by assumption⟩
    · intro h; exact h.1.symm
  · simp; intro _; assumption

/-! ### sums -/

@[simp] theorem total_nil (f : Group O → Nat) : total f [] = 0 := rfl

@[simp] theorem total_cons (f : Group O → Nat) (g : Group O) (l : List (Group O)) : total f (g :: l) = f g + total f l := rfl

@[simp] theorem total_append (f : Group O → Nat) (l m : List (Group O)) : total f (l ++ m) = total f l + total f m := by
  simp [total]

theorem total_perm (f : Group O → Nat) {l m : List (Group O)} (h : l.Perm m) : total f l = total f m := by
  induction h with
  | nil => rfl
  | cons x _ ih => rw [total_cons, total_cons, ih]
  | swap x y l => simp only [total_cons]; omega
  | trans _ _ ih1 ih2 => rw [ih1, ih2]

theorem total_sublist (f : Group O → Nat) {l m : List (Group O)} (h : l.Sublist m) : total f l ≤ total f m := by
  induction h with
  | slnil => exact Nat.le_refl _
  | cons a _ ih => rw [total_cons]; omega
  | cons_cons a _ ih => rw [total_cons, total_cons]; omega

theorem total_subperm (f : Group O → Nat) {l m : List (Group O)} (h : l.Subperm m) : total f l ≤ total f m := by
  obtain ⟨k, h1, h2⟩ := h
  rw [← total_perm f h1]
  exact total_sublist f h2

theorem total_mem (f : Group O → Nat) {l : List (Group O)} {g : Group O} (h : g ∈ l) : f g ≤ total f l := by
  have := total_sublist f (List.singleton_sublist.2 h)
  simpa using this

/-! ### effective values -/

theorem effective_eq {pay : Bool} {g : Group O} {v : Nat} (h : g.effective pay = .ok v) : v = worth pay g := by
  unfold Group.effective at h
  cases pay with
  | true =>
    simp only [if_true, okOr_eq_ok, sub_some] at h
    simp only [worth, if_true]; exact h.1
  | false => simp only [Bool.false_eq_true, if_false, Except.ok.injEq] at h; simp [worth, h]

theorem effective_ok {pay : Bool} {g : Group O} (h : pay = true → g.fee ≤ g.value) : g.effective pay = .ok (worth pay g) := by
  unfold Group.effective worth
  cases pay with
  | true =>
    simp only [if_true]
    rw [(sub_some (c := g.value - g.fee)).2 ⟨rfl, h rfl⟩]; rfl
  | false => rfl

theorem Payable.perm {pay : Bool} {l m : List (Group O)} (h : Payable pay l) (hp : m.Perm l) : Payable pay m := fun g hg => h g (hp.subset hg)

theorem Payable.subperm {pay : Bool} {l m : List (Group O)} (h : Payable pay l) (hp : m.Subperm l) : Payable pay m := fun g hg => h g (hp.subset hg)

theorem effectives_eq {pay : Bool} : ∀ {l : List (Group O)} {vs : List Nat}, effectives pay l = .ok vs → vs = l.map (worth pay)
  | [], vs, h => by simp only [effectives, Except.ok.injEq] at h; simp [← h]
  | g :: l, vs, h => by
    simp only [effectives, bind_eq_ok, pure_eq_ok] at h
    obtain ⟨v, h1, ws, h2, rfl⟩ := h
    rw [effective_eq h1, effectives_eq h2]; rfl

theorem effectives_ok {pay : Bool} : ∀ {l : List (Group O)}, Payable pay l → effectives pay l = .ok (l.map (worth pay))
  | [], _ => rfl
  | g :: l, h => by
    simp only [effectives]
    rw [effective_ok (h g (by simp)), effectives_ok (fun x hx => h x (List.mem_cons_of_mem _ hx))]
    rfl

theorem sum_go {l : List Nat} : ∀ {a c : Nat}, l.foldlM Amt.add a = some c ↔ c = a + l.sum ∧ (l ≠ [] → a + l.sum < U128) := by
  induction l with
  | nil => intro a c; simp [eq_comm]
  | cons x l ih =>
    intro a c
    rw [List.foldlM_cons]
    simp only [Option.bind_eq_bind, Option.bind_eq_some_iff, List.sum_cons]
    constructor
    · rintro ⟨b, h1, h2⟩
      obtain ⟨rfl, h3⟩ := add_some.1 h1
      obtain ⟨h4, h5⟩ := ih.1 h2
      refine ⟨by omega, fun _ => ?_⟩
      cases l with
      | nil => simpa using h3
      | cons y l => have := h5 (by simp); omega
    · rintro ⟨h1, h2⟩
      have h3 := h2 (by simp)
      refine ⟨a + x, add_some.2 ⟨rfl, by omega⟩, ih.2 ⟨by omega, fun _ => by omega⟩⟩

theorem sum_some {l : List Nat} {c : Nat} (h : Amt.sum l = some c) : c = l.sum := by
  have := (sum_go.1 h).1; omega

theorem sum_ok {l : List Nat} (h : l.sum < U128) : Amt.sum l = some l.sum := sum_go.2 ⟨by omega, fun _ => by omega⟩

/-! ### results -/

/-- the difference of the fees of groups -/
def wasteOf (l : List (Group O)) : Int := (total (·.fee) l : Int) - total (·.longFee) l

/-- a result before change is computed -/
structure Rep (pay : Bool) (target : Nat) (sel : List (Group O)) (r : Result O) : Prop where
  outputs : r.outputs = sel.flatMap (·.outputs)
  eff : r.eff = total (worth pay) sel
  weight : r.weight = total (·.weight) sel
  fees : r.fees = total (·.fee) sel
  target : r.target = target
  waste : r.waste = wasteOf sel
  change : r.change = 0

theorem rep_new (pay : Bool) (target : Nat) : Rep pay target ([] : List (Group O)) { target := target } := ⟨rfl, rfl, rfl, rfl, rfl, rfl, rfl⟩

theorem diff_some {g : Group O} {d : Int} (h : g.diff = some d) : d = (g.fee : Int) - g.longFee := by
  simp only [Group.diff, Option.bind_eq_bind, Option.bind_eq_some_iff, signed_some, ssub_some] at h
  obtain ⟨f, ⟨rfl, -⟩, l, ⟨rfl, -⟩, h3, -⟩ := h
  exact h3

theorem addInput_rep {pay : Bool} {target : Nat} {sel : List (Group O)} {r r' : Result O} {g : Group O} (h : Rep pay target sel r) (ha : r.addInput pay g = .ok r') :
    Rep pay target (sel ++ [g]) r' := by
  simp only [Result.addInput, bind_eq_ok, okOr_eq_ok, pure_eq_ok, Option.bind_eq_bind, Option.bind_eq_some_iff] at ha
  obtain ⟨v, h1, e, h2, w, ⟨d, h3, h4⟩, f, h5, rfl⟩ := ha
  have h1 := effective_eq h1
  obtain ⟨h2, -⟩ := add_some.1 h2
  obtain ⟨h4, -⟩ := sadd_some.1 h4
  obtain ⟨h5, -⟩ := add_some.1 h5
  have h3 := diff_some h3
  refine ⟨?_, ?_, ?_, ?_, h.target, ?_, h.change⟩
  · simp [h.outputs]
  · simp [h2, h1, h.eff]
  · simp [h.weight]
  · simp [h5, h.fees]
  · simp only [h4, h3, h.waste, wasteOf, total_append, total_cons, total_nil]
    omega

theorem addInputs_rep {pay : Bool} {target : Nat} : ∀ {gs : List (Group O)} {sel : List (Group O)} {r r' : Result O}, Rep pay target sel r → r.addInputs pay gs = .ok r' →
    Rep pay target (sel ++ gs) r'
  | [], sel, r, r', h, ha => by
    simp only [Result.addInputs, Except.ok.injEq] at ha
    subst ha; simpa using h
  | g :: gs, sel, r, r', h, ha => by
    simp only [Result.addInputs, bind_eq_ok] at ha
    obtain ⟨r1, h1, h2⟩ := ha
    have := addInputs_rep (addInput_rep h h1) h2
    simpa using this

theorem addInput_np {pay : Bool} {r : Result O} {g : Group O} (h : pay = true → g.fee ≤ g.value) : NP (r.addInput pay g) := by
  unfold Result.addInput
  rw [effective_ok h]
  refine NP.bind NP.ok fun v _ => NP.bind (NP.okOr (by decide)) fun _ _ => NP.bind (NP.okOr (by decide)) fun _ _ => NP.bind (NP.okOr (by decide)) fun _ _ => NP.pure

theorem addInputs_np {pay : Bool} : ∀ {gs : List (Group O)} {r : Result O}, Payable pay gs → NP (r.addInputs pay gs)
  | [], _, _ => NP.ok
  | g :: gs, r, h => by
    unfold Result.addInputs
    exact NP.bind (addInput_np (h g (by simp))) fun _ _ => addInputs_np (fun x hx => h x (List.mem_cons_of_mem _ hx))

/-- the waste of a finished result -/
def finalWaste (pay : Bool) (target cost : Nat) (sel : List (Group O)) (change : Nat) : Int :=
  wasteOf sel + (if change ≠ 0 then (cost : Int) else (total (worth pay) sel : Int) - target)

theorem finish_spec {pay : Bool} {target cost : Nat} {sel pool : List (Group O)} {r r' : Result O} (h : Rep pay target sel r) (hs : sel.Subperm pool)
    (hf : r.finish pay cost = .ok r') : Pays pay pool target cost sel r' ∧ r'.waste = finalWaste pay target cost sel r'.change ∧ r'.eff = r.eff ∧ r'.target = target := by
  simp only [Result.finish, Result.calcChange, bind_eq_ok, okOr_eq_ok, pure_eq_ok] at hf
  obtain ⟨c, ⟨d, h1, h2⟩, w, h3, rfl⟩ := hf
  obtain ⟨h1, h1'⟩ := sub_some.1 h1
  rw [h.eff, h.target] at h1 h1'
  have hc : c = if pay then (if total (worth pay) sel - target - cost < cost then 0 else total (worth pay) sel - target - cost)
      else (if total (worth pay) sel - target < cost then 0 else total (worth pay) sel - target) := by
    subst h1
    rw [← h2]
    cases pay with
    | false => rfl
    | true =>
      simp only [if_true]
      have : (Amt.sub (total (worth true) sel - target) cost).getD 0 = total (worth true) sel - target - cost := by
        unfold Amt.sub
        split
        · rfl
        · simp; omega
      rw [this]
  refine ⟨⟨hs, h.outputs, h.weight, h.fees, h1', ?_, ?_⟩, ?_, rfl, h.target⟩
  · dsimp only
    intro h0
    rw [hc] at h0 ⊢
    clear hc h2 h3
    cases pay
    · simp only [Bool.false_eq_true, if_false] at h0 ⊢
      split at h0
      · omega
      · next hge => rw [if_neg hge]; omega
    · simp only [if_true] at h0 ⊢
      split at h0
      · omega
      · next hge => rw [if_neg hge]; omega
  · dsimp only
    intro h0
    rw [hc] at h0
    cases pay <;> simp only [Bool.false_eq_true, if_false, if_true] at h0 ⊢ <;> split at h0 <;> omega
  · dsimp only
    unfold Result.lastWaste at h3
    unfold finalWaste
    split
    · next hne =>
      rw [if_pos hne] at h3
      simp only [okOr_eq_ok, Option.bind_eq_bind, Option.bind_eq_some_iff, signed_some, sadd_some] at h3
      obtain ⟨x, ⟨rfl, -⟩, h4, -⟩ := h3
      rw [h4, h.waste]
    · next hne =>
      rw [if_neg hne] at h3
      simp only [bind_eq_ok, okOr_eq_ok, Option.bind_eq_bind, Option.bind_eq_some_iff, signed_some, sadd_some, sub_some] at h3
      obtain ⟨y, ⟨rfl, -⟩, x, ⟨rfl, -⟩, h4, -⟩ := h3
      rw [h4, h.waste, h.eff, h.target]
      omega

theorem finish_np {pay : Bool} {cost : Nat} {r : Result O} (h : r.target ≤ r.eff) : NP (r.finish pay cost) := by
  unfold Result.finish
  have hs : Amt.sub r.eff r.target = some (r.eff - r.target) := sub_some.2 ⟨rfl, h⟩
  refine NP.bind ?_ fun c _ => NP.bind ?_ fun _ _ => NP.pure
  · unfold Result.calcChange
    exact NP.bind (NP.okOr_some hs) fun _ _ => NP.pure
  · unfold Result.lastWaste
    split
    · exact NP.okOr (by decide)
    · exact NP.bind (NP.okOr_some hs) fun _ _ => NP.okOr (by decide)

end Verif.Select
