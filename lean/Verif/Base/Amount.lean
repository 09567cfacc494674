import Mathlib.Tactic.Ring
import Mathlib.Tactic.Linarith

/-!
# Amounts

Model of `common/src/primitives/amount/mod.rs` and `signed.rs`.
`Amount` (u128, mod.rs 55-58) is a `Nat`, `SignedAmount` (i128, signed.rs 30-32) an `Int`; every operation
is checked against the range, exactly as `checked_add` and friends do, so values outside the range cannot
be produced.
-/

namespace Verif

/-- 2^128 -/
def U128 : Nat := 340282366920938463463374607431768211456
/-- 2^127 -/
def I128 : Int := 170141183460469231731687303715884105728

namespace Amt

/-- `impl Add for Amount` – amount/mod.rs 105-111 -/
def add (a b : Nat) : Option Nat := if a + b < U128 then some (a + b) else none
/-- `impl Sub for Amount` – amount/mod.rs 113-119 -/
def sub (a b : Nat) : Option Nat := if b ≤ a then some (a - b) else none
/-- `impl Mul<u128> for Amount` – amount/mod.rs 121-127 -/
def mul (a b : Nat) : Option Nat := if a * b < U128 then some (a * b) else none
/-- `impl Div<u128> for Amount` – amount/mod.rs 129-135 -/
def div (a b : Nat) : Option Nat := if b = 0 then none else some (a / b)
/-- `impl Rem<u128> for Amount` – amount/mod.rs 137-143 -/
def rem (a b : Nat) : Option Nat := if b = 0 then none else some (a % b)
/-- `Amount::into_signed` – amount/mod.rs 78-82 (`SignedAmount::from_unsigned`, signed.rs 47-51, is the same) -/
def intoSigned (a : Nat) : Option Int := if (a : Int) < I128 then some (a : Int) else none
/-- `Amount::abs_diff` – amount/mod.rs 92-98; the two `expect`s cannot fire since the subtraction is
guarded by the comparison. -/
def absDiff (a b : Nat) : Nat := if a > b then a - b else b - a
/-- `impl Sum<Amount> for Option<Amount>` – amount/mod.rs 219-226 -/
def sum (l : List Nat) : Option Nat := l.foldlM add 0

end Amt

namespace SAmt

/-- representable as `i128` -/
def InRange (x : Int) : Prop := -I128 ≤ x ∧ x < I128

instance (x : Int) : Decidable (InRange x) := by unfold InRange; infer_instance

/-- result of a checked i128 operation -/
def chk (x : Int) : Option Int := if InRange x then some x else none

/-- `impl Add for SignedAmount` – signed.rs 94-100 -/
def add (a b : Int) : Option Int := chk (a + b)
/-- `impl Sub for SignedAmount` – signed.rs 102-108 -/
def sub (a b : Int) : Option Int := chk (a - b)
/-- `impl Mul<i128> for SignedAmount` – signed.rs 110-116 -/
def mul (a b : Int) : Option Int := chk (a * b)
/-- `impl Div<i128> for SignedAmount` – signed.rs 118-124 (Rust division truncates towards zero;
`MIN / -1` overflows and is refused) -/
def div (a b : Int) : Option Int := if b = 0 then none else chk (a.tdiv b)
/-- `impl Rem<i128> for SignedAmount` – signed.rs 126-132; `checked_rem` refuses `MIN % -1`
because the division overflows -/
def rem (a b : Int) : Option Int :=
  if b = 0 then none else if a = -I128 ∧ b = -1 then none else some (a.tmod b)
/-- `impl Neg for SignedAmount` – signed.rs 143-149 -/
def neg (a : Int) : Option Int := chk (-a)
/-- `SignedAmount::into_unsigned` – signed.rs 53-57 (`Amount::from_signed`, mod.rs 72-76, is the same) -/
def intoUnsigned (a : Int) : Option Nat := if 0 ≤ a then some a.toNat else none
/-- `impl Sum<SignedAmount>` – signed.rs 134-141 -/
def sum (l : List Int) : Option Int := l.foldlM add 0

end SAmt

/-- `Option::ok_or(e)?` -/
def okOr {E A : Type} (o : Option A) (e : E) : Except E A :=
  match o with
  | none => .error e
  | some a => .ok a

@[simp] theorem okOr_eq_ok {E A : Type} {o : Option A} {e : E} {a : A} :
    okOr o e = .ok a ↔ o = some a := by
  cases o <;> simp [okOr]

/-- `utils::ensure!(c, e)` -/
def ensure {E : Type} (c : Prop) [Decidable c] (e : E) : Except E Unit :=
  if c then .ok () else .error e

/-- the computation succeeds and its result passes the test (used to state concrete cases) -/
def okAnd {E A : Type} (x : Except E A) (P : A → Bool) : Bool :=
  match x with
  | .ok a => P a
  | .error _ => false

theorem okAnd_spec {E A : Type} {x : Except E A} {P : A → Bool} (h : okAnd x P = true) :
    ∃ a, x = .ok a ∧ P a = true := by
  cases x with
  | ok a => exact ⟨a, rfl, h⟩
  | error e => cases h

@[simp] theorem ensure_eq_ok {E : Type} {c : Prop} [Decidable c] {e : E} {u : Unit} :
    ensure c e = .ok u ↔ c := by
  unfold ensure; split <;> simp_all

/-- inversion of a successful bind -/
theorem bind_eq_ok {E A B : Type} {x : Except E A} {f : A → Except E B} {b : B} :
    (x >>= f) = .ok b ↔ ∃ a, x = .ok a ∧ f a = .ok b := by
  cases x with
  | error e => simp [bind, Except.bind]
  | ok a => simp [bind, Except.bind]

@[simp] theorem pure_eq_ok {E A : Type} {a b : A} : (pure a : Except E A) = .ok b ↔ a = b := by
  simp [pure, Except.pure]

end Verif
