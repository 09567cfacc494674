import Verif.Hd.Model
import Verif.Decimal.Spec

/-!
# What derivation paths and derived keys should be
-/

namespace Verif.Hd
open Verif Verif.Decimal
open Verif.Codec (Bytes)

/-- a decimal numeral without leading zeros -/
def Numeral (l : List Char) (n : Nat) : Prop :=
  l ≠ [] ∧ AllDigits l ∧ (1 < l.length → l.head? ≠ some '0') ∧ num l = n

/-- texts of child numbers: the numeral of a normal one; numeral and mark of a hardened one -/
inductive ChildText : List Char → Nat → Prop
  | normal {l : List Char} {n : Nat} (h : Numeral l n) (hn : n < 2147483648) : ChildText l n
  | hardened {l : List Char} {n : Nat} {mark : Char} (h : Numeral l n) (hn : n < 2147483648)
      (hm : mark = '\'' ∨ mark = 'h') : ChildText (l ++ [mark]) (2147483648 + n)

/-- texts of paths: `m` and then, for each child number, a slash and its text -/
def PathText (s : List Char) (p : List Nat) : Prop :=
  p.length ≤ 255 ∧ ∃ parts, s = 'm' :: (parts.map fun x => '/' :: x).flatten ∧ List.Forall₂ ChildText parts p

/-- paths that can be represented -/
def ValidPath (p : List Nat) : Prop := p.length ≤ 255 ∧ ∀ c ∈ p, c < 4294967296

/-- what is known of the curve and the serialization of points: the generator has order `n`, which is at most `2 ^ 256`; points are
serialized to 33 bytes beginning with 2 or 3, different ones differently -/
structure Sound (C : Curve) : Prop where
  order : ∀ k : Nat, k • C.g = 0 ↔ C.n ∣ k
  bound : C.n ≤ 2 ^ 256
  ser_shape : ∀ q, ∃ b t, C.ser q = b :: t ∧ (b = 2 ∨ b = 3) ∧ t.length = 32
  ser_inj : Function.Injective C.ser

/-- `p` leads from `a` at least one step down -/
def Below (a p : List Nat) : Prop := ∃ d, d ≠ [] ∧ p = a ++ d

end Verif.Hd
