import Verif.Orders.Model

/-!
# Specification vocabulary for orders
-/

namespace Verif.Orders
open Verif

/-- amount of an output value, for the supported kinds -/
def amountOf : OutputValue → Option Nat
  | .coin a => some a
  | .tokenV1 _ a => some a
  | .tokenV0 => none

/-- What is known about one order id: `od` its data if it exists, `a`/`g` the remaining asked/offered balances.
No order: nothing remains.  An order: both original amounts are positive 127-bit numbers, what remains does not
exceed them, and the remaining offer suffices to pay for the remaining ask at the original price. -/
def Sound (od : Option OrderData) (a g : Nat) : Prop :=
  match od with
  | none => a = 0 ∧ g = 0
  | some d => ∃ oa og, amountOf d.ask = some oa ∧ amountOf d.give = some og ∧
      0 < oa ∧ 0 < og ∧ oa < 2^127 ∧ og < 2^127 ∧ a ≤ oa ∧ g ≤ og ∧ og * a ≤ g * oa

/-- every id can be queried and the answers are sound -/
def SoundView (v : View) : Prop :=
  ∀ id, ∃ od a g, v.data id = .ok od ∧ v.ask id = .ok a ∧ v.give id = .ok g ∧ Sound od a g

/-- account of an order kept by an outside observer who sees only the reported results -/
structure Ledger where
  asked : Nat
  offered : Nat
  filled : Nat
  paid : Nat
  deriving DecidableEq, Repr

/-- observer's books: one account per open order -/
abbrev Books := OrderId → Option Ledger

/-- book-keeping for one reported operation -/
def book (b : Books) : Undo → Books
  | .create id _ asked offered => fun i => if i = id then some ⟨asked, offered, 0, 0⟩ else b i
  | .fill id inp out => fun i =>
    if i = id then (b i).map (fun l => { l with filled := l.filled + inp, paid := l.paid + out }) else b i
  | .conclude id _ _ _ => fun i => if i = id then none else b i
  | .freeze _ _ => b

/-- the books agree with the reported state of an order -/
def Matches (l : Option Ledger) (od : Option OrderData) (a g : Nat) : Prop :=
  match l, od with
  | none, none => a = 0 ∧ g = 0
  | some l, some d => amountOf d.ask = some l.asked ∧ amountOf d.give = some l.offered ∧
      a + l.filled = l.asked ∧ g + l.paid = l.offered
  | _, _ => False

/-- the books agree with a view on every id -/
def MatchesView (b : Books) (v : View) : Prop :=
  ∀ id, ∃ od a g, v.data id = .ok od ∧ v.ask id = .ok a ∧ v.give id = .ok g ∧ Matches (b id) od a g

/-- empty database -/
def emptyDB : DB := ⟨BMap.empty, BMap.empty, BMap.empty⟩

/-- fresh cache on top of a parent -/
def Cache.new (parent : View) : Cache := ⟨parent, Delta.empty⟩

end Verif.Orders
