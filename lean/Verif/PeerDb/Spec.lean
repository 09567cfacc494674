import Verif.PeerDb.Steps

/-! What is expected of the address book, stated over what has happened to it. -/

namespace Verif.PeerDb

open Verif

/-- a run that the clock allows: no event is later than `T`, `T` is not within a few days of the end of time (`2^64` seconds), the random
numbers are ones that `exponential_rand` gives, and there are fewer than `2^32 - 1` events (a counter is a `u32`) -/
structure Runs (T t0 : Nat) (steps : List Step) : Prop where
  start : t0 ≤ T
  fits : ∀ s ∈ steps, s.Fits T
  clock : T + 37 * (3600 * second) < maxTime
  count : steps.length + 1 < 2 ^ 32

/-- until when address `i` is banned -/
def banStep (i : Nat) (till : Option Nat) (s : Step) : Option Nat :=
  match s.ev with
  | .ban j dur => if j = i then some (satAdd s.now dur) else till
  | .unban j => if j = i then none else till
  | .heartbeat => match till with
    | some t => if s.now < t then some t else none
    | none => none
  | _ => till

/-- until when address `i` is discouraged; `dur` is the duration of the configuration -/
def discourageStep (dur i : Nat) (till : Option Nat) (s : Step) : Option Nat :=
  match s.ev with
  | .discourage j => if j = i then some (satAdd s.now dur) else till
  | .undiscourage j => if j = i then none else till
  | .heartbeat => match till with
    | some t => if s.now < t then some t else none
    | none => none
  | _ => till

/-- whether `a` is a reserved node -/
def reservedStep (a : Addr) (r : Bool) (s : Step) : Bool :=
  match s.ev with
  | .addReserved x => r || decide (x = a)
  | .removeReserved x => r && !decide (x = a)
  | .restart _ l => decide (a ∈ l)
  | _ => r

/-- the anchors: the last set -/
def anchorStep (l : List Addr) (s : Step) : List Addr :=
  match s.ev with
  | .setAnchors l' => l'
  | _ => l

/-- the address that an event is about; the lists of a start -/
def Event.Names (a : Addr) : Event → Prop
  | .discovered x | .failed x | .connected x _ | .disconnected x | .hadActivity x | .remove x | .addReserved x | .removeReserved x => x = a
  | .restart boot res => a ∈ boot ∨ a ∈ res
  | _ => False

/-- no node is reserved, and no list of boot nodes or reserved nodes is given -/
def Event.Plain : Event → Prop
  | .addReserved _ => False
  | .restart boot res => boot = [] ∧ res = []
  | _ => True

instance (e : Event) : Decidable e.Plain := by
  cases e <;> unfold Event.Plain <;> infer_instance

/-- an event about a connection, other than its beginning, is about an address that the book knows -/
def Event.Polite (b : Book) : Event → Prop
  | .failed a | .disconnected a | .hadActivity a | .removeReserved a => b.addresses.contains a = true
  | _ => True

/-- every event is so when it happens -/
def Polite (c : Cfg) : Book → List Step → Prop
  | _, [] => True
  | b, s :: l => s.ev.Polite b ∧ ∀ b', b.step c s = .ok b' → Polite c b' l

/-- a random choice of at most `count` elements in some order -/
def Samples (count : Nat) (sample : List Addr → List Addr) : Prop :=
  ∀ l, l.Nodup → (sample l).Nodup ∧ sample l ⊆ l ∧ (sample l).length = min count l.length

end Verif.PeerDb
