import Verif.Store.Model

/-!
# Specification vocabulary for storage
-/

namespace Verif.Store
open Verif Verif.Codec

/-- `es` lists the entries of the map `f` whose keys satisfy `p`, in ascending order of keys, each once -/
def Lists {A : Type} (es : List (Data × A)) (f : Data → Option A) (p : Data → Prop) : Prop :=
  es.Pairwise (fun a b => a.1 < b.1) ∧ ∀ k v, (k, v) ∈ es ↔ f k = some v ∧ p k

/-- plain maps, one for each index -/
abbrev Plain := Nat → Data → Option Data

/-- writing to plain maps -/
def Plain.set (p : Plain) (i : Nat) (k : Data) (v : Option Data) : Plain :=
  fun j k' => if j = i ∧ k' = k then v else p j k'

/-- what storage is meant to be: committed contents, readers, and a writer's private copy of the contents -/
structure Ideal where
  committed : Plain
  readers : Nat
  working : Option Plain

/-- a call on it -/
def Ideal.call (s : Ideal) : Call → Option Ideal
  | .openRo => if s.working.isNone then some { s with readers := s.readers + 1 } else none
  | .closeRo => if 0 < s.readers then some { s with readers := s.readers - 1 } else none
  | .openRw => if s.working.isNone ∧ s.readers = 0 then some { s with working := some s.committed } else none
  | .put i k v => s.working.map fun w => { s with working := some (w.set i k (some v)) }
  | .del i k => s.working.map fun w => { s with working := some (w.set i k none) }
  | .commit => s.working.map fun w => { s with committed := w, working := none }
  | .abort => s.working.map fun _ => { s with working := none }

/-- calls one after the other -/
def Ideal.run (s : Ideal) : List Call → Option Ideal
  | [] => some s
  | c :: cs => (s.call c).bind fun s' => s'.run cs

/-- calls one after the other -/
def Shared.run (n : Nat) (s : Shared) : List Call → Option Shared
  | [] => some s
  | c :: cs => (s.call n c).bind fun s' => s'.run n cs


/-- empty storage -/
def Ideal.new : Ideal := ⟨fun _ _ => none, 0, none⟩

/-- reading through a writer shows exactly the contents `w` of the first `n` maps -/
def ShowsRw (n : Nat) (t : TxRw) (w : Plain) : Prop :=
  ∀ i < n, (∀ k, t.get i k = w i k) ∧ (∀ pre, Lists (t.prefixIter i pre) (w i) (pre <+: ·)) ∧
    ∀ key, Lists (t.geIter i key) (w i) (key ≤ ·)

/-- reading through a reader shows exactly the contents `w` of the first `n` maps -/
def ShowsRo (n : Nat) (db : Maps) (w : Plain) : Prop :=
  ∀ i < n, (∀ k, db.get i k = w i k) ∧ (∀ pre, Lists (db.prefixIter i pre) (w i) (pre <+: ·)) ∧
    ∀ key, Lists (db.geIter i key) (w i) (key ≤ ·)

/-- everything that can be read is as it is meant to be -/
def Agree (n : Nat) (s : Shared) (p : Ideal) : Prop :=
  s.readers = p.readers ∧ ShowsRo n s.db p.committed ∧
    match s.writer, p.working with
    | none, none => True
    | some t, some w => ShowsRw n t w
    | _, _ => False

end Verif.Store
