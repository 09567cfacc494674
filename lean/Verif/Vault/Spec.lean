import Verif.Vault.Model

/-!
# Specification: a safe with a password
-/

namespace Verif.Vault
open Verif Verif.Codec

variable {E : Env}

/-- What is assumed of the cryptography: decryption inverts encryption, and the idealisations that a ciphertext is refused
under any other key and that passwords do not collide. -/
structure Sound (E : Env) : Prop where
  round : ∀ k n m, E.decrypt k (E.encrypt k n m) = some m
  authentic : ∀ k k' n m, k' ≠ k → E.decrypt k' (E.encrypt k n m) = none
  distinct : ∀ s p p', E.kdf s p = E.kdf s p' → p = p'

/-- the safe: contents in the clear, the password, and whether it is locked -/
structure Safe (E : Env) where
  password : Option Bytes
  locked : Bool
  root : Option E.R
  seed : Option E.S
  keys : Nat → Option (Nat × E.P)

/-- an empty safe without password -/
def Safe.new : Safe E := ⟨none, false, none, none, fun _ => none⟩

/-- only while unlocked -/
def Safe.opened (v : Safe E) (x : Out E × Safe E) : Except Err (Out E × Safe E) :=
  if v.locked then .error .walletLocked else .ok x

/-- what a call does -/
def Safe.call (v : Safe E) : Call E → Except Err (Out E × Safe E)
  | .encrypt pw _ _ _ _ =>
    if v.locked then .error .walletLocked
    else if pw = some [] then .error .emptyPassword
    else .ok (.unit, { v with password := pw })
  | .unlock pw =>
    if v.locked = false then .error .alreadyUnlocked
    else if v.password = some pw then .ok (.unit, { v with locked := false })
    else .error .invalidPassword
  | .lock => if v.password.isNone then .error .lockedWithoutPassword else .ok (.unit, { v with locked := true })
  | .reopen => .ok (.unit, { v with locked := v.password.isSome })
  | .setRoot r _ => v.opened (.unit, { v with root := some r })
  | .delRoot => v.opened (.unit, { v with root := none })
  | .getRoot => v.opened (.root v.root, v)
  | .setSeed s _ => v.opened (.unit, { v with seed := some s })
  | .delSeed _ => v.opened (.seed v.seed, { v with seed := none })
  | .getSeed => v.opened (.seed v.seed, v)
  | .setKey id label p _ => v.opened (.unit, { v with keys := fun i => if i = id then some (label, p) else v.keys i })
  | .getKey id => v.opened (.key ((v.keys id).map (·.2)), v)
  | .getLabel id => .ok (.label ((v.keys id).map (·.1)), v)

/-- calls one after the other; a call that fails changes nothing -/
def Safe.run (v : Safe E) : List (Call E) → List (Except Err (Out E)) × Safe E
  | [] => ([], v)
  | c :: cs =>
    match v.call c with
    | .ok (o, v') => let (os, v'') := v'.run cs; (.ok o :: os, v'')
    | .error e => let (os, v'') := v.run cs; (.error e :: os, v'')

/-- the secrets given can be written -/
def Call.Ok : Call E → Prop
  | .setRoot r _ => E.cr.ok r
  | .setSeed s _ => E.cs.ok s
  | .setKey _ _ p _ => E.cp.ok p
  | _ => True

/-- a root key is in the safe whenever an attempt to unlock it is made (wallets with keys of their own, as opposed to those
whose keys are on a device) -/
def Safe.Rooted (v : Safe E) : List (Call E) → Prop
  | [] => True
  | c :: cs =>
    (∀ pw, c = .unlock pw → v.root.isSome) ∧
    match v.call c with
    | .ok (_, v') => v'.Rooted cs
    | .error _ => v.Rooted cs

end Verif.Vault
