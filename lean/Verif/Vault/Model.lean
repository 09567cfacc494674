import Verif.Base.BMap
import Verif.Codec.Base

/-!
# Model of the protection of secrets in the wallet's storage
-/

namespace Verif.Vault
open Verif Verif.Codec

/-- What the storage is built on.  `kdf` is `argon2id_hash` with the fixed parameters of `password_to_sym_key`
(wallet/storage/src/internal/password.rs 37-64; failures of the library, e.g. for passwords of 2^32 bytes, are left out),
`encrypt` and `decrypt` are those of `SymmetricKey` (crypto/src/symkey/mod.rs 81-102) without associated data; the random
nonce is a parameter.  `R`, `S`, `P` are the types `RootKeys`, `SerializableSeedPhrase`, `PrivateKey`; `zero` is
`zero_seed_phrase()`. -/
structure Env where
  Key : Type
  Salt : Type
  Nonce : Type
  R : Type
  S : Type
  P : Type
  kdf : Salt → Bytes → Key
  encrypt : Key → Nonce → Bytes → Bytes
  decrypt : Key → Bytes → Option Bytes
  cr : Codec R
  cs : Codec S
  cp : Codec P
  zero : S

variable {E : Env}

/-- `MaybeEncrypted::new` – utils/src/maybe_encrypted.rs 46-72 -/
def wrap {A : Type} (c : Codec A) (key : Option E.Key) (n : E.Nonce) (a : A) : Bytes :=
  match key with
  | some k => E.encrypt k n (c.enc a)
  | none => c.enc a

/-- `MaybeEncryptedError` – 26-33 -/
inductive TakeErr
  | decryption
  | decoding

/-- `T::decode_all` -/
def decodeAll' {A : Type} (c : Codec A) (m : Bytes) : Except TakeErr A :=
  match c.decodeAll m with
  | some a => .ok a
  | none => .error .decoding

/-- `try_decrypt_then_take` – 97-104 -/
def takeSealed {A : Type} (c : Codec A) (k : E.Key) (b : Bytes) : Except TakeErr A :=
  match E.decrypt k b with
  | some m => decodeAll' c m
  | none => .error .decryption

/-- `try_take` – 86-91 -/
def take {A : Type} (c : Codec A) (key : Option E.Key) (b : Bytes) : Except TakeErr A :=
  match key with
  | some k => takeSealed c k b
  | none => decodeAll' c b

/-- The tables with secrets and the challenge (wallet/storage/src/schema.rs 44, 54, 64;
`well_known::EncryptionKeyKdfChallenge`).  The keys of the first two tables are constants.  Accounts with public keys, and
labels, are numbers. -/
structure Db (E : Env) where
  challenge : Option E.Salt
  root : Option Bytes
  seed : Option Bytes
  keys : BMap Nat (Nat × Bytes)

/-- `EncryptionState` – wallet/storage/src/internal/store_tx.rs 88-95 -/
inductive EncState (E : Env)
  | locked
  | unlocked (key : Option E.Key)

/-- `Store` – wallet/storage/src/internal/mod.rs 31-34 -/
structure Store (E : Env) where
  db : Db E
  enc : EncState E

/-- errors of the storage; `panic` is a panic -/
inductive Err
  | walletLocked
  | invalidPassword
  | emptyPassword
  | alreadyUnlocked
  | lockedWithoutPassword
  | panic
deriving DecidableEq

/-- `.expect("key was checked when unlocked")` -/
def expect {A : Type} : Except TakeErr A → Except Err A
  | .ok a => .ok a
  | .error _ => .error .panic

/-- `Store::new` – 39-54 -/
def Store.openDb (db : Db E) : Store E :=
  ⟨db, if db.challenge.isSome then .locked else .unlocked none⟩

/-- `encrypt_root_keys`, `encrypt_seed_phrase` – store_tx.rs 816-854: tables with at most one entry -/
def reseal {A : Type} (c : Codec A) (old new : Option E.Key) (n : E.Nonce) : Option Bytes → Except Err (Option Bytes)
  | none => .ok none
  | some b => do
    let a ← expect (take c old b)
    pure (some (wrap c new n a))

/-- the entries of `encrypt_standalone_private_keys` – 860-878 -/
def resealEntries (old new : Option E.Key) (rng : Nat → E.Nonce) :
    List (Nat × (Nat × Bytes)) → Except Err (List (Nat × (Nat × Bytes)))
  | [] => .ok []
  | (id, (label, b)) :: rest => do
    let a ← expect (take E.cp old b)
    let rest ← resealEntries old new rng rest
    pure ((id, (label, wrap E.cp new (rng id) a)) :: rest)

/-- the writes of `encrypt_standalone_private_keys` – 879-881 -/
def writeEntries (m : BMap Nat (Nat × Bytes)) (es : List (Nat × (Nat × Bytes))) : BMap Nat (Nat × Bytes) :=
  es.foldl (fun m e => m.insert e.1 e.2) m

/-- `encrypt_root_keys`, `encrypt_seed_phrase`, `encrypt_standalone_private_keys` one after the other -/
def resealAll (db : Db E) (challenge : Option E.Salt) (old new : Option E.Key) (n1 n2 : E.Nonce) (rng : Nat → E.Nonce) :
    Except Err (Db E) := do
  let root ← reseal E.cr old new n1 db.root
  let seed ← reseal E.cs old new n2 db.seed
  let es ← resealEntries old new rng db.keys.entries
  pure ⟨challenge, root, seed, writeEntries db.keys es⟩

/-- `password_to_sym_key` – password.rs 37-64 -/
def passwordToKey (pw : Bytes) (salt : E.Salt) : Except Err (E.Key × E.Salt) :=
  if pw.isEmpty then .error .emptyPassword else .ok (E.kdf salt pw, salt)

/-- `encrypt_private_keys` – mod.rs 90-111.  `transaction_rw_unlocked` refuses while locked (191-203); the transaction is
dropped on error. -/
def Store.encryptPrivateKeys (s : Store E) (pw : Option Bytes) (salt : E.Salt) (n1 n2 : E.Nonce) (rng : Nat → E.Nonce) :
    Except Err (Store E) :=
  match s.enc with
  | .locked => .error .walletLocked
  | .unlocked old =>
    match pw with
    | none => do
      let db ← resealAll s.db none old none n1 n2 rng
      pure ⟨db, .unlocked none⟩
    | some pw => do
      let (key, challenge) ← passwordToKey pw salt
      let db ← resealAll s.db (some challenge) old (some key) n1 n2 rng
      pure ⟨db, .unlocked (some key)⟩

/-- `check_can_decrypt_all_root_keys` – store_tx.rs 529-549 -/
def checkRootKeys (db : Db E) (key : E.Key) : Except Err Unit :=
  match db.root with
  | none => .ok ()
  | some b =>
    match takeSealed E.cr key b with
    | .ok _ => .ok ()
    | .error .decryption => .error .invalidPassword
    | .error .decoding => .error .panic

/-- `unlock_private_keys` – mod.rs 116-135 -/
def Store.unlockPrivateKeys (s : Store E) (pw : Bytes) : Except Err (Store E) :=
  match s.enc with
  | .unlocked _ => .error .alreadyUnlocked
  | .locked =>
    match s.db.challenge with
    | some salt => do
      let key := E.kdf salt pw
      checkRootKeys s.db key
      pure { s with enc := .unlocked (some key) }
    | none => .error .panic

/-- `lock_private_keys` – mod.rs 139-149 -/
def Store.lockPrivateKeys (s : Store E) : Except Err (Store E) :=
  match s.enc with
  | .locked => .ok s
  | .unlocked none => .error .lockedWithoutPassword
  | .unlocked (some _) => .ok { s with enc := .locked }

/-- what is called; each call is a transaction of its own -/
inductive Call (E : Env)
  | encrypt (pw : Option Bytes) (salt : E.Salt) (n1 n2 : E.Nonce) (rng : Nat → E.Nonce)
  | unlock (pw : Bytes)
  | lock
  | reopen
  | setRoot (r : E.R) (n : E.Nonce)
  | delRoot
  | getRoot
  | setSeed (s : E.S) (n : E.Nonce)
  | delSeed (n : E.Nonce)
  | getSeed
  | setKey (id label : Nat) (p : E.P) (n : E.Nonce)
  | getKey (id : Nat)
  | getLabel (id : Nat)

/-- what is returned -/
inductive Out (E : Env)
  | unit
  | root (r : Option E.R)
  | seed (s : Option E.S)
  | key (p : Option E.P)
  | label (l : Option Nat)

/-- `transaction_ro_unlocked`, `transaction_rw_unlocked` – mod.rs 170-179, 191-203 -/
def withKey {A : Type} (s : Store E) (f : Option E.Key → Except Err A) : Except Err A :=
  match s.enc with
  | .locked => .error .walletLocked
  | .unlocked key => f key

/-- reading a secret: `get_root_key`, `get_seed_phrase`, `get_account_standalone_private_key` – store_tx.rs 556-583 -/
def getSecret {A : Type} (c : Codec A) (key : Option E.Key) : Option Bytes → Except Err (Option A)
  | none => .ok none
  | some b => (expect (take c key b)).map some

/-- the calls; `reopen` closes the wallet and opens the file again -/
def Store.call (s : Store E) : Call E → Except Err (Out E × Store E)
  | .encrypt pw salt n1 n2 rng => (s.encryptPrivateKeys pw salt n1 n2 rng).map fun s => (.unit, s)
  | .unlock pw => (s.unlockPrivateKeys pw).map fun s => (.unit, s)
  | .lock => s.lockPrivateKeys.map fun s => (.unit, s)
  | .reopen => .ok (.unit, .openDb s.db)
  -- `set_root_key`, `del_root_key` – 887-897
  | .setRoot r n => withKey s fun key => .ok (.unit, { s with db := { s.db with root := some (wrap E.cr key n r) } })
  | .delRoot => withKey s fun _ => .ok (.unit, { s with db := { s.db with root := none } })
  | .getRoot => withKey s fun key => (getSecret E.cr key s.db.root).map fun r => (.root r, s)
  -- `set_seed_phrase` – 914-917
  | .setSeed p n => withKey s fun key => .ok (.unit, { s with db := { s.db with seed := some (wrap E.cs key n p) } })
  -- `del_seed_phrase` – 919-926: the entry is overwritten and then deleted
  | .delSeed n => withKey s fun key => do
    let p ← getSecret E.cs key s.db.seed
    let db := { s.db with seed := some (wrap E.cs key n E.zero) }
    pure (.seed p, { s with db := { db with seed := none } })
  | .getSeed => withKey s fun key => (getSecret E.cs key s.db.seed).map fun p => (.seed p, s)
  -- `set_standalone_private_key` – 899-912
  | .setKey id label p n => withKey s fun key =>
    .ok (.unit, { s with db := { s.db with keys := s.db.keys.insert id (label, wrap E.cp key n p) } })
  | .getKey id => withKey s fun key => (getSecret E.cp key ((s.db.keys.get id).map (·.2))).map fun p => (.key p, s)
  -- `get_account_standalone_private_keys` – 282-291, for one account
  | .getLabel id => .ok (.label ((s.db.keys.get id).map (·.1)), s)

/-- results of calls one after the other; a call that fails changes nothing -/
def Store.run (s : Store E) : List (Call E) → List (Except Err (Out E)) × Store E
  | [] => ([], s)
  | c :: cs =>
    match s.call c with
    | .ok (o, s') => let (os, s'') := s'.run cs; (.ok o :: os, s'')
    | .error e => let (os, s'') := s.run cs; (.error e :: os, s'')

/-- a new wallet file -/
def Store.new : Store E := .openDb ⟨none, none, none, BMap.empty⟩

/-- `is_encrypted` – mod.rs 74-79 -/
def Store.isEncrypted (s : Store E) : Bool :=
  match s.enc with
  | .locked | .unlocked (some _) => true
  | .unlocked none => false

/-- `is_locked` – mod.rs 81-86 -/
def Store.isLocked (s : Store E) : Bool :=
  match s.enc with
  | .locked => true
  | .unlocked _ => false

end Verif.Vault
