import Verif.TokenInfo.Model
import Verif.Tokens.Rep
import Verif.Tokens.Spec

/-!
# Specification vocabulary for the wallet's idea of a token's state
-/

namespace Verif.TokenInfo
open Verif
open Verif.Tokens (TokenId TokenData TotalSupply Frozen Cache Readable)

/-- the transactions go into the ledger one after the other, and supplies stay readable, that is below 2^127 -/
inductive Run : Cache → List Tx → Cache → Prop
  | nil (c : Cache) : Run c [] c
  | cons {c c1 c2 : Cache} {tx : Tx} {txs : List Tx} :
      connectTx c tx = .ok c1 → Readable c1 → Run c1 txs c2 → Run c (tx :: txs) c2

/-- the ledger shows token `id` with data `d` and `n` units in circulation -/
def Shows (c : Cache) (id : TokenId) (d : TokenData) (n : Nat) : Prop :=
  c.view.data id = .ok (some d) ∧ c.view.supply id = .ok n

/-- what every ledger state satisfies: all supplies are below 2^127 whatever the layering, only lockable supplies are
locked, caps are respected -/
def Sound (c : Cache) : Prop :=
  ∃ s, Tokens.Rep c s ∧ s.LockedOk ∧ ∀ id d l, s.data id = some d → d.totalSupply = .fixed l → s.supply id ≤ l

/-- the supply state of a token with data `d` and `n` units in circulation -/
def supplyOf (d : TokenData) (n : Nat) : Supply :=
  match d.totalSupply, d.locked with
  | .fixed l, _ => .fixed l n
  | .lockable, false => .lockable n
  | .lockable, true => .locked n
  | .unlimited, _ => .unlimited n

/-- no unmint command of the transaction comes without burnt tokens -/
def Burning (tx : Tx) : Prop := ∀ id, .unmint id ∈ tx.commands → burned id tx.burns ≠ some 0

/-- a transaction the ledger can take now -/
def Takes (c : Cache) (tx : Tx) : Prop := ∃ c', connectTx c tx = .ok c' ∧ Readable c'

end Verif.TokenInfo
