import Verif.Policy.FrozenProps
import Verif.Policy.NodeRangeExample

/-!
# C56 on a chain with a frozen token

The first three blocks are those of C55; then the token is frozen.
-/

set_option maxRecDepth 100000

namespace Verif.Policy
open Verif
open Verif.Codec
open Verif.Verifier (Src Effect Out Tx Block Views Env Ledger)

/-- the token is frozen -/
def fz1 : TransactionV1 := ⟨0, [.accountCommand 1 (.freezeToken ndToken .yes), ndOut nd5 2], [.transfer (.coin 9600) dest]⟩
/-- coins are paid, and the order is frozen -/
def fz2 : TransactionV1 := ⟨0, [.orderAccountCommand (.freezeOrder ndOrder), ndOut nd6 1], [.transfer (.coin 3700) dest]⟩
/-- units of the token are sent on -/
def fzSend : TransactionV1 := ⟨0, [ndOut nd5 1, ndOut fz1 0], [.transfer (.tokenV1 ndToken 450) dest, .transfer (.coin 9500) dest]⟩
/-- units of the token are spent and not sent anywhere -/
def fzLose : TransactionV1 := ⟨0, [ndOut nd5 1, ndOut fz1 0], [.transfer (.coin 9500) dest]⟩
/-- the order is filled -/
def fzFill : TransactionV1 := ⟨0, [.orderAccountCommand (.fillOrder ndOrder 20), ndOut nd6 1],
  [.transfer (.tokenV1 ndToken 10) dest, .transfer (.coin 3700) dest]⟩
/-- more of it is minted -/
def fzMint : TransactionV1 := ⟨0, [.accountCommand 2 (.mintTokens ndToken 500), ndOut fz1 0],
  [.transfer (.tokenV1 ndToken 500) dest, .transfer (.coin 9500) dest]⟩
/-- it is unfrozen -/
def fzThaw : TransactionV1 := ⟨0, [.accountCommand 2 (.unfreezeToken ndToken), ndOut fz1 0], [.transfer (.coin 9500) dest]⟩

/-- like `ndNode`, with numbers for fees with tokens left over -/
def fzNode (v1 : Bool) : Node := { ndNode with
  frozenV1 := fun _ => v1
  fee := fun n => ⟨BMap.ofList ((Accumulator.coin, n / 3) :: if n % 3 = 0 then [] else
    [(Accumulator.token (num ndToken), if n % 3 = 1 then 0 else 450)]), BMap.empty⟩ }

def fzTxs (c : TransactionV1) : List (List TransactionV1) := [[nd1, nd2], [nd3, nd4], [nd5, nd6], [fz1], [c]]

def fzRewards : List RewardTx := ndRewards ++ [⟨none, []⟩]

def fzEnv (v1 : Bool) (c : TransactionV1) : Env := (fzNode v1).envOf ⟨0, 0, 0⟩ ((fzTxs c).flatten.map ndSigned) fzRewards

def fzChain (c : TransactionV1) : List Block :=
  let ids := [ndGen, List.replicate 32 2, ndB2, ndB3, List.replicate 32 5, List.replicate 32 6].map num
  (List.range 5).map fun i => ndBlock (ids.getD (i + 1) 0) (ids.getD i 0) (i + 1) ((fzTxs c).getD i []) (fzRewards.getD i ⟨none, []⟩)

def fzUnits (l : Ledger) : Nat := (l.utxo.utxos.entries.map fun e => units (num ndToken) (ndNode.read e.2.output.content)).sum

def fzRun (v1 : Bool) (c : TransactionV1) : Option (Nat × Nat × (Nat × Nat)) :=
  (ndGenesis.connects (fzEnv v1 c) (fzChain c)).toOption.map fun l => (fzUnits l, l.supply (num ndToken), orderLeft l (num ndOrder))

-- sending, losing, trading and minting units are refused
example : fzRun true fz2 = some (450, 500, 100, 50) := by decide +kernel
example : fzRun true fzSend = none := by decide +kernel
example : fzRun true fzLose = none := by decide +kernel
example : fzRun true fzFill = none := by decide +kernel
example : fzRun true fzMint = none := by decide +kernel
example : fzRun true fzThaw = some (450, 500, 100, 50) := by decide +kernel
-- with the first version of the check units can be lost
example : fzRun false fzSend = none := by decide +kernel
example : fzRun false fzLose = some (0, 500, 100, 50) := by decide +kernel

/-! ### The theorems apply -/

theorem fz_signed : ∀ c ∈ (fzTxs fz2).flatten.map ndSigned, (SignedTransaction.codec exCrypto).ok c := by
  have h : ∀ c ∈ (fzTxs fz2).flatten.map ndSigned,
      (SignedTransaction.codec exCrypto).decodeAll ((SignedTransaction.codec exCrypto).enc c) = some c := by
    decide +kernel
  exact fun c hc => ok_of_decode (SignedTransaction.lawful _) (h c hc)

theorem fz_rewards : ∀ r ∈ fzRewards, ∀ o ∈ r.outputs, (TxOutput.codec exCrypto).ok o := by
  have h : ∀ r ∈ fzRewards, ∀ o ∈ r.outputs, (TxOutput.codec exCrypto).decodeAll ((TxOutput.codec exCrypto).enc o) = some o := by
    decide +kernel
  exact fun r hr o ho => ok_of_decode (TxOutput.lawful _) (h r hr o ho)

theorem fz_enforces : (fzNode true).Enforces (fzEnv true fz2) := Node.enforces_envOf fz_signed fz_rewards

theorem fz_written : Node.Written (fzNode true) (fzChain fz2) (fzTxs fz2) := by
  refine ⟨?_, ?_⟩
  · have h : (List.range 5).all (fun i => decide ((((fzTxs fz2).getD i []).filterMap (ndNode.tx ⟨0, 0, 0⟩)).map some =
      ((fzTxs fz2).getD i []).map (ndNode.tx ⟨0, 0, 0⟩))) = true := by decide +kernel
    simp only [List.all_eq_true, decide_eq_true_eq, List.mem_range] at h
    exact .cons (h 0 (by decide)) (.cons (h 1 (by decide)) (.cons (h 2 (by decide)) (.cons (h 3 (by decide)) (.cons (h 4 (by decide)) .nil))))
  · have h : ∀ c ∈ (fzTxs fz2).flatten, (TransactionV1.codec exCrypto).decodeAll ((TransactionV1.codec exCrypto).enc c) = some c := by
      decide +kernel
    exact fun c hc => ok_of_decode (TransactionV1.lawful _) (h c hc)

theorem fz_noClash : Node.NoClash (fzNode true) (fzTxs fz2).flatten := by
  have h : ∀ x ∈ (fzTxs fz2).flatten.flatMap (Node.hashedFor exCrypto), ∀ y ∈ (fzTxs fz2).flatten.flatMap (Node.hashedFor exCrypto),
      toyHash x = toyHash y → x = y := by decide +kernel
  exact fun x hx y hy hc => hc.1 (h x hx y hy hc.2)

theorem fz_fine : Node.Fine (fzNode true) ndGenesis (fzChain fz2) (fzTxs fz2) where
  written := fz_written
  noClash := fz_noClash
  ids := by decide +kernel
  linked := ⟨rfl, rfl, rfl, rfl, rfl, trivial⟩
  stakers := ⟨nd_stakers.tables, fun _ => rfl, fun _ _ _ _ => rfl⟩
  coins := by
    have e2 : ((fzChain fz2).map fun b => ((fzNode true).subsidy b.height : Int)).sum = 265 := by decide +kernel
    have e3 : ndGenesis.holds (fzNode true).read 0 = 40000 := by decide +kernel
    unfold Verifier.Affordable
    rw [e2, e3]
    norm_num

theorem connects_of {env : Env} {l : Ledger} {bs : List Block} (h : (l.connects env bs).toOption.isSome = true) :
    ∃ l', l.connects env bs = .ok l' := by
  cases hx : l.connects env bs with
  | error e => rw [hx] at h; cases h
  | ok l' => exact ⟨l', rfl⟩

example : ∃ l l' d, Node.Frozen (fzNode true) (fzEnv true fz2) ndGenesis l l' ((fzChain fz2).take 4) ((fzChain fz2).drop 4) (num ndToken) d ∧
    fzUnits l = 450 ∧ l'.supply (num ndToken) = 500 := by
  obtain ⟨l', h'⟩ := connects_of (show (ndGenesis.connects (fzEnv true fz2) (fzChain fz2)).toOption.isSome = true by decide +kernel)
  obtain ⟨l, h⟩ := connects_of (show (ndGenesis.connects (fzEnv true fz2) ((fzChain fz2).take 4)).toOption.isSome = true by decide +kernel)
  have e1 : (ndGenesis.connects (fzEnv true fz2) ((fzChain fz2).take 4)).toOption.map (fun l =>
      (fzUnits l, l.supply (num ndToken), (l.tokens.data.get (num ndToken)).map Tokens.TokenData.isFrozen)) = some (450, 500, some true) := by
    decide +kernel
  rw [h] at e1
  simp only [Except.toOption, Option.map_some, Option.some.injEq, Prod.mk.injEq, Option.map_eq_some_iff] at e1
  obtain ⟨a1, a2, d, a3, a4⟩ := e1
  have hz : Node.Frozen (fzNode true) (fzEnv true fz2) ndGenesis l l' ((fzChain fz2).take 4) ((fzChain fz2).drop 4) (num ndToken) d :=
    { wf := ndGenesis_wf
      origin := nd_origin
      fine := ⟨_, by rw [List.take_append_drop]; exact fz_fine⟩
      first := h
      rest := by
        have e := Verifier.connects_append (env := fzEnv true fz2) ((fzChain fz2).take 4) ((fzChain fz2).drop 4) ndGenesis
        rw [List.take_append_drop, h', h] at e
        exact e.symm
      data := a3
      frozen := a4
      noUnfreeze := by
        rintro ⟨b, hb, t, ht, n, hn⟩
        have : ∀ b ∈ (fzChain fz2).drop 4, ∀ t ∈ b.txs, ∀ i ∈ t.inputs, i.tokAcc = none := by decide +kernel
        cases this b hb t ht _ hn }
  exact ⟨l, l', d, hz, a1, by rw [(Node.C56_record fz_enforces hz).2, a2]⟩

end Verif.Policy
