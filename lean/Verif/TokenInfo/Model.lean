import Verif.Tokens.Model

/-!
# Model of the wallet's idea of a token's state

The wallet asks the node for the confirmed state of a token and applies its own transactions that are not in a block
yet; on the result it decides which requests of its user it carries out.
-/

namespace Verif.TokenInfo
open Verif
open Verif.Tokens (TokenId TokenData TotalSupply Frozen Cache)

/-- token commands of `AccountCommand` – common/src/chain/transaction/account_outpoint.rs 118-171; the two order
commands are one constructor without contents -/
inductive Command
  | mint (id : TokenId) (amount : Nat)
  | unmint (id : TokenId)
  | lock (id : TokenId)
  | freeze (id : TokenId) (unfreezable : Bool)
  | unfreeze (id : TokenId)
  | authority (id : TokenId) (a : Nat)
  | uri (id : TokenId) (u : Nat)
  | order
  deriving DecidableEq, Repr

/-- a transaction: the account commands among its inputs and the token amounts of its `Burn` outputs, both in order.
Other inputs and outputs, nonces and signatures are left out. -/
structure Tx where
  commands : List Command
  burns : List (TokenId × Nat)
  deriving DecidableEq, Repr

/-- `calculate_tokens_burned_in_outputs` – chainstate/tx-verifier/src/transaction_verifier/input_output_policy/mod.rs
62-87; `none` is an overflow of the sum -/
def burned (id : TokenId) : List (TokenId × Nat) → Option Nat
  | [] => some 0
  | (i, a) :: rest => do
    let r ← burned id rest
    if i = id then Amt.add a r else some r

/-! ### The ledger's side -/

/-- errors of the ledger -/
inductive LErr
  | multipleAccountCommands
  | burnAmountSum
  | tokens (e : Tokens.Err)
  deriving DecidableEq, Repr

/-- one command as `connect_tokens_outputs` performs it – chainstate/tx-verifier/src/transaction_verifier/mod.rs
539-624.  An unmint command without burnt tokens is skipped (556-575: `transpose()?` leaves the `filter_map`
closure).  The spending of the nonce and the undo records are left out. -/
def connectCommand (burns : List (TokenId × Nat)) (c : Cache) (cmd : Command) : Except LErr Cache :=
  let run (op : Tokens.Op) : Except LErr Cache :=
    match Tokens.step c op with
    | .ok (c', _) => .ok c'
    | .error e => .error (.tokens e)
  match cmd with
  | .mint id a => run (.mint id a)
  | .unmint id =>
    match burned id burns with
    | none => .error .burnAmountSum
    | some b => if b > 0 then run (.unmint id b) else .ok c
  | .lock id => run (.lock id)
  | .freeze id u => run (.freeze id u)
  | .unfreeze id => run (.unfreeze id)
  | .authority id a => run (.changeAuthority id a)
  | .uri id u => run (.changeMetadataUri id u)
  | .order => .ok c

/-- a transaction's token commands on the ledger: at most one account command (purposes_check.rs 214-227, where
order commands of the newer kind count too), then `connect_tokens_outputs`.  Token issuance outputs are left out, as
are all other reasons for refusing a transaction. -/
def connectTx (c : Cache) (tx : Tx) : Except LErr Cache :=
  if tx.commands.length ≤ 1 then tx.commands.foldlM (connectCommand tx.burns) c
  else .error .multipleAccountCommands

/-- `RPCFungibleTokenInfo` – common/src/chain/tokens/rpc.rs 113-123; ticker, decimals, uri and authority are left out -/
structure RpcInfo where
  circulating : Nat
  totalSupply : TotalSupply
  isLocked : Bool
  frozen : Frozen
  deriving DecidableEq, Repr

/-- `get_token_info_for_rpc` – chainstate/src/detail/query.rs 354-376, for a fungible token -/
def rpcInfo (d : TokenData) (supply : Nat) : RpcInfo := ⟨supply, d.totalSupply, d.locked, d.frozen⟩

/-! ### The wallet's side: wallet/src/account/output_cache/mod.rs -/

/-- the `WalletError`s that occur here -/
inductive WErr
  | outputAmountOverflow
  | cannotMintFixedTokenSupply
  | cannotChangeLockedTokenSupply
  | cannotUnmintTokenSupply
  | cannotLockTokenSupply
  | cannotUseFrozenToken
  | cannotFreezeNotFreezableToken
  | cannotFreezeAlreadyFrozenToken
  | cannotUnfreezeToken
  | cannotUnfreezeANotFrozenToken
  | cannotChangeNotOwnedToken
  deriving DecidableEq, Repr

/-- `TokenCurrentSupplyState` – 131-136 -/
inductive Supply
  | fixed (limit current : Nat)
  | lockable (current : Nat)
  | locked (current : Nat)
  | unlimited (current : Nat)
  deriving DecidableEq, Repr

/-- `From<RPCTokenTotalSupply>` – 148-158 -/
def Supply.ofTotal : TotalSupply → Supply
  | .fixed limit => .fixed limit 0
  | .lockable => .lockable 0
  | .unlimited => .unlimited 0

/-- `check_can_mint` – 181-194 -/
def Supply.checkCanMint (s : Supply) (amount : Nat) : Except WErr Unit :=
  match s with
  | .unlimited _ => .ok ()
  | .lockable _ => .ok ()
  | .fixed limit current => do
    let changed ← okOr (Amt.add current amount) .outputAmountOverflow
    ensure (changed ≤ limit) .cannotMintFixedTokenSupply
  | .locked _ => .error .cannotChangeLockedTokenSupply

/-- `check_can_unmint` – 196-207 -/
def Supply.checkCanUnmint (s : Supply) (amount : Nat) : Except WErr Unit :=
  match s with
  | .unlimited current => ensure (amount ≤ current) .cannotUnmintTokenSupply
  | .lockable current => ensure (amount ≤ current) .cannotUnmintTokenSupply
  | .fixed _ current => ensure (amount ≤ current) .cannotUnmintTokenSupply
  | .locked _ => .error .cannotChangeLockedTokenSupply

/-- `check_can_lock` – 209-218 -/
def Supply.checkCanLock : Supply → Except WErr Unit
  | .lockable _ => .ok ()
  | .unlimited _ => .error .cannotLockTokenSupply
  | .fixed _ _ => .error .cannotLockTokenSupply
  | .locked _ => .error .cannotLockTokenSupply

/-- `mint` – 220-238 -/
def Supply.mint (s : Supply) (amount : Nat) : Except WErr Supply :=
  match s with
  | .lockable current => do
    let x ← okOr (Amt.add current amount) .outputAmountOverflow
    pure (.lockable x)
  | .unlimited current => do
    let x ← okOr (Amt.add current amount) .outputAmountOverflow
    pure (.unlimited x)
  | .fixed limit current => do
    let changed ← okOr (Amt.add current amount) .outputAmountOverflow
    ensure (changed ≤ limit) .cannotMintFixedTokenSupply
    pure (.fixed limit changed)
  | .locked _ => .error .cannotChangeLockedTokenSupply

/-- `unmint` – 240-257 -/
def Supply.unmint (s : Supply) (amount : Nat) : Except WErr Supply :=
  match s with
  | .lockable current => do
    let x ← okOr (Amt.sub current amount) .cannotUnmintTokenSupply
    pure (.lockable x)
  | .unlimited current => do
    let x ← okOr (Amt.sub current amount) .cannotUnmintTokenSupply
    pure (.unlimited x)
  | .fixed limit current => do
    let x ← okOr (Amt.sub current amount) .cannotUnmintTokenSupply
    pure (.fixed limit x)
  | .locked _ => .error .cannotChangeLockedTokenSupply

/-- `lock` – 259-270 -/
def Supply.lock : Supply → Except WErr Supply
  | .lockable current => .ok (.locked current)
  | .unlimited _ => .error .cannotLockTokenSupply
  | .fixed _ _ => .error .cannotLockTokenSupply
  | .locked _ => .error .cannotLockTokenSupply

/-- `TokenFreezableState::check_can_be_used` – 471-476 (the type 450-453 has the two cases of `Frozen`) -/
def checkCanBeUsed : Frozen → Except WErr Unit
  | .yes _ => .error .cannotUseFrozenToken
  | .no _ => .ok ()

/-- `freeze` – 478-486 -/
def freeze (f : Frozen) (unfreezable : Bool) : Except WErr Frozen :=
  match f with
  | .no true => .ok (.yes unfreezable)
  | .no false => .error .cannotFreezeNotFreezableToken
  | .yes _ => .error .cannotFreezeAlreadyFrozenToken

/-- `check_can_freeze` – 488-496 -/
def checkCanFreeze : Frozen → Except WErr Unit
  | .no true => .ok ()
  | .no false => .error .cannotFreezeNotFreezableToken
  | .yes _ => .error .cannotFreezeAlreadyFrozenToken

/-- `unfreeze` – 498-504 -/
def unfreeze : Frozen → Except WErr Frozen
  | .yes true => .ok (.no true)
  | .yes false => .error .cannotUnfreezeToken
  | .no _ => .error .cannotUnfreezeANotFrozenToken

/-- `check_can_unfreeze` – 506-512 -/
def checkCanUnfreeze : Frozen → Except WErr Unit
  | .yes true => .ok ()
  | .yes false => .error .cannotUnfreezeToken
  | .no _ => .error .cannotUnfreezeANotFrozenToken

/-- one input of `apply_freeze_mutations_from_tx` – 2022-2049 -/
def freezeCommand (own : TokenId) (f : Frozen) : Command → Except WErr Frozen
  | .freeze id u => if id = own then freeze f u else .ok f
  | .unfreeze id => if id = own then unfreeze f else .ok f
  | _ => .ok f

/-- `apply_freeze_mutations_from_tx` – 2017-2052 -/
def applyFreeze (own : TokenId) (f : Frozen) (tx : Tx) : Except WErr Frozen :=
  tx.commands.foldlM (freezeCommand own) f

/-- one input of `apply_total_supply_mutations_from_tx` – 2059-2092.  The token id of unmint and lock commands is not
compared. -/
def supplyCommand (own : TokenId) (burns : List (TokenId × Nat)) (s : Supply) : Command → Except WErr Supply
  | .mint id a => if id = own then s.mint a else .ok s
  | .unmint id => do
    let b ← okOr (burned id burns) .outputAmountOverflow
    s.unmint b
  | .lock _ => s.lock
  | _ => .ok s

/-- `apply_total_supply_mutations_from_tx` – 2054-2095 -/
def applySupply (own : TokenId) (s : Supply) (tx : Tx) : Except WErr Supply :=
  tx.commands.foldlM (supplyCommand own tx.burns) s

/-- the token a command is about -/
def Command.token : Command → Option TokenId
  | .mint id _ => some id
  | .unmint id => some id
  | .lock id => some id
  | .freeze id _ => some id
  | .unfreeze id => some id
  | .authority id _ => some id
  | .uri id _ => some id
  | .order => none

/-- the transactions a token remembers as not yet in a block: those with a command about it (1207-1249), in the order
`wallet_tx_order` gives them; `all` is in that order -/
def unconfirmedTxs (own : TokenId) (all : List Tx) : List Tx :=
  all.filter fun tx => tx.commands.any fun c => decide (c.token = some own)

/-- `UnconfirmedTokenInfo` – 311-318: own token with predicted state, or a token of somebody else; NFTs, nonce,
authority, decimals and ticker are left out -/
inductive Info
  | own (frozen : Frozen) (supply : Supply)
  | other (frozen : Frozen)
  deriving DecidableEq, Repr

/-- the loop of `get_token_unconfirmed_info` – 762-766 -/
def applyTx (own : TokenId) (st : Frozen × Supply) (tx : Tx) : Except WErr (Frozen × Supply) := do
  let f ← applyFreeze own st.1 tx
  let s ← applySupply own st.2 tx
  pure (f, s)

/-- `get_token_unconfirmed_info` – 724-780; `isMine` says that the wallet knows the token and controls its
authority -/
def unconfirmedInfo (isMine : Bool) (own : TokenId) (info : RpcInfo) (all : List Tx) : Except WErr Info :=
  if isMine then do
    let s ← (Supply.ofTotal info.totalSupply).mint info.circulating
    let s ← if info.isLocked then s.lock else pure s
    let st ← (unconfirmedTxs own all).foldlM (applyTx own) (info.frozen, s)
    pure (.own st.1 st.2)
  else pure (.other info.frozen)

/-- what the user may ask for -/
inductive Request
  | mint (amount : Nat)
  | unmint (amount : Nat)
  | lock
  | freeze (unfreezable : Bool)
  | unfreeze
  | authority (a : Nat)
  | uri (u : Nat)
  deriving DecidableEq, Repr

/-- the checks before a transaction is built: the controller's (wallet/wallet-controller/src/synced_controller.rs
349-545), then the account's (wallet/src/account/mod.rs 1405-1620).  A token of somebody else is refused (352-446 of
the output cache), though only after the controller's check. -/
def permits (i : Info) (r : Request) : Except WErr Unit :=
  match i with
  | .own f s =>
    match r with
    | .mint a => do checkCanBeUsed f; s.checkCanMint a
    | .unmint a => do checkCanBeUsed f; s.checkCanUnmint a
    | .lock => do checkCanBeUsed f; s.checkCanLock
    | .freeze _ => do checkCanBeUsed f; checkCanFreeze f
    | .unfreeze => checkCanUnfreeze f
    | .authority _ => checkCanBeUsed f
    | .uri _ => checkCanBeUsed f
  | .other f =>
    match r with
    | .unfreeze => .error .cannotChangeNotOwnedToken
    | _ => do checkCanBeUsed f; .error .cannotChangeNotOwnedToken

/-- the transaction built for a request – wallet/src/account/mod.rs 1405-1620, wallet/src/send_request/mod.rs 85-99 -/
def requestTx (own : TokenId) : Request → Tx
  | .mint a => ⟨[.mint own a], []⟩
  | .unmint a => ⟨[.unmint own], [(own, a)]⟩
  | .lock => ⟨[.lock own], []⟩
  | .freeze u => ⟨[.freeze own u], []⟩
  | .unfreeze => ⟨[.unfreeze own], []⟩
  | .authority a => ⟨[.authority own a], []⟩
  | .uri u => ⟨[.uri own u], []⟩

end Verif.TokenInfo
