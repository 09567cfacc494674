import Verif.Sync.Model
import Verif.Sync.QuerySpec
import Verif.Chainstate.Spec
import Mathlib.Logic.Relation

/-!
# Two connected nodes

A node (the client) downloads the chain of another one (the server): both are connected by two queues of messages, and handle the messages in order; the server sends the
blocks it has queued whenever it likes.
-/

namespace Verif.Sync
open Verif Verif.Chainstate Verif.Chainstate.Spec

variable {L : Type}

/-- the databases of both nodes, what they keep about the exchange, the messages under way, and whether an error occurred -/
structure Link (L : Type) where
  client : Db L
  server : Db L
  cpeer : Peer := {}
  speer : Peer := {}
  toServer : List Msg := []
  toClient : List Msg := []
  failed : Bool := false

/-- one step of one of the nodes -/
inductive Step (env : Env L) (lim : Limits) (P : Ctx → Prop) : Link L → Link L → Prop
  | server {j : Link L} {m ms} (ctx : Ctx) : j.toServer = m :: ms → ctx.ibd = false → Step env lim P j
      { j with
        server := (handle env lim ctx j.server j.speer m).db
        speer := (handle env lim ctx j.server j.speer m).peer
        toServer := ms
        toClient := j.toClient ++ (handle env lim ctx j.server j.speer m).sent
        failed := j.failed || (handle env lim ctx j.server j.speer m).err.isSome }
  | send {j : Link L} : j.speer.queue ≠ [] → Step env lim P j
      { j with
        server := (sendBlock env j.server j.speer).db
        speer := (sendBlock env j.server j.speer).peer
        toClient := j.toClient ++ (sendBlock env j.server j.speer).sent
        failed := j.failed || (sendBlock env j.server j.speer).err.isSome }
  | client {j : Link L} {m ms} (ctx : Ctx) : j.toClient = m :: ms → P ctx → Step env lim P j
      { j with
        client := (handle env lim ctx j.client j.cpeer m).db
        cpeer := (handle env lim ctx j.client j.cpeer m).peer
        toClient := ms
        toServer := j.toServer ++ (handle env lim ctx j.client j.cpeer m).sent
        failed := j.failed || (handle env lim ctx j.client j.cpeer m).err.isSome }

/-- any number of steps -/
def Steps (env : Env L) (lim : Limits) (P : Ctx → Prop) : Link L → Link L → Prop := Relation.ReflTransGen (Step env lim P)

/-- no step is possible -/
def Idle (env : Env L) (lim : Limits) (P : Ctx → Prop) (j : Link L) : Prop := ∀ j', ¬ Step env lim P j j'

/-- every run of steps is finite -/
def Terminates (env : Env L) (lim : Limits) (P : Ctx → Prop) (j : Link L) : Prop := Acc (fun a b => Step env lim P b a) j

/-- a new connection: the client asks for headers -/
def connectLink (env : Env L) (c s : Db L) : Link L where
  client := c
  server := s
  cpeer := (requestHeaders env c {}).peer
  toServer := (requestHeaders env c {}).sent
  failed := (requestHeaders env c {}).err.isSome

/-- the checks of the client that do not concern the tree accept the blocks of the server's main chain, and its storage works -/
structure Fine (env : Env L) (s : Db L) (ctx : Ctx) : Prop where
  check : ∀ b, Main env s b → ctx.now.check b = none
  fault : ∀ x, ctx.now.fault x = false
  header : ∀ b, Main env s b → ctx.header b = none
  chain : ∀ l, (∀ b ∈ l, Main env s b) → ctx.chain l = none

/-- the client has not rejected any block of the server's main chain, and its own main chain forks from it not below the height where reorganizations are allowed -/
structure Compatible (env : Env L) (c s : Db L) : Prop where
  ok : ∀ b, Main env s b → Known env c b → Ok env c b
  fork : ∃ f, Main env c f ∧ Main env s f ∧ max c.minHeight (height env c c.best - env.maxDepth) ≤ height env c f

/-- the limits of the protocol suffice for blocks below the height 2^n -/
structure Suffices (lim : Limits) (n : Nat) : Prop where
  headers : 0 < lim.headers
  blocks : 0 < lim.blocks
  locator : n + 1 ≤ lim.locator

/-- both nodes got blocks from elsewhere, and the server announces its new tip -/
def change (env : Env L) (lim : Limits) (j : Link L) (c s : Db L) : Link L :=
  { j with
    client := c
    server := (handleNewTip env lim s j.speer s.best).db
    speer := (handleNewTip env lim s j.speer s.best).peer
    toClient := j.toClient ++ (handleNewTip env lim s j.speer s.best).sent
    failed := j.failed || (handleNewTip env lim s j.speer s.best).err.isSome }

/-- the block that the client keeps as the best of the server is on the server's main chain.  Or both branches from the latest common block to it and to the server's tip are
not too long for the headers in a message: together they have fewer blocks; or the main chain reaches its trust with so few blocks that these are not more, together with
the blocks of the other branch -/
def Near (env : Env L) (lim : Limits) (c s : Db L) (p : Peer) : Prop :=
  ∀ x, p.best = some x → Main env s x ∨ ∃ f, ForkOf env c s x f ∧
    ((height env c x - height env c f) + (height env s s.best - height env s f) < lim.headers ∨
      ∃ b, Main env s b ∧ trust env c x ≤ trust env s b ∧ (height env c x - height env c f) + (height env s b - height env s f) ≤ lim.headers)

/-- a connection: the client asks for headers, then the nodes handle messages; whenever no more messages are under way both may get blocks from elsewhere.  The client got
to its state by calls of the kind `P` -/
inductive Session (env : Env L) (lim : Limits) (n : Nat) (P : Op → Prop) : Link L → Prop
  | connect {c s : Db L} : Later env P (Db.init env) c → Reach env s → Compatible env c s → (∀ x, Known env c x → height env c x < 2 ^ n) → height env s s.best < 2 ^ n →
      Session env lim n P (connectLink env c s)
  | step {j j' : Link L} : Session env lim n P j → Step env lim (Fine env j.server) j j' → Session env lim n P j'
  | change {j : Link L} {c s : Db L} : Session env lim n P j → Idle env lim (Fine env j.server) j → Later env IsProcess j.client c → Later env AnyOp j.server s →
      Compatible env c s → (∀ x, Known env c x → height env c x < 2 ^ n) → height env s s.best < 2 ^ n → Near env lim c s j.cpeer →
      Session env lim n P (change env lim j c s)

end Verif.Sync
