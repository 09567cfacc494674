import Verif.Sync.Model
import Verif.Sync.QuerySpec
import Verif.Chainstate.Spec

/-!
# A node and a peer that may do anything
-/

namespace Verif.Sync
open Verif Verif.Chainstate Verif.Chainstate.Spec

variable {L : Type}

/-- the database of a node, what it keeps about the exchange with the peer; for the statements: the headers received, the blocks asked for by the peer in accepted requests, and
the blocks sent to it -/
structure Node (L : Type) where
  db : Db L
  peer : Peer
  heard : List Nat := []
  asked : List Nat := []
  served : List Nat := []

/-- headers and blocks have ids of blocks, not of genesis -/
def Msg.Sane (env : Env L) : Msg → Prop
  | .headers l => env.tree.genesisId ∉ l
  | .block id => id ≠ env.tree.genesisId
  | _ => True

/-- the headers of a message -/
def Msg.heard : Msg → List Nat
  | .headers l => l
  | _ => []

/-- the blocks a message asks for -/
def Msg.asks : Msg → List Nat
  | .blockReq ids => ids
  | _ => []

/-- the blocks in a list of messages -/
def blocksOf (l : List Msg) : List Nat := l.filterMap fun
  | .block id => some id
  | _ => none

/-- the node after handling a message; a node in its initial block download ignores requests for blocks -/
def Node.after (x : Node L) (ctx : Ctx) (m : Msg) (o : Out L) : Node L where
  db := o.db
  peer := o.peer
  heard := x.heard ++ m.heard
  asked := if o.err.isSome || ctx.ibd then x.asked else x.asked ++ m.asks
  served := x.served ++ blocksOf o.sent

/-- what a node may do: handle any message, send a queued block, announce a tip; or its chain changes by other means.  With it the messages sent -/
inductive NStep (env : Env L) (lim : Limits) : Node L → List Msg → Node L → Prop
  | msg {x : Node L} (ctx : Ctx) (m : Msg) : m.Sane env → NStep env lim x (handle env lim ctx x.db x.peer m).sent (x.after ctx m (handle env lim ctx x.db x.peer m))
  | send {x : Node L} : x.peer.queue ≠ [] → NStep env lim x (sendBlock env x.db x.peer).sent
      { x with
        db := (sendBlock env x.db x.peer).db
        peer := (sendBlock env x.db x.peer).peer
        served := x.served ++ blocksOf (sendBlock env x.db x.peer).sent }
  | tip {x : Node L} (t : Nat) : NStep env lim x (handleNewTip env lim x.db x.peer t).sent
      { x with db := (handleNewTip env lim x.db x.peer t).db, peer := (handleNewTip env lim x.db x.peer t).peer }
  | chain {x : Node L} {s : Db L} : Later env AnyOp x.db s → NStep env lim x [] { x with db := s }

/-- states of a node after it has connected -/
inductive NReach (env : Env L) (lim : Limits) : Node L → Prop
  | connect {c : Db L} : Reach env c → NReach env lim ⟨(requestHeaders env c {}).db, (requestHeaders env c {}).peer, [], [], []⟩
  | step {x y : Node L} {out : List Msg} : NReach env lim x → NStep env lim x out y → NReach env lim y

end Verif.Sync
