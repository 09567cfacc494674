import Verif.Codec.Types
import Verif.Orphans.Model

/-!
# Bootstrap files: export and import of blocks

Model of `chainstate/src/detail/bootstrap.rs`, `Chainstate::import_bootstrap_stream` and the counter for the reckless mode of the database
(`chainstate/src/detail/mod.rs` 896-926, 998-1056), and the lists of blocks that are exported (`chainstateref/mod.rs` 964-1007).

Blocks are values of an arbitrary type `B` with a codec (that of blocks is `Codec.Block.codec`, see C46).  The node is that of `Verif.Orphans`
(database and pool of waiting blocks), in which blocks are known by their ids.
-/

namespace Verif.Bootstrap
open Verif Codec Chainstate Orphans

/-- `BootstrapError` – bootstrap.rs 71-118; `query` stands for `FailedToReadProperty`, `panic` for the panics -/
inductive Err
  | io | deserialization | processing (e : Chainstate.Err) | query | intConversion | legacy | tooSmall | wrongFormat | badFormat | wrongChain
  | future | tooBig (n : Nat) | interrupted | panic
  deriving DecidableEq, Repr

/-! ### The file -/

/-- `FILE_MAGIC_BYTES`: "MLBTSTRP" – bootstrap.rs 41 -/
def fileMagic : Bytes := [0x4D, 0x4C, 0x42, 0x54, 0x53, 0x54, 0x52, 0x50]

/-- the magic bytes of the four kinds of chain – common/src/chain/config/mod.rs 135-138, 158-165 -/
def chainMagics : List Bytes := [[0xB0, 0x07, 0x5F, 0xA0], [0x2b, 0x7e, 0x19, 0xf8], [0xaa, 0xbb, 0xcc, 0xdd], [0xf3, 0xf7, 0x7b, 0x45]]

/-- `BootstrapFileHeader` – bootstrap.rs 43-55 -/
structure Header where
  file : Bytes
  chain : Bytes
  version : Nat
  count : Nat
  deriving DecidableEq, Repr

/-- its derived codec -/
def Header.codec : Codec Header :=
  iso (fun h => (h.file, h.chain, h.version, h.count)) (fun p => ⟨p.1, p.2.1, p.2.2.1, p.2.2.2⟩)
    (pair (bytesN 8) (pair (bytesN 4) (pair (uint 4) (uint 8))))

/-- `FILE_HEADER_SIZE` – bootstrap.rs 58 -/
def headerSize : Nat := 24

/-- `MAX_BLOCK_SIZE` – bootstrap.rs 65-69 -/
def maxBlockSize : Nat := 10 * 1024 * 1024

/-! ### Reading -/

/-- `BufReader`: what the successive calls of `fill_buf` find, `none` being an I/O error.  At the end of the list, or at an empty piece, the end of
the file was reached. -/
abbrev Reader := List (Option Bytes)

/-- `fill_buffer` – bootstrap.rs 207-225 -/
def fill (want : Nat) : Bytes → Reader → Except Err (Bytes × Reader)
  | buf, [] => .ok (buf, [])
  | buf, none :: r => if buf.length < want then .error .io else .ok (buf, none :: r)
  | buf, some d :: r =>
    if buf.length < want then
      if d = [] then .ok (buf, some d :: r)
      else if want - buf.length < d.length then .ok (buf ++ d.take (want - buf.length), some (d.drop (want - buf.length)) :: r)
      else fill want (buf ++ d) r
    else .ok (buf, some d :: r)

/-- `check_for_legacy_format` – bootstrap.rs 197-205 -/
def checkLegacy (bs : Bytes) : Except Err Unit := ensure (!chainMagics.any (fun m => m.isPrefixOf bs)) .legacy

/-- the start of `import_bootstrap_stream` – bootstrap.rs 138-164 -/
def readHeader (chain : Bytes) (r : Reader) : Except Err (Nat × Reader) := do
  let (bs, r) ← fill headerSize [] r
  ensure (bs.length = headerSize) .tooSmall
  checkLegacy bs
  let h ← okOr (Header.codec.decodeAll bs) .deserialization
  ensure (h.file = fileMagic) .wrongFormat
  ensure (h.chain = chain) .wrongChain
  ensure (h.version = 0) .future
  pure (h.count, r)

variable {B : Type}

/-- one round of the loop of `import_bootstrap_stream` up to the call of the function that processes the block – bootstrap.rs 167-186 (`u32` fits into
`usize`) -/
def readBlock (c : Codec B) (r : Reader) : Except Err (B × Reader) := do
  let (bs, r) ← fill 4 [] r
  ensure (bs.length = 4) .badFormat
  ensure (leNat bs ≤ maxBlockSize) (.tooBig (leNat bs))
  let (data, r) ← fill (leNat bs) [] r
  ensure (data.length = leNat bs) .badFormat
  let b ← okOr (c.decodeAll data) .deserialization
  pure (b, r)

/-- the function that processes the blocks, with the state it changes: the result tells whether to go on -/
abbrev Handler (σ B : Type) := σ → B → σ × Except Err Bool

variable {σ : Type}

/-- the loop of `import_bootstrap_stream` – bootstrap.rs 166-194 -/
def importBlocks (c : Codec B) (f : Handler σ B) : Nat → Reader → σ → σ × Except Err Unit
  | 0, _, s => (s, .ok ())
  | n + 1, r, s =>
    match readBlock c r with
    | .error e => (s, .error e)
    | .ok (b, r) =>
      match f s b with
      | (s, .error e) => (s, .error e)
      | (s, .ok false) => (s, .ok ())
      | (s, .ok true) => importBlocks c f n r s

/-- `import_bootstrap_stream` – bootstrap.rs 130-195 -/
def importStream (c : Codec B) (chain : Bytes) (f : Handler σ B) (r : Reader) (s : σ) : σ × Except Err Unit :=
  match readHeader chain r with
  | .error e => (s, .error e)
  | .ok (n, r) => importBlocks c f n r s

/-! ### Writing -/

/-- a `BufWriter` (of the standard library) on top of a file: capacity and contents of its buffer, what is in the file, and how many more bytes the
disk can take.  Writing beyond that is an error after the bytes that still fit were written. -/
structure Writer where
  cap : Nat
  buf : Bytes := []
  disk : Bytes := []
  room : Nat
  deriving DecidableEq, Repr

/-- bytes handed to the file; the result tells whether all could be written -/
def Writer.put (w : Writer) (bs : Bytes) : Writer × Bool :=
  ({ w with disk := w.disk ++ bs.take w.room, room := w.room - bs.length }, decide (bs.length ≤ w.room))

/-- `BufWriter::flush_buf`: what could not be written stays in the buffer -/
def Writer.flush (w : Writer) : Writer × Bool :=
  ({ w with disk := w.disk ++ w.buf.take w.room, room := w.room - w.buf.length, buf := w.buf.drop w.room }, decide (w.buf.length ≤ w.room))

/-- `BufWriter::write_all`: the data goes to the buffer if there is space; otherwise the buffer is flushed first, and data larger than the buffer goes to the
file directly -/
def Writer.write (w : Writer) (bs : Bytes) : Writer × Bool :=
  if bs.length < w.cap - w.buf.length then ({ w with buf := w.buf ++ bs }, true)
  else
    let (w, ok) := if w.cap - w.buf.length < bs.length then w.flush else (w, true)
    if ok then if w.cap ≤ bs.length then w.put bs else ({ w with buf := w.buf ++ bs }, true)
    else (w, false)

/-- dropping the `BufWriter` flushes it and ignores errors; the contents of the file then -/
def Writer.file (w : Writer) : Bytes := w.flush.1.disk

/-- several writes; an error ends them -/
def Writer.writeAll : List Bytes → Writer → Writer × Bool
  | [], w => (w, true)
  | p :: ps, w =>
    match w.write p with
    | (w, true) => Writer.writeAll ps w
    | (w, false) => (w, false)

/-- the loop of `export_bootstrap_stream` – bootstrap.rs 250-255: for every listed block the bytes stored for it, if there are any -/
def exportBlocks : List (Option Bytes) → Writer → Writer × Except Err Unit
  | [], w => (w, .ok ())
  | none :: _, w => (w, .error .query)
  | some bs :: l, w =>
    if bs.length < 2 ^ 32 then
      match w.writeAll [leBytes 4 bs.length, bs] with
      | (w, true) => exportBlocks l w
      | (w, false) => (w, .error .io)
    else (w, .error .intConversion)

/-- `export_bootstrap_stream` after the list was made – bootstrap.rs 241-258.  The header is written field by field; a failure to write it is a
panic (`Output` of `parity_scale_codec` for writers). -/
def exportStream (chain : Bytes) (l : List (Option Bytes)) (w : Writer) : Writer × Except Err Unit :=
  match w.writeAll [fileMagic, chain, leBytes 4 0, leBytes 8 l.length] with
  | (w, true) => exportBlocks l w
  | (w, false) => (w, .error .panic)

/-! ### The node -/

variable {L : Type}

/-- the closure in `get_mainchain_blocks_list` – chainstateref/mod.rs 966-976 -/
def idAt (env : Env L) (s : Db L) (h : Nat) : Except Err Nat :=
  match s.byHeight.get h with
  | none => .error .panic
  | some id => if id = env.tree.genesisId then .error .panic else .ok id

/-- `get_mainchain_blocks_list` – chainstateref/mod.rs 965-986 -/
def mainList (env : Env L) (s : Db L) : Except Err (List Nat) :=
  match s.bestIndex env with
  | .error _ => .error .query
  | .ok b => (List.range b.height).mapM (fun h => idAt env s (h + 1))

/-- `get_block_id_tree_as_list` – chainstateref/mod.rs 989-991: all stored block indices -/
def treeList (s : Db L) : List Nat := (s.higher 0).map (fun e => e.idx.id)

/-- `get_encoded_block` – storage read_impls.rs 122-124; `block` gives the block with an id, as stored by `persist_block` -/
def stored (c : Codec B) (block : Nat → B) (s : Db L) (id : Nat) : Option Bytes := (s.blocks.get id).map (fun _ => c.enc (block id))

/-- `export_bootstrap_stream` of a node – bootstrap.rs 227-258 -/
def exportNode (env : Env L) (c : Codec B) (block : Nat → B) (chain : Bytes) (s : Db L) (stale : Bool) (w : Writer) : Writer × Except Err Unit :=
  match (if stale then .ok (treeList s) else mainList env s) with
  | .error e => (w, .error e)
  | .ok ids => exportStream chain (ids.map (stored c block s)) w

/-- what happens while the blocks of a file are processed, for every block of the file: the outcome of the checks and the random numbers (see
`Orphans.Node.submit`), and whether the shutdown of the node was noticed before it -/
structure Ctx where
  now : Nat → Nat → Now := fun _ _ => {}
  pick : Nat → Nat → Nat := fun _ _ => 0
  stop : Nat → Bool := fun _ => false

/-- the function that processes the blocks in `Chainstate::import_bootstrap_stream` – mod.rs 905-920 -/
def importBlock (env : Env L) (idOf : B → Nat) (ctx : Ctx) : Handler (Node L) B := fun n b =>
  if ctx.stop (idOf b) then (n, .error .interrupted)
  else if (n.db.blocks.get (idOf b)).isSome then (n, .ok true)
  else match n.submit env (ctx.now (idOf b)) (ctx.pick (idOf b)) (idOf b) with
    | .error _ => (n, .error .panic)
    | .ok (n, .error e) => (n, .error (.processing e))
    | .ok (n, .ok _) => (n, .ok true)

/-- `Chainstate::import_bootstrap_stream` – mod.rs 897-926, without the reckless mode of the database -/
def importNode (env : Env L) (c : Codec B) (idOf : B → Nat) (chain : Bytes) (ctx : Ctx) (r : Reader) (n : Node L) : Node L × Except Err Unit :=
  importStream c chain (importBlock env idOf ctx) r n

/-! ### The reckless mode of the database -/

/-- `DbRecklessModeCounter`, the mode of the database, and `is_initial_block_download_finished` – mod.rs 120-126, 1005-1007; the settings enable the mode
(`db_reckless_mode_in_ibd_enabled`) -/
structure Mode where
  counter : Nat := 0
  reckless : Bool := false
  synced : Bool := false
  deriving DecidableEq, Repr

/-- `inc` – mod.rs 1014-1031 (the overflow of the counter is left out) -/
def Mode.inc (m : Mode) : Mode :=
  { m with reckless := if m.counter = 0 then true else m.reckless, counter := m.counter + 1 }

/-- `dec` – mod.rs 1033-1050: below zero the counter stays -/
def Mode.dec (m : Mode) : Mode :=
  { m with counter := m.counter - 1, reckless := if m.counter - 1 = 0 then false else m.reckless }

/-- `update_initial_block_download_flag` – mod.rs 834-861; `fresh` tells whether the tip is recent, `initial` whether this is the call at start -/
def Mode.tip (m : Mode) (fresh initial : Bool) : Mode :=
  if m.synced then m
  else if fresh then (if initial then { m with synced := true } else { m with synced := true }.dec)
  else if initial then m.inc else m

/-- the mode after the start of the node – mod.rs 219-220 -/
def Mode.start (fresh : Bool) : Mode := Mode.tip {} fresh true

/-- what happens to the mode -/
inductive ModeOp
  | tip (fresh : Bool)
  | import (tips : List Bool)
  deriving DecidableEq, Repr

/-- a new tip, or an import with the tips that occur during it – mod.rs 897-926 -/
def Mode.step (m : Mode) : ModeOp → Mode
  | .tip fresh => m.tip fresh false
  | .import tips => (tips.foldl (fun m f => m.tip f false) m.inc).dec

end Verif.Bootstrap
