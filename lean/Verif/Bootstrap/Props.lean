import Verif.Bootstrap.Node
import Verif.Orphans.Props

/-!
# C82: bootstrap files
-/

set_option maxRecDepth 100000

namespace Verif.Bootstrap
open Verif Codec Codec.Spec BlockTree Chainstate Chainstate.Spec Orphans Orphans.Spec Bootstrap.Spec
variable {L B σ : Type} {env : Env L} {c : Codec B} {fits : B → Prop} {chain : Bytes}

/-! ### the file -/

/-- The blocks of a file are processed in order, each as it was when written, however the file is cut into pieces by reading; what follows after
the announced number of blocks does not matter. -/
theorem C82_roundtrip (hx : Exact c fits) (hc : chain.length = 4) (f : Handler σ B) {bl : List B}
    (hb : ∀ b ∈ bl, fits b ∧ (c.enc b).length ≤ 10 * 1024 * 1024) (hn : bl.length < 2 ^ 64) {extra : Bytes} {r : Reader}
    (hr : Reads r (file chain (bl.map c.enc) ++ extra)) (s : σ) : importStream c chain f r s = feed f bl s := by
  rw [file, List.append_assoc, List.length_map] at hr
  obtain ⟨r', e, h'⟩ := readHeader_start hc hn hr
  unfold importStream
  rw [e]
  exact importBlocks_frames hx f bl s hb h'

/-- Only what a file of this chain contains is processed: the state after an import, failed or not, is the one after processing some first blocks of
the file; after success these are all the blocks the file announces. -/
theorem C82_sound (hx : Exact c fits) {f : Handler σ B} (hf : GoesOn f) {bs : Bytes} {r : Reader} (hr : Reads r bs) {s s' : σ} {res}
    (h : importStream c chain f r s = (s', res)) :
    (s' = s ∧ ∃ e, res = .error e) ∨
    ∃ n bl rest, bs = start chain n ++ frames (bl.map c.enc) ++ rest ∧ (∀ b ∈ bl, fits b) ∧ bl.length ≤ n ∧ (feed f bl s).1 = s' ∧
      (res = .ok () → bl.length = n ∧ feed f bl s = (s', .ok ())) := by
  unfold importStream at h
  cases hh : readHeader chain r with
  | error e => rw [hh] at h; cases h; exact .inl ⟨rfl, e, rfl⟩
  | ok p =>
    obtain ⟨n, r'⟩ := p
    rw [hh] at h
    obtain ⟨rest, rfl, h1, h2, h3⟩ := readHeader_inv hr hh
    obtain ⟨bl, r2, rest', a1, a2, rfl, a4, a5, a6⟩ := importBlocks_inv hx hf n h1 h
    refine .inr ⟨n, bl, rest', by rw [List.append_assoc], a1, a4, by rw [a2], fun hok => ⟨a6 hok, ?_⟩⟩
    rcases a5 with a5 | ⟨-, e, a5⟩
    · rw [a2, a5, hok]
    · rw [hok] at a5; cases a5

/-- A file that ends too early is always noticed: the blocks that are in it completely are processed, and the import ends with an error. -/
theorem C82_truncated (hx : Exact c fits) (hc : chain.length = 4) {f : Handler σ B} (hf : GoesOn f) {bl : List B}
    (hb : ∀ b ∈ bl, fits b ∧ (c.enc b).length ≤ 10 * 1024 * 1024) (hn : bl.length < 2 ^ 64) {p q : Bytes} (hq : q ≠ [])
    (hp : p ++ q = file chain (bl.map c.enc)) {r : Reader} (hr : Reads r p) (s : σ) :
    (p.length < 24 ∧ importStream c chain f r s = (s, .error .tooSmall)) ∨
    ∃ k, k < bl.length ∧ (file chain ((bl.take k).map c.enc)).length ≤ p.length ∧ p.length < (file chain ((bl.take (k + 1)).map c.enc)).length ∧
      (importStream c chain f r s).1 = (feed f (bl.take k) s).1 ∧
      (importStream c chain f r s).2 = (match (feed f (bl.take k) s).2 with | .error e => .error e | .ok () => .error .badFormat) := by
  by_cases hl : p.length < 24
  · refine .inl ⟨hl, ?_⟩
    unfold importStream
    rw [readHeader_short hr hl]
  · right
    rw [file, List.length_map] at hp
    have hs := start_length (n := bl.length) hc
    obtain ⟨p2, rfl, hp2⟩ : ∃ p2, p = start chain bl.length ++ p2 ∧ p2 ++ q = frames (bl.map c.enc) := by
      rcases List.append_eq_append_iff.1 hp with ⟨a, h1, h2⟩ | ⟨a, h1, h2⟩
      · have : a = [] := by
          have := congrArg List.length h1
          rw [List.length_append, hs] at this
          exact List.eq_nil_of_length_eq_zero (by omega)
        subst this
        rw [List.append_nil] at h1
        exact ⟨[], by rw [h1, List.append_nil], by simpa using h2⟩
      · exact ⟨a, h1, h2.symm⟩
    obtain ⟨r', e, h'⟩ := readHeader_start hc hn hr
    obtain ⟨k, k1, k2, k3, k4⟩ := importBlocks_cut hx hf bl s hb hq hp2 h'
    have hfl : ∀ l : List Bytes, (file chain l).length = 24 + (frames l).length := fun l => by
      rw [file, List.length_append, start_length hc]
    refine ⟨k, k1, ?_, ?_, ?_⟩
    · rw [hfl, List.length_append, hs]; omega
    · rw [hfl, List.length_append, hs]; omega
    · unfold importStream
      rw [e]
      simp only
      rw [k4]
      rcases hfe : feed f (bl.take k) s with ⟨s', _ | _⟩ <;> exact ⟨rfl, rfl⟩

/-- A file of another chain is refused as such; nothing is processed. -/
theorem C82_other_chain {chain' : Bytes} (hc : chain'.length = 4) (hne : chain' ≠ chain) {n : Nat} (hn : n < 2 ^ 64) {rest : Bytes} {r : Reader}
    (hr : Reads r (start chain' n ++ rest)) (f : Handler σ B) (s : σ) : importStream c chain f r s = (s, .error .wrongChain) := by
  unfold importStream
  rw [readHeader_other hc hne hn hr]

/-- Whatever does not start like a file of this chain is refused; nothing is processed. -/
theorem C82_refused {bs : Bytes} {r : Reader} (hr : Reads r bs) (hno : ∀ n rest, bs ≠ start chain n ++ rest) (f : Handler σ B) (s : σ) :
    ∃ e, importStream c chain f r s = (s, .error e) := by
  unfold importStream
  cases hh : readHeader chain r with
  | error e => exact ⟨e, rfl⟩
  | ok p =>
    obtain ⟨rest, h1, -⟩ := readHeader_inv hr hh
    exact absurd h1 (hno _ _)

/-- The start of a file determines chain and number of blocks. -/
theorem C82_start_unique {chain chain' : Bytes} (hc : chain.length = 4) (hc' : chain'.length = 4) {n n' : Nat} (hn : n < 2 ^ 64) (hn' : n' < 2 ^ 64) {a b : Bytes}
    (h : start chain n ++ a = start chain' n' ++ b) : chain = chain' ∧ n = n' ∧ a = b := by
  obtain ⟨h1, h2⟩ := List.append_inj h (by rw [start_length hc, start_length hc'])
  have h3 := congrArg Header.codec.dec (show Header.codec.enc ⟨fileMagic, chain, 0, n⟩ ++ [] = Header.codec.enc ⟨fileMagic, chain', 0, n'⟩ ++ [] by
    rw [header_enc, header_enc, h1])
  rw [header_lawful.round ⟨fileMagic, chain, 0, n⟩ [] ⟨rfl, hc, by show 0 < 256 ^ 4; decide, hn⟩,
    header_lawful.round ⟨fileMagic, chain', 0, n'⟩ [] ⟨rfl, hc', by show 0 < 256 ^ 4; decide, hn'⟩] at h3
  simp only [Option.some.injEq, Prod.mk.injEq, Header.mk.injEq, true_and, and_true] at h3
  exact ⟨h3.1, h3.2, h2⟩

/-! ### writing -/

/-- With enough space on the disk the export succeeds and the file is as described. -/
theorem C82_written (hc : chain.length = 4) {bl : List Bytes} (hl : ∀ b ∈ bl, b.length < 2 ^ 32) {cap room : Nat} (hcap : 24 ≤ cap)
    (hroom : (file chain bl).length ≤ room) :
    (exportStream chain (bl.map some) { cap, room }).2 = .ok () ∧ (exportStream chain (bl.map some) { cap, room }).1.file = file chain bl := by
  have h := exportStream_spec (room := room) hc hcap hl
  constructor
  · by_contra hne
    have := (h.full hne).2
    simp only [Writer.said, Writer.total, List.nil_append, List.length_nil, Nat.zero_add] at this
    omega
  · rw [h.file]
    simp only [Writer.said, Writer.total, List.nil_append, List.length_nil, Nat.zero_add]
    exact List.take_of_length_le hroom

/-- On a full disk the file is cut off; the export then reports an I/O error, or success, but success only if no more than a buffer is missing. -/
theorem C82_disk_full (hc : chain.length = 4) {bl : List Bytes} (hl : ∀ b ∈ bl, b.length < 2 ^ 32) {cap room : Nat} (hcap : 24 ≤ cap) :
    (exportStream chain (bl.map some) { cap, room }).1.file = (file chain bl).take room ∧
    ((exportStream chain (bl.map some) { cap, room }).2 = .error .io ∨
      (exportStream chain (bl.map some) { cap, room }).2 = .ok () ∧ (file chain bl).length ≤ room + cap) := by
  have h := exportStream_spec (room := room) hc hcap hl
  constructor
  · rw [h.file]
    simp only [Writer.said, Writer.total, List.nil_append, List.length_nil, Nat.zero_add]
  · by_cases hok : (exportStream chain (bl.map some) { cap, room }).2 = .ok ()
    · refine .inr ⟨hok, ?_⟩
      have h1 := congrArg List.length (h.said hok)
      have h2 := h.total
      have h3 := h.sane
      rw [h.cap] at h3
      simp only [Writer.said, Writer.total, List.nil_append, List.length_nil, Nat.zero_add, List.length_append] at h1 h2 h3
      omega
    · exact .inl (h.full hok).1

/-- Finding: the writer is not flushed before success is reported, so an export to a full disk can report success and leave a file that cannot be imported. -/
theorem C82_disk_full_finding : ∃ (bl : List Bytes) (room : Nat),
    (exportStream [1, 2, 3, 4] (bl.map some) { cap := 8192, room }).2 = .ok () ∧
    (exportStream [1, 2, 3, 4] (bl.map some) { cap := 8192, room }).1.file ≠ file [1, 2, 3, 4] bl ∧
    ∀ (r : Reader), Reads r (exportStream [1, 2, 3, 4] (bl.map some) { cap := 8192, room }).1.file →
      ∀ (f : Handler Nat Nat) s, importStream (uint 1) [1, 2, 3, 4] f r s = (s, .error .tooSmall) := by
  refine ⟨[[1, 2, 3]], 10, by rfl, by decide +kernel, ?_⟩
  intro r hr f s
  unfold importStream
  rw [readHeader_short hr (by decide +kernel)]

/-! ### the exported blocks -/

/-- The list of blocks of the main chain: the blocks after genesis, each the parent of the next, up to the tip; all of them are stored. -/
theorem C82_main_list (hu : Undoes env) {s : Db L} (h : Reach env s) :
    ∃ l, mainList env s = .ok l ∧ ChainTo env s.best l ∧ ∀ x ∈ l, (s.blocks.get x).isSome = true := by
  have hs := reach_sinv hu h
  obtain ⟨l, h1, h2, h3⟩ := mainList_spec hs
  exact ⟨l, h1, h2, fun x hx => main_stored hs ((h3 x).1 hx).1 ((h3 x).1 hx).2⟩

/-- The list with stale blocks: every block with an index once, parents before children. -/
theorem C82_tree_list (hu : Undoes env) {s : Db L} (h : Reach env s) :
    (treeList s).Nodup ∧ (∀ x, x ∈ treeList s ↔ x ≠ env.tree.genesisId ∧ Known env s x) ∧ ParentsFirst env (treeList s) := by
  have hs := reach_sinv hu h
  exact ⟨treeList_nodup hs.i.tree, fun x => treeList_mem hs.i.tree, treeList_parents hs.i.tree⟩

/-- the blocks of a node as values: they have an encoding, are not too large, and have the ids they are stored under -/
def Storable (c : Codec B) (fits : B → Prop) (idOf : B → Nat) (block : Nat → B) (s : Db L) : Prop :=
  ∀ x, (s.blocks.get x).isSome = true → fits (block x) ∧ (c.enc (block x)).length ≤ 10 * 1024 * 1024 ∧ idOf (block x) = x

/-- The file with the main chain of a node. -/
theorem C82_export (hu : Undoes env) (hc : chain.length = 4) {idOf : B → Nat} {block : Nat → B} {s : Db L} (h : Reach env s) (hst : Storable c fits idOf block s)
    {cap room : Nat} (hcap : 24 ≤ cap) {l : List Nat} (hl : ChainTo env s.best l) (hroom : (file chain (l.map (fun x => c.enc (block x)))).length ≤ room) :
    ∃ w, exportNode env c block chain s false { cap, room } = (w, .ok ()) ∧ w.file = file chain (l.map (fun x => c.enc (block x))) := by
  obtain ⟨l', h1, h2, h3⟩ := C82_main_list hu h
  have hll := h2.unique hl
  subst hll
  unfold exportNode
  simp only [Bool.false_eq_true, if_false, h1]
  rw [stored_map h3]
  obtain ⟨a, b⟩ := C82_written (bl := l'.map (fun x => c.enc (block x))) hc (fun b hb => by
    obtain ⟨x, hx, rfl⟩ := List.mem_map.1 hb
    exact Nat.lt_of_le_of_lt (hst x (h3 x hx)).2.1 (by decide)) hcap hroom
  exact ⟨_, Prod.ext rfl a, b⟩

theorem upto_same (hu : Undoes env) {s : Db L} (h : Reach env s) {l : List Nat} (hl : ChainTo env s.best l) {n : Node L} (hn : Upto env n l) :
    n.db.best = s.best ∧ n.db.ledger = s.ledger ∧ mainList env n.db = mainList env s ∧ ∀ x, Known env n.db x ↔ Main env s x := by
  have hs := reach_sinv hu h
  have hs' := reach_sinv hu hn.reach
  have hb := hn.chain.last hl
  obtain ⟨l1, a1, a2, a3⟩ := mainList_spec hs
  obtain ⟨l2, b1, b2, b3⟩ := mainList_spec hs'
  have e1 := a2.unique hl
  have e2 := b2.unique hn.chain
  subst e1 e2
  have hled := hs'.m.led
  rw [hb] at hled
  refine ⟨hb, led_unique hled hs.m.led, by rw [a1, b1], fun x => ?_⟩
  rw [hn.known, a3]
  constructor
  · rintro (rfl | h)
    · exact hs.i.tree.anc_genesis hs.m.known
    · exact h.2
  · intro hm
    by_cases hg : x = env.tree.genesisId
    · exact .inl hg
    · exact .inr ⟨hg, hm⟩

/-- A new node that imports the file with the main chain of another node ends with the same tip, the same chain state and the same main chain, and knows
exactly these blocks. -/
theorem C82_reproduce (hu : Undoes env) (hx : Exact c fits) (hc : chain.length = 4) {idOf : B → Nat} {block : Nat → B}
    {s : Db L} (h : Reach env s) (hst : Storable c fits idOf block s) {l : List Nat} (hl : ChainTo env s.best l) (hpr : ∀ x ∈ l, 0 < (env.tree.body x).proof) (hn : l.length < 2 ^ 64)
    {ctx : Ctx} (hctx : ∀ x ∈ l, Clear ctx x) {max : Nat} {extra : Bytes} {r : Reader} (hr : Reads r (file chain (l.map (fun x => c.enc (block x))) ++ extra)) :
    ∃ n, importNode env c idOf chain ctx r (Node.new env max) = (n, .ok ()) ∧ n.db.best = s.best ∧ n.db.ledger = s.ledger ∧
      mainList env n.db = mainList env s ∧ (∀ x, Known env n.db x ↔ Main env s x) ∧ Storable c fits idOf block n.db := by
  have hs := reach_sinv hu h
  obtain ⟨l', h1, h2, h3⟩ := C82_main_list hu h
  have hll := h2.unique hl
  subst hll
  obtain ⟨l1, a1, a2, a3⟩ := mainList_spec hs
  have e1 := a2.unique hl
  subst e1
  have hval : ∀ x ∈ l1, Valid env x := fun x hx => valid_anc hs.i.tree ((a3 x).1 hx).2 ⟨_, hs.m.led⟩
  obtain ⟨n, e, hup⟩ := feed_chain hu (idOf := idOf) (block := block) (ctx := ctx) l1 (upto_new max) (by simpa using hl)
    (fun x hx => ⟨hval x hx, hpr x hx, hctx x hx, (hst x (h3 x hx)).2.2⟩)
  rw [List.nil_append] at hup
  obtain ⟨b1, b2, b3, b4⟩ := upto_same hu h hl hup
  refine ⟨n, ?_, b1, b2, b3, b4, fun x hx => hst x (h3 x ((hup.blocks x).1 hx))⟩
  have := C82_roundtrip hx hc (importBlock env idOf ctx) (bl := l1.map block) (extra := extra) (r := r) (fun b hb => by
    obtain ⟨x, hx, rfl⟩ := List.mem_map.1 hb
    exact ⟨(hst x (h3 x hx)).1, (hst x (h3 x hx)).2.1⟩) (by rw [List.length_map]; exact hn) (by rw [List.map_map]; exact hr) (Node.new env max)
  unfold importNode
  rw [this, e]

/-- An import that breaks off because the file is not complete is continued by importing the complete file: the result is the same. -/
theorem C82_resume (hu : Undoes env) (hx : Exact c fits) (hc : chain.length = 4) {idOf : B → Nat} {block : Nat → B}
    {s : Db L} (h : Reach env s) (hst : Storable c fits idOf block s) {l : List Nat} (hl : ChainTo env s.best l) (hpr : ∀ x ∈ l, 0 < (env.tree.body x).proof) (hn : l.length < 2 ^ 64)
    {ctx ctx' : Ctx} (hctx : ∀ x ∈ l, Clear ctx x) (hctx' : ∀ x ∈ l, Clear ctx' x) {max : Nat} {p q : Bytes} (hq : q ≠ [])
    (hpq : p ++ q = file chain (l.map (fun x => c.enc (block x)))) {r r' : Reader} (hr : Reads r p) (hr' : Reads r' (p ++ q)) :
    ∃ n1 e n, importNode env c idOf chain ctx r (Node.new env max) = (n1, .error e) ∧ importNode env c idOf chain ctx' r' n1 = (n, .ok ()) ∧
      n.db.best = s.best ∧ n.db.ledger = s.ledger ∧ mainList env n.db = mainList env s ∧ ∀ x, Known env n.db x ↔ Main env s x := by
  have hs := reach_sinv hu h
  obtain ⟨l', h1, h2, h3⟩ := C82_main_list hu h
  have hll := h2.unique hl
  subst hll
  obtain ⟨l1, a1, a2, a3⟩ := mainList_spec hs
  have e1 := a2.unique hl
  subst e1
  have hval : ∀ x ∈ l1, Valid env x := fun x hx => valid_anc hs.i.tree ((a3 x).1 hx).2 ⟨_, hs.m.led⟩
  have hb : ∀ b ∈ l1.map block, fits b ∧ (c.enc b).length ≤ 10 * 1024 * 1024 := fun b hb => by
    obtain ⟨x, hx, rfl⟩ := List.mem_map.1 hb
    exact ⟨(hst x (h3 x hx)).1, (hst x (h3 x hx)).2.1⟩
  have hfile : file chain (l1.map (fun x => c.enc (block x))) = file chain ((l1.map block).map c.enc) := by rw [List.map_map]; rfl
  -- what the first import does
  have hfirst : ∃ k n1 e, importNode env c idOf chain ctx r (Node.new env max) = (n1, .error e) ∧ Upto env n1 (l1.take k) := by
    rcases C82_truncated hx hc goesOn_import hb (by rw [List.length_map]; exact hn) hq (by rw [hpq, hfile]) hr (Node.new env max) (f := importBlock env idOf ctx) with
      ⟨-, e⟩ | ⟨k, -, -, -, e1, e2⟩
    · exact ⟨0, _, _, e, upto_new max⟩
    · obtain ⟨y, hy⟩ := hl.take k
      obtain ⟨n1, e, hup⟩ := feed_chain hu (idOf := idOf) (block := block) (ctx := ctx) (l1.take k) (upto_new max) (by
        rw [List.nil_append]; exact hy) (fun x hx => have hx := List.mem_of_mem_take hx
          ⟨hval x hx, hpr x hx, hctx x hx, (hst x (h3 x hx)).2.2⟩)
      rw [List.nil_append] at hup
      rw [← List.map_take, e] at e1 e2
      exact ⟨k, n1, _, Prod.ext e1 e2, hup⟩
  obtain ⟨k, n1, e1, hi1, hup1⟩ := hfirst
  obtain ⟨n, e, hup⟩ := feed_chain hu (idOf := idOf) (block := block) (ctx := ctx') (l1.drop k) hup1 (by rw [List.take_append_drop]; exact hl)
    (fun x hx => have hx := List.mem_of_mem_drop hx
      ⟨hval x hx, hpr x hx, hctx' x hx, (hst x (h3 x hx)).2.2⟩)
  rw [List.take_append_drop] at hup
  refine ⟨n1, e1, n, hi1, ?_, upto_same hu h hl hup⟩
  have := C82_roundtrip hx hc (importBlock env idOf ctx') (bl := l1.map block) (extra := []) (r := r') hb (by rw [List.length_map]; exact hn)
    (by rw [List.append_nil, ← hfile, ← hpq]; exact hr') n1
  unfold importNode
  rw [this, ← List.take_append_drop k l1, List.map_append, feed_skip, e]
  intro b hb
  obtain ⟨x, hx, rfl⟩ := List.mem_map.1 hb
  have hx' := List.mem_of_mem_take hx
  rw [(hst x (h3 x hx')).2.2]
  exact ⟨(hctx' x hx').stop, (hup1.blocks x).2 hx⟩

/-- Importing blocks that are all stored already changes nothing. -/
theorem C82_again (hx : Exact c fits) (hc : chain.length = 4) {idOf : B → Nat} {ctx : Ctx} {n : Node L} {bl : List B}
    (hb : ∀ b ∈ bl, fits b ∧ (c.enc b).length ≤ 10 * 1024 * 1024) (hn : bl.length < 2 ^ 64)
    (hst : ∀ b ∈ bl, ctx.stop (idOf b) = false ∧ (n.db.blocks.get (idOf b)).isSome = true) {extra : Bytes} {r : Reader}
    (hr : Reads r (file chain (bl.map c.enc) ++ extra)) : importNode env c idOf chain ctx r n = (n, .ok ()) := by
  unfold importNode
  rw [C82_roundtrip hx hc _ hb hn hr]
  have := feed_skip (env := env) (idOf := idOf) (ctx := ctx) (n := n) bl [] hst
  rw [List.append_nil] at this
  rw [this, feed]

/-- Shutting down: once the shutdown is noticed, no further block is processed and the import ends with an error. -/
theorem C82_interrupted {idOf : B → Nat} {ctx : Ctx} {n : Node L} {b : B} {bl : List B} (h : ctx.stop (idOf b) = true) :
    feed (importBlock env idOf ctx) (b :: bl) n = (n, .error .interrupted) := by
  have : importBlock env idOf ctx n b = (n, .error .interrupted) := by
    unfold importBlock
    rw [if_pos h]
  rw [feed, this]

/-! ### stale blocks -/

/-- A new node that imports the file with all blocks of another node, among which there is no bad one, knows the same blocks in the end, and its tip has the
same chain trust; if no other block has that trust, tip and chain state are the same. -/
theorem C82_stale (hu : Undoes env) (hx : Exact c fits) (hc : chain.length = 4) {idOf : B → Nat} {block : Nat → B}
    {s : Db L} (h : Later env Honest (Db.init env) s) (hz : s.minHeight = 0) (hst : Storable c fits idOf block s)
    (hall : ∀ x, Known env s x → x ≠ env.tree.genesisId → (s.blocks.get x).isSome = true ∧ Valid env x ∧ height env s x ≤ env.maxDepth)
    (hn : (treeList s).length < 2 ^ 64) {ctx : Ctx} (hctx : ∀ x ∈ treeList s, Clear ctx x) {max : Nat} (hmax : (treeList s).length < max) {cap room : Nat} (hcap : 24 ≤ cap)
    (hroom : (file chain ((treeList s).map (fun x => c.enc (block x)))).length ≤ room) :
    ∃ w, exportNode env c block chain s true { cap, room } = (w, .ok ()) ∧ ∀ r, Reads r w.file →
      ∃ n, importNode env c idOf chain ctx r (Node.new env max) = (n, .ok ()) ∧ (∀ x, Known env n.db x ↔ Known env s x) ∧
        trust env n.db n.db.best = trust env s s.best ∧
        ((∀ x, Known env s x → trust env s x = trust env s s.best → x = s.best) → n.db.best = s.best ∧ n.db.ledger = s.ledger) := by
  have hs := later_sinv hu sinv_init h
  have ht := hs.i.tree
  have hmem : ∀ x, x ∈ treeList s ↔ x ≠ env.tree.genesisId ∧ Known env s x := fun x => treeList_mem ht
  have hfacts : ∀ x ∈ treeList s, (s.blocks.get x).isSome = true ∧ Valid env x ∧ height env s x ≤ env.maxDepth := fun x hx =>
    hall x ((hmem x).1 hx).2 ((hmem x).1 hx).1
  have hdepth : ∀ x, Known env s x → Depth env x (height env s x) := by
    refine ht.induct (P := fun x => Depth env x (height env s x)) (by rw [height_genesis]; exact .genesis) ?_
    intro id e he hd
    have hp := ht.parent he
    rw [hp.2.1]
    rw [ht.prev_eq he] at hd ⊢
    exact .block (ht.ne_genesis he) hd
  have hgood : Good env (treeList s) := by
    refine ⟨treeList_nodup ht, fun x hx => ⟨((hmem x).1 hx).1, ?_⟩, fun x hx => (hfacts x hx).2.1, fun x hx => ⟨_, (hfacts x hx).2.2, hdepth x ((hmem x).1 hx).2⟩⟩
    obtain ⟨e, he⟩ := (known_cases ((hmem x).1 hx).2).resolve_left ((hmem x).1 hx).1
    have hp := (ht.parent he).1
    rw [ht.prev_eq he] at hp
    by_cases hg : parent env x = env.tree.genesisId
    · exact .inl hg
    · exact .inr ((hmem _).2 ⟨hg, hp⟩)
  have hb : ∀ b ∈ (treeList s).map block, fits b ∧ (c.enc b).length ≤ 10 * 1024 * 1024 := fun b hb => by
    obtain ⟨x, hx, rfl⟩ := List.mem_map.1 hb
    exact ⟨(hst x (hfacts x hx).1).1, (hst x (hfacts x hx).1).2.1⟩
  obtain ⟨a, b⟩ := C82_written (bl := (treeList s).map (fun x => c.enc (block x))) hc (fun b hb => by
    obtain ⟨x, hx, rfl⟩ := List.mem_map.1 hb
    exact Nat.lt_of_le_of_lt (hst x (hfacts x hx).1).2.1 (by decide)) hcap hroom
  refine ⟨(exportStream chain (((treeList s).map (fun x => c.enc (block x))).map some) { cap, room }).1, ?_, ?_⟩
  · unfold exportNode
    simp only [if_true]
    rw [stored_map (fun x hx => (hfacts x hx).1)]
    exact Prod.ext rfl a
  · intro r hr
    rw [b] at hr
    have hpar := treeList_parents ht
    have hnew : ∀ x, Known env (Node.new env max).db x → x = env.tree.genesisId := fun x hx => by
      rcases known_cases hx with hx | ⟨e, he⟩
      · exact hx
      · simp [Node.new, Db.init] at he
    obtain ⟨n, e, hi, hp, hk⟩ := feed_tree hu hgood (idOf := idOf) (block := block) (ctx := ctx) (treeList s) (hinv_new hmax) rfl
      (fun x hx => ⟨hx, hctx x hx, (hst x (hfacts x hx).1).2.2, fun hk => ((hmem x).1 hx).1 (hnew x hk)⟩) (treeList_nodup ht) (by
        intro k hk
        unfold ParentsFirst at hpar
        split at hpar
        · rename_i h0; rw [h0] at hk; cases hk
        · rcases hpar k hk with hp | hp
          · left; unfold parent; rw [hp]; exact known_genesis _
          · exact .inr hp)
    have hsame : ∀ x, Known env n.db x ↔ Known env s x := by
      intro x
      rw [hk, hmem]
      constructor
      · rintro (hx | hx)
        · rw [hnew x hx]; exact known_genesis _
        · exact hx.2
      · intro hx
        by_cases hg : x = env.tree.genesisId
        · left; rw [hg]; exact known_genesis _
        · exact .inr ⟨hg, hx⟩
    have hag := C36_agreement hu h hi.later hz hi.zero (fun x => (hsame x).symm)
    refine ⟨n, ?_, hsame, hag.1.symm, hag.2⟩
    have := C82_roundtrip hx hc (importBlock env idOf ctx) (bl := (treeList s).map block) (extra := []) (r := r) hb (by rw [List.length_map]; exact hn)
      (by rw [List.append_nil, List.map_map]; exact hr) (Node.new env max)
    unfold importNode
    rw [this, e]

/-- A block that is known without being stored, as a bad block is, makes the export with stale blocks impossible. -/
theorem C82_stale_fails (hu : Undoes env) {block : Nat → B} {s : Db L} (h : Reach env s) {x : Nat} (hg : x ≠ env.tree.genesisId) (hk : Known env s x)
    (hb : s.blocks.get x = none) (w : Writer) : ∃ e, (exportNode env c block chain s true w).2 = .error e := by
  have hs := reach_sinv hu h
  unfold exportNode
  simp only [if_true]
  apply exportStream_missing
  rw [List.mem_map]
  exact ⟨x, (treeList_mem hs.i.tree).2 ⟨hg, hk⟩, by simp [stored, hb]⟩

/-- Finding: one bad block received from anyone makes the export with stale blocks fail for ever (its index is kept, its data is not). -/
theorem C82_stale_finding : ∃ s : Db (List Nat), Reach exEnv s ∧ Known exEnv s 66 ∧ s.blocks.get 66 = none ∧
    ∀ w, ∃ e, (exportNode exEnv (uint 1) id [1, 2, 3, 4] s true w).2 = .error e := by
  have hr : Reach exEnv (exRun [.process 1 {}, .process 66 {}]) :=
    Later.step (.process 66 {}) (Later.step (.process 1 {}) .refl trivial (by simp [Proper, exEnv])) trivial (by simp [Proper, exEnv])
  have hb : (exRun [.process 1 {}, .process 66 {}]).blocks.get 66 = none := by decide +kernel
  have hk : Known exEnv (exRun [.process 1 {}, .process 66 {}]) 66 := by
    have : ((exRun [.process 1 {}, .process 66 {}]).index.get 66).isSome = true := by decide +kernel
    obtain ⟨e, he⟩ := Option.isSome_iff_exists.1 this
    exact known_of_get he
  exact ⟨_, hr, hk, hb, fun w => C82_stale_fails exEnv_undoes hr (by simp [exEnv]) hk hb w⟩

/-! ### the mode of the database -/

theorem mode_inv (fresh : Bool) (ops : List ModeOp) :
    (ops.foldl Mode.step (Mode.start fresh)).reckless = !(ops.foldl Mode.step (Mode.start fresh)).synced ∧
    (ops.foldl Mode.step (Mode.start fresh)).counter = bif (ops.foldl Mode.step (Mode.start fresh)).synced then 0 else 1 := by
  have htips : ∀ (tips : List Bool) (m : Mode), m.reckless = true → m.counter = (bif m.synced then 1 else 2) →
      (tips.foldl (fun m f => m.tip f false) m).reckless = true ∧
      (tips.foldl (fun m f => m.tip f false) m).counter = bif (tips.foldl (fun m f => m.tip f false) m).synced then 1 else 2 := by
    intro tips
    induction tips with
    | nil => intro m h1 h2; exact ⟨h1, h2⟩
    | cons t tips ih =>
      intro m h1 h2
      obtain ⟨k, rk, sy⟩ := m
      simp only at h1 h2
      subst h1 h2
      apply ih <;> cases t <;> cases sy <;> rfl
  have hstep : ∀ (m : Mode) (op : ModeOp), (m.reckless = !m.synced ∧ m.counter = bif m.synced then 0 else 1) →
      ((m.step op).reckless = !(m.step op).synced ∧ (m.step op).counter = bif (m.step op).synced then 0 else 1) := by
    rintro ⟨k, rk, sy⟩ op ⟨h1, h2⟩
    simp only at h1 h2
    subst h1 h2
    cases op with
    | tip f => cases f <;> cases sy <;> exact ⟨rfl, rfl⟩
    | «import» tips =>
      obtain ⟨a, b⟩ := htips tips (Mode.inc ⟨bif sy then 0 else 1, !sy, sy⟩) (by cases sy <;> rfl) (by cases sy <;> rfl)
      simp only [Mode.step, Mode.dec, a, b]
      cases (tips.foldl (fun m f => m.tip f false) (Mode.inc ⟨bif sy then 0 else 1, !sy, sy⟩)).synced <;> exact ⟨rfl, rfl⟩
  have : ∀ (ops : List ModeOp) (m : Mode), (m.reckless = !m.synced ∧ m.counter = bif m.synced then 0 else 1) →
      ((ops.foldl Mode.step m).reckless = !(ops.foldl Mode.step m).synced ∧
        (ops.foldl Mode.step m).counter = bif (ops.foldl Mode.step m).synced then 0 else 1) := by
    intro ops
    induction ops with
    | nil => intro m h; exact h
    | cons op ops ih => intro m h; exact ih _ (hstep m op h)
  exact this ops _ (by cases fresh <;> exact ⟨rfl, rfl⟩)

/-- Between imports the database is in its fast but less safe mode exactly until the initial download is finished; during an import it is in that mode all the time. -/
theorem C82_reckless (fresh : Bool) (ops : List ModeOp) :
    (ops.foldl Mode.step (Mode.start fresh)).reckless = !(ops.foldl Mode.step (Mode.start fresh)).synced ∧
    ∀ tips : List Bool, (tips.foldl (fun m f => m.tip f false) (ops.foldl Mode.step (Mode.start fresh)).inc).reckless = true := by
  obtain ⟨h1, h2⟩ := mode_inv fresh ops
  refine ⟨h1, ?_⟩
  generalize ops.foldl Mode.step (Mode.start fresh) = m at h1 h2
  have key : ∀ (tips : List Bool) (m : Mode), m.reckless = true → m.counter = (bif m.synced then 1 else 2) →
      (tips.foldl (fun m f => m.tip f false) m).reckless = true := by
    intro tips
    induction tips with
    | nil => intro m h1 h2; exact h1
    | cons t tips ih =>
      intro m h1 h2
      obtain ⟨k, rk, sy⟩ := m
      simp only at h1 h2
      subst h1 h2
      apply ih <;> cases t <;> cases sy <;> rfl
  intro tips
  obtain ⟨k, rk, sy⟩ := m
  simp only at h1 h2
  subst h1 h2
  apply key <;> cases sy <;> rfl

/-! ### examples -/

/-- a reader that delivers a file in pieces of some size -/
def pieces (k : Nat) : Nat → Bytes → Reader
  | 0, _ => []
  | n + 1, bs => if bs = [] then [] else some (bs.take k) :: pieces k n (bs.drop k)

/-- the state of the exporting node: the chain 1-2 with the stale branch 11-12 -/
def exNode : Db (List Nat) := exRun [.process 11 {}, .process 12 {}, .process 1 {}, .process 2 {}]

theorem exNode_reach : Later exEnv Honest (Db.init exEnv) exNode := by
  refine Later.step (.process 2 {}) ?_ ⟨rfl, fun _ => rfl⟩ (by simp [Proper, exEnv])
  refine Later.step (.process 1 {}) ?_ ⟨rfl, fun _ => rfl⟩ (by simp [Proper, exEnv])
  refine Later.step (.process 12 {}) ?_ ⟨rfl, fun _ => rfl⟩ (by simp [Proper, exEnv])
  exact Later.step (.process 11 {}) .refl ⟨rfl, fun _ => rfl⟩ (by simp [Proper, exEnv])

/-- the main chain of this node -/
example : ChainTo exEnv exNode.best [1, 2] := by
  have : exNode.best = 2 := by decide +kernel
  rw [this]
  exact ChainTo.block (l := [1]) (by decide) (ChainTo.block (l := []) (by decide) .genesis)

/-- its file: the start, then the two blocks, each of one byte -/
example : (exportNode exEnv (uint 1) id [1, 2, 3, 4] exNode false { cap := 8192, room := 100 }).1.file =
    [77, 76, 66, 84, 83, 84, 82, 80, 1, 2, 3, 4, 0, 0, 0, 0, 2, 0, 0, 0, 0, 0, 0, 0, 1, 0, 0, 0, 1, 1, 0, 0, 0, 2] := by decide +kernel

/-- importing it in pieces of seven bytes, with something appended -/
example : let f := (exportNode exEnv (uint 1) id [1, 2, 3, 4] exNode false { cap := 8192, room := 100 }).1.file ++ [9]
    let n := importNode exEnv (uint 1) id [1, 2, 3, 4] {} (pieces 7 10 f) (Node.new exEnv 10)
    n.2.isOk = true ∧ exView n.1.db = exView exNode := by decide +kernel

/-- with the stale branch -/
example : let f := (exportNode exEnv (uint 1) id [1, 2, 3, 4] exNode true { cap := 24, room := 100 }).1.file
    let n := importNode exEnv (uint 1) id [1, 2, 3, 4] {} (pieces 1 100 f) (Node.new exEnv 10)
    n.2.isOk = true ∧ exView n.1.db = exView exNode ∧ treeList n.1.db = treeList exNode ∧ treeList exNode = [1, 11, 2, 12] := by decide +kernel

/-- cut short, then complete; and a file of another chain -/
example : let f := (exportNode exEnv (uint 1) id [1, 2, 3, 4] exNode false { cap := 8192, room := 100 }).1.file
    let n := importNode exEnv (uint 1) id [1, 2, 3, 4] {} (pieces 7 10 (f.take 33)) (Node.new exEnv 10)
    n.2 = .error .badFormat ∧ n.1.db.best = 1 ∧ (importNode exEnv (uint 1) id [1, 2, 3, 4] {} (pieces 7 10 f) n.1).1.db.best = 2 ∧
    (importNode exEnv (uint 1) id [1, 2, 3, 5] {} (pieces 7 10 f) (Node.new exEnv 10)).2 = .error .wrongChain := by
  refine ⟨by rfl, by decide +kernel, by decide +kernel, by rfl⟩

/-- the blocks of this node have ids of one byte -/
example : Storable (uint 1) (fun n => n < 256) id id exNode := by
  intro x hx
  have : x ∈ [1, 2, 11, 12] := by
    have hb : exNode.blocks.entries.map Prod.fst = [1, 2, 11, 12] := by decide +kernel
    obtain ⟨u, hu⟩ := Option.isSome_iff_exists.1 hx
    rw [← hb]
    exact List.mem_map.2 ⟨(x, u), BMap.mem_entries.2 hu, rfl⟩
  simp only [List.mem_cons, List.not_mem_nil, or_false] at this
  rcases this with rfl | rfl | rfl | rfl <;> exact ⟨by decide, by decide +kernel, rfl⟩

/-- nothing stands in the way by default -/
example : ∀ x, Clear {} x := fun _ => ⟨rfl, rfl, fun _ => rfl⟩

end Verif.Bootstrap
