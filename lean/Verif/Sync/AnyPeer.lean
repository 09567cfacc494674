import Verif.Sync.Session
import Verif.Sync.AnyPeerSpec

/-!
# What holds whatever the peer does
-/

namespace Verif.Sync
open Verif Verif.Chainstate Verif.Chainstate.Spec
open Verif.BlockTree hiding Err

variable {L : Type} {env : Env L} {lim : Limits}

theorem storedGen_eq {s : Db L} (t : TInv env s) {x : Nat} {g : Gen} (h : storedGen env s x = some g) : g.id env.tree = x ∧ Stored env s x := by
  unfold storedGen at h
  split at h
  · next e => cases h; exact ⟨e.symm, .inl e⟩
  · split at h
    · next e he =>
      split at h
      · next hp =>
        cases h
        refine ⟨t.id_eq' he, .inr ?_⟩
        unfold stored; rw [he]; exact hp
      · cases h
    · cases h

theorem chooseIdx_cases (a b : Option Gen) {z : Nat} (h : chooseIdx env a b = some z) : (∃ g, a = some g ∧ g.id env.tree = z) ∨ ∃ g, b = some g ∧ g.id env.tree = z := by
  cases a with
  | none =>
    cases b with
    | none => cases h
    | some g => simp only [chooseIdx, Option.some.injEq] at h; exact .inr ⟨g, rfl, h⟩
  | some g =>
    cases b with
    | none => simp only [chooseIdx, Option.some.injEq] at h; exact .inl ⟨g, rfl, h⟩
    | some g' =>
      simp only [chooseIdx] at h
      split at h
      · cases h; exact .inr ⟨g', rfl, rfl⟩
      · cases h; exact .inl ⟨g, rfl, rfl⟩

theorem chooseBest_stored {s : Db L} (t : TInv env s) {a b : Option Nat} {z : Nat} (h : chooseBest env s a b = some z) : Stored env s z := by
  rcases chooseIdx_cases _ _ h with ⟨g, h1, h2⟩ | ⟨g, h1, h2⟩
  · obtain ⟨x, -, h3⟩ := Option.bind_eq_some_iff.1 h1
    obtain ⟨h4, h5⟩ := storedGen_eq t h3
    rw [← h2, h4]; exact h5
  · obtain ⟨x, -, h3⟩ := Option.bind_eq_some_iff.1 h1
    obtain ⟨h4, h5⟩ := storedGen_eq t h3
    rw [← h2, h4]; exact h5

theorem stored_ne {s : Db L} (hs : SInv env s) {x : Nat} (h : stored s x = true) : x ≠ env.tree.genesisId := by
  unfold stored at h
  cases hi : s.index.get x with
  | none => rw [hi] at h; cases h
  | some e => exact hs.i.tree.ne_genesis hi

/-- the invariant of what a node keeps about a peer -/
structure PInv (env : Env L) (lim : Limits) (s : Db L) (p : Peer) : Prop where
  sinv : SInv env s
  pending : p.pending.length ≤ lim.headers
  requested : p.requested.length ≤ lim.blocks
  queue : p.queue.length ≤ lim.blocks
  stored : ∀ x ∈ p.queue, stored s x = true
  best : ∀ x, p.best = some x → Stored env s x
  sent : ∀ e, p.bestSent = some e → Stored env s e.id

theorem PInv.chain (hu : Undoes env) {s s' : Db L} {p : Peer} (h : PInv env lim s p) (hs : Later env AnyOp s s') : PInv env lim s' p := by
  have hsi := later_sinv hu h.sinv hs
  refine ⟨hsi, h.pending, h.requested, h.queue, ?_, fun x hx => later_stored hu h.sinv hs (h.best x hx), fun e he => later_stored hu h.sinv hs (h.sent e he)⟩
  intro x hx
  have hx' := h.stored x hx
  exact (later_stored hu h.sinv hs (.inr hx')).resolve_left (stored_ne h.sinv hx')

theorem PInv.known {s : Db L} {p : Peer} (h : PInv env lim s p) {x : Nat} (hx : p.best = some x) : Known env s x := (h.best x hx).known

/-! ### nothing fails -/

theorem requestHeaders_ok {s : Db L} {p : Peer} (h : PInv env lim s p) :
    ∃ loc x, requestHeaders env s p = ⟨s, p, [.headerReq loc], none⟩ ∧ Known env s x ∧ IsLocator env s x loc := by
  have hl : ∃ loc x, requestLocator env s p = .ok loc ∧ Known env s x ∧ IsLocator env s x loc := by
    unfold requestLocator
    have hb : ∃ loc x, locatorFromBest env s = .ok loc ∧ Known env s x ∧ IsLocator env s x loc := by
      obtain ⟨l, h1, h2⟩ := locatorFromBest_ok h.sinv
      exact ⟨l, s.best, h1, h.sinv.m.known, h2.isLocator h.sinv.i.tree⟩
    cases hpb : p.best with
    | none => exact hb
    | some x =>
      by_cases hg : x = env.tree.genesisId
      · simp only [if_pos hg]; exact hb
      · simp only [if_neg hg]
        obtain ⟨l, h1, h2⟩ := locatorFromBlock_ok h.sinv (h.known hpb)
        exact ⟨l, x, h1, h.known hpb, h2.isLocator h.sinv.i.tree⟩
  obtain ⟨loc, x, h1, h2, h3⟩ := hl
  exact ⟨loc, x, by simp only [requestHeaders, h1], h2, h3⟩

theorem sendBlock_ok {s : Db L} {p : Peer} (h : PInv env lim s p) {id : Nat} {q : List Nat} (hq : p.queue = id :: q) :
    ∃ e, sendBlock env s p = ⟨s, { p with queue := q, bestSent := e }, [.block id], none⟩ ∧ ∀ i, e = some i → Stored env s i.id := by
  have hst := h.stored id (by rw [hq]; simp)
  have hbl := (stored_iff h.sinv.i.toIBase).1 hst
  obtain ⟨u, hu⟩ := Option.isSome_iff_exists.1 hbl
  unfold stored at hst
  cases hi : s.index.get id with
  | none => rw [hi] at hst; cases hst
  | some e =>
    rw [hi] at hst
    simp only at hst
    refine ⟨if chooseBest env s (p.bestSent.map (·.id)) (some id) = some id then some e.idx else p.bestSent, ?_, ?_⟩
    · simp only [sendBlock, hq, hu, hi, hst, if_true]
    · intro i hii
      split at hii
      · cases hii
        rw [h.sinv.i.tree.id_eq' hi]
        exact .inr (h.stored id (by rw [hq]; simp))
      · exact h.sent i hii

theorem handleNewTip_ok {s : Db L} {p : Peer} (h : PInv env lim s p) (tip : Nat) :
    handleNewTip env lim s p tip = ⟨s, p, [], none⟩ ∨ ∃ g l, handleNewTip env lim s p tip = sendHeaders s p l ∧ Run env s g l ∧ l.length ≤ lim.headers ∧ l ≠ [] := by
  unfold handleNewTip
  split
  · dsimp only
    split
    · exact .inl rfl
    · next hne =>
      generalize hids : p.best.toList ++ (p.bestSent.map (·.id)).toList = ids at *
      have hall : ∀ x ∈ ids, Known env s x := by
        intro x hx
        rw [← hids] at hx
        rcases List.mem_append.1 hx with hx | hx
        · rw [Option.mem_toList] at hx
          exact h.known hx
        · rw [Option.mem_toList, Option.map_eq_some_iff] at hx
          obtain ⟨e, e1, rfl⟩ := hx
          exact (h.sent e e1).known
      obtain ⟨m, l1, -, -, l3⟩ := latestFork_ok h.sinv ids 0 hall
      have hg : ∃ g, Main env s g ∧ Spec.height env s g = m := by
        rcases l3 with rfl | ⟨x, x1, g, g1, g2, g3⟩
        · exact ⟨_, h.sinv.i.tree.anc_genesis h.sinv.m.known, height_genesis s⟩
        · exact ⟨g, g2, g3⟩
      obtain ⟨g, g1, g2⟩ := hg
      obtain ⟨l, e1, e2, e3⟩ := headersAbove_ok h.sinv g1 lim.headers
      have hsince : headersSinceFork env s ids lim.headers = .ok l := by
        unfold headersSinceFork
        have : ids.isEmpty = false := by simpa using hne
        rw [this, l1, ← g2]
        exact e1
      rw [hsince]
      dsimp only
      split
      · exact .inl rfl
      · next hl =>
        split
        · exact .inl rfl
        · exact .inr ⟨g, l, rfl, e2, by omega, by simpa using hl⟩
  · exact .inl rfl

theorem headers_ok {s : Db L} (hs : SInv env s) (loc : List Nat) (k : Nat) : ∃ g l, headersByLocator env s loc k = .ok l ∧ Run env s g l ∧ l.length ≤ k := by
  obtain ⟨g, h1, h2, h3⟩ := forkHeight_ok hs loc
  obtain ⟨l, h4, h5, h6⟩ := headersAbove_ok hs h1 k
  refine ⟨g, l, ?_, h5, by omega⟩
  unfold headersByLocator
  rw [h3]; exact h4

/-! ### the messages sent -/

/-- what may be sent: locators of known blocks; runs of the main chain; requests for some blocks, but not too many -/
def MsgOk (env : Env L) (lim : Limits) (s : Db L) : Msg → Prop
  | .headerReq loc => ∃ x, Known env s x ∧ IsLocator env s x loc
  | .headers l => ∃ g, Run env s g l ∧ l.length ≤ lim.headers
  | .blockReq ids => ids ≠ [] ∧ ids.length ≤ lim.blocks
  | .block _ => False

/-- the result of handling a message -/
structure OutOk (env : Env L) (lim : Limits) (s : Db L) (p : Peer) (m : Msg) (o : Out L) : Prop where
  inv : PInv env lim o.db o.peer
  sent : ∀ x ∈ o.sent, MsgOk env lim o.db x
  few : o.sent.length ≤ 1
  failed : o.err.isSome = true → o.sent = []
  asks : ∀ x ∈ o.peer.requested ++ o.peer.pending, x ∈ p.requested ++ p.pending ∨ x ∈ m.heard

theorem requestHeaders_out {s : Db L} {p q : Peer} {m : Msg} (h : PInv env lim s q) (ha : ∀ x ∈ q.requested ++ q.pending, x ∈ p.requested ++ p.pending ∨ x ∈ m.heard) :
    OutOk env lim s p m (requestHeaders env s q) := by
  obtain ⟨loc, x, h1, h2, h3⟩ := requestHeaders_ok h
  rw [h1]
  refine ⟨h, ?_, by simp, by simp, ha⟩
  intro y hy
  rw [List.mem_singleton] at hy
  subst hy
  exact ⟨x, h2, h3⟩

theorem requestBlocks_out (hlim : 0 < lim.blocks) {s : Db L} {p q : Peer} {m : Msg} {hs : List Nat} (h : PInv env lim s q) (hne : hs ≠ []) (hl : hs.length ≤ lim.headers)
    (ha : ∀ x ∈ q.pending, x ∈ p.requested ++ p.pending ∨ x ∈ m.heard) (hb : ∀ x ∈ hs, x ∈ p.requested ++ p.pending ∨ x ∈ m.heard) :
    OutOk env lim s p m (requestBlocks lim s q hs) := by
  unfold requestBlocks
  refine ⟨⟨h.sinv, ?_, ?_, h.queue, h.stored, h.best, h.sent⟩, ?_, by simp, by simp, ?_⟩
  · dsimp only
    split
    · rw [List.length_drop]; omega
    · exact h.pending
  · dsimp only
    rw [List.length_take]; omega
  · intro y hy
    rw [List.mem_singleton] at hy
    subst hy
    refine ⟨?_, by rw [List.length_take]; omega⟩
    intro he
    rcases List.take_eq_nil_iff.1 he with h | h
    · omega
    · exact hne h
  · intro x hx
    rcases List.mem_append.1 hx with hx | hx
    · exact hb x (List.mem_of_mem_take hx)
    · dsimp only at hx
      split at hx
      · exact hb x (List.mem_of_mem_drop hx)
      · exact ha x hx

theorem plain_out {s : Db L} {p q : Peer} {m : Msg} {e : Option SErr} (h : PInv env lim s q) (ha : ∀ x ∈ q.requested ++ q.pending, x ∈ p.requested ++ p.pending ∨ x ∈ m.heard) :
    OutOk env lim s p m ⟨s, q, [], e⟩ := ⟨h, by simp, by simp, by simp, ha⟩

theorem checkRequested_stored {s : Db L} {sent : Option Idx} : ∀ {ids : List Nat}, checkRequested s sent ids = none → ∀ x ∈ ids, stored s x = true
  | [], _ => by simp
  | id :: ids, h => by
    unfold checkRequested at h
    have hrest : ∀ {b : Option SErr}, b = none → b = checkRequested s sent ids → ∀ x ∈ ids, stored s x = true := by
      intro b hb e; rw [e] at hb; exact checkRequested_stored hb
    cases hi : s.index.get id with
    | none => rw [hi] at h; cases h
    | some e =>
      rw [hi] at h
      simp only at h
      split at h
      · next hp =>
        have hrec : checkRequested s sent ids = none := by
          cases sent with
          | none => exact h
          | some b =>
            simp only at h
            split at h
            · cases h
            · exact h
        intro x hx
        rcases List.mem_cons.1 hx with rfl | hx
        · unfold stored; rw [hi]; exact hp
        · exact checkRequested_stored hrec x hx
      · cases h

theorem continueSync_out (hlim : 0 < lim.blocks) {s : Db L} {p q : Peer} {m : Msg} (h : PInv env lim s q)
    (ha : ∀ x ∈ q.requested ++ q.pending, x ∈ p.requested ++ p.pending ∨ x ∈ m.heard) : OutOk env lim s p m (continueSync env lim s q) := by
  unfold continueSync
  split
  · dsimp only
    split
    · refine requestHeaders_out ⟨h.sinv, by simp, h.requested, h.queue, h.stored, h.best, h.sent⟩ ?_
      intro x hx
      simp only [List.append_nil] at hx
      exact ha x (List.mem_append_left _ hx)
    · next hne =>
      refine requestBlocks_out hlim ⟨h.sinv, by simp, h.requested, h.queue, h.stored, h.best, h.sent⟩ (by simpa using hne) ?_ (by simp) ?_
      · refine Nat.le_trans ?_ h.pending
        exact (List.dropWhile_sublist _).length_le
      · intro x hx
        exact ha x (List.mem_append_right _ ((List.dropWhile_sublist _).mem hx))
  · exact plain_out h ha

theorem handle_out (hu : Undoes env) (hlim : 0 < lim.blocks) {s : Db L} {p : Peer} (h : PInv env lim s p) (ctx : Ctx) (m : Msg) (hm : m.Sane env) :
    OutOk env lim s p m (handle env lim ctx s p m) := by
  have hsub : ∀ x ∈ p.requested ++ p.pending, x ∈ p.requested ++ p.pending ∨ x ∈ m.heard := fun x hx => .inl hx
  cases m with
  | headerReq loc =>
    simp only [handle, handleHeaderReq]
    obtain ⟨g, l, h1, h2, h3⟩ := headers_ok h.sinv loc lim.headers
    split
    · exact plain_out h hsub
    · split
      · refine ⟨⟨h.sinv, h.pending, h.requested, h.queue, h.stored, h.best, h.sent⟩, ?_, by simp [sendHeaders], by simp [sendHeaders], hsub⟩
        intro y hy
        simp only [sendHeaders, List.mem_singleton] at hy
        subst hy
        exact ⟨s.best, .nil h.sinv.main_best, by simp⟩
      · rw [h1]
        refine ⟨⟨h.sinv, h.pending, h.requested, h.queue, h.stored, ?_, h.sent⟩, ?_, by simp [sendHeaders], by simp [sendHeaders], hsub⟩
        · intro x hx
          simp only [sendHeaders] at hx
          split at hx
          · exact chooseBest_stored h.sinv.i.tree hx
          · cases hx; exact main_stored h.sinv h.sinv.main_best
        · intro y hy
          simp only [sendHeaders, List.mem_singleton] at hy
          subst hy
          exact ⟨g, h2, h3⟩
  | headers l =>
    simp only [handle, handleHeaders]
    cases l with
    | nil => exact plain_out h hsub
    | cons first rest =>
      dsimp only
      split
      · exact plain_out h hsub
      · next hlen =>
        split
        · exact plain_out h hsub
        · split
          · exact plain_out h hsub
          · have hb : PInv env lim s { p with best := chooseBest env s p.best (splitKnown s (first :: rest)).1.getLast? } :=
              ⟨h.sinv, h.pending, h.requested, h.queue, h.stored, fun x hx => chooseBest_stored h.sinv.i.tree hx, h.sent⟩
            have hnl : (splitKnown s (first :: rest)).2.length ≤ lim.headers :=
              Nat.le_trans (List.dropWhile_sublist _).length_le (by omega)
            have hnm : ∀ x ∈ (splitKnown s (first :: rest)).2, x ∈ p.requested ++ p.pending ∨ x ∈ (Msg.headers (first :: rest)).heard :=
              fun x hx => .inr ((List.dropWhile_sublist _).mem hx)
            split
            · exact plain_out hb hsub
            · split
              · refine plain_out ⟨h.sinv, hnl, h.requested, h.queue, h.stored, hb.best, h.sent⟩ ?_
                intro x hx
                rcases List.mem_append.1 hx with hx | hx
                · exact .inl (List.mem_append_left _ hx)
                · exact hnm x hx
              · split
                · split
                  · exact requestHeaders_out hb hsub
                  · exact plain_out hb hsub
                · next hne =>
                  exact requestBlocks_out hlim hb (by simpa using hne) hnl (fun x hx => .inl (List.mem_append_right _ hx)) hnm
  | blockReq ids =>
    simp only [handle, handleBlockReq]
    split
    · exact plain_out h hsub
    · split
      · exact plain_out h hsub
      · split
        · exact plain_out h hsub
        · next hlen =>
          split
          · exact plain_out h hsub
          · split
            · exact plain_out h hsub
            · next hck =>
              refine plain_out ⟨h.sinv, h.pending, h.requested, ?_, ?_, h.best, h.sent⟩ hsub
              · simp only [List.length_append]; omega
              · intro x hx
                rcases List.mem_append.1 hx with hx | hx
                · exact h.stored x hx
                · exact checkRequested_stored hck x hx
  | block id =>
    simp only [handle, handleBlock]
    have hsub' : ∀ x ∈ p.requested.tail ++ p.pending, x ∈ p.requested ++ p.pending ∨ x ∈ (Msg.block id).heard := by
      intro x hx
      rcases List.mem_append.1 hx with hx | hx
      · exact .inl (List.mem_append_left _ (List.mem_of_mem_tail hx))
      · exact .inl (List.mem_append_right _ hx)
    have htl : p.requested.tail.length ≤ lim.blocks := by
      have := h.requested
      rw [List.length_tail]; omega
    split
    · exact plain_out h hsub
    · split
      · exact plain_out ⟨h.sinv, h.pending, htl, h.queue, h.stored, h.best, h.sent⟩ hsub'
      · -- the database after processing
        have hdb : Later env AnyOp s (processNew env ctx s id).1 := by
          unfold processNew
          split
          · exact .refl
          · have := Later.step (P := AnyOp) (.process id ctx.now) (.refl (env := env) (s0 := s)) trivial hm
            simp only [step] at this
            split
            · next e => rw [e] at this; exact this
            · next e => rw [e] at this; exact this
        have hp1 : PInv env lim s { p with requested := p.requested.tail } := ⟨h.sinv, h.pending, htl, h.queue, h.stored, h.best, h.sent⟩
        have hp2 := hp1.chain hu hdb
        cases hpn : processNew env ctx s id with
        | mk s' r =>
          rw [hpn] at hp2 hdb
          cases r with
          | some e =>
            exact ⟨hp2, by simp, by simp, by simp, hsub'⟩
          | none =>
            dsimp only at hp2 hdb ⊢
            have ho := continueSync_out (p := p) (m := .block id) hlim (q := { p with
              requested := p.requested.tail
              best := chooseIdx env (p.best.bind (storedGen env s)) (if stored s' id then s'.gen env id else none) })
              ⟨hp2.sinv, hp2.pending, hp2.requested, hp2.queue, hp2.stored, ?_, hp2.sent⟩ hsub'
            · exact ⟨ho.inv, ho.sent, ho.few, ho.failed, ho.asks⟩
            · intro z hz
              rcases chooseIdx_cases _ _ hz with ⟨g, h1, h2⟩ | ⟨g, h1, h2⟩
              · obtain ⟨x, x1, x2⟩ := Option.bind_eq_some_iff.1 h1
                obtain ⟨x3, x4⟩ := storedGen_eq h.sinv.i.tree x2
                rw [← h2, x3]
                exact later_stored hu h.sinv hdb x4
              · split at h1
                · next hst =>
                  rw [← h2, hp2.sinv.i.tree.id_eq h1]
                  exact .inr hst
                · cases h1

end Verif.Sync
