import Verif.Sync.Steps

/-!
# Connections
-/

namespace Verif.Sync
open Verif Verif.Chainstate Verif.Chainstate.Spec
open Verif.BlockTree hiding Err

variable {L : Type} {env : Env L} {lim : Limits} {n : Nat} {c s : Db L} {k : Nat}

theorem fine_default (env : Env L) (s : Db L) : Fine env s {} := ⟨fun _ _ => rfl, fun _ => rfl, fun _ _ => rfl, fun _ _ => rfl⟩

theorem Good.common {j : Link L} {a b d : Nat} (h : Good env lim n s j a b d) : ∃ k, Common env lim n s j k := by
  cases h with
  | ask h => exact ⟨_, h⟩
  | answer h => exact ⟨_, h⟩
  | request h => exact ⟨_, h⟩
  | blocks h => exact ⟨_, h⟩
  | done h => exact ⟨_, h⟩

/-- without steps the download is finished -/
theorem Good.idle {j : Link L} {a b d : Nat} (h : Good env lim n s j a b d) (hi : Idle env lim (Fine env s) j) :
    ∃ k, Common env lim n s j k ∧ Srv env j.client s j.speer [] ∧ j.cpeer.requested = [] ∧ j.cpeer.pending = [] ∧ j.speer.queue = [] ∧ j.toServer = [] ∧ j.toClient = [] ∧
      k = Spec.height env s s.best ∧ Told j.speer := by
  cases h with
  | ask h0 hs h1 h2 h3 h4 => exact absurd (Step.server {} h4 rfl) (hi _)
  | answer h0 hs h1 h2 h3 h4 h5 => exact absurd (Step.client {} h5 (fine_default _ _)) (hi _)
  | request h0 hs h1 h2 h3 h4 => exact absurd (Step.server {} h4 rfl) (hi _)
  | @blocks k g wire h0 hs h1 h2 h3 h4 h5 =>
    cases wire with
    | nil =>
      refine absurd (Step.send ?_) (hi _)
      intro he
      rw [he] at h1
      exact h2 h1
    | cons b wire => exact absurd (Step.client {} h5 (fine_default _ _)) (hi _)
  | done h0 hs h1 h2 h3 h4 h5 h6 h7 => exact ⟨_, h0, hs, h1, h2, h3, h4, h5, h6, h7⟩

theorem Good.terminates (hu : Undoes env) : ∀ (x : Nat × Nat × Nat) (j : Link L), Good env lim n s j x.1 x.2.1 x.2.2 → Terminates env lim (Fine env s) j := by
  intro x
  induction x using less_wf.induction with
  | _ x ih =>
    intro j h
    refine Acc.intro _ (fun j' hst => ?_)
    obtain ⟨a, b, d, h1, h2⟩ := good_step hu h hst
    exact ih (a, b, d) h2 j' h1

/-! ### histories -/

theorem stored_step (hu : Undoes env) {s : Db L} (hs : SInv env s) (op : Op) (hp : Proper env s op) {x : Nat} (hx : (s.blocks.get x).isSome = true) :
    ((step env s op).blocks.get x).isSome = true := by
  cases op with
  | process id now =>
    rcases process_spec (now := now) hu hs.i hs.m hp with ⟨s', r, h1, h2⟩ | ⟨s', e, h1, h2, -⟩
    · simp only [step, h1, h2.blocks]
      by_cases hxi : x = id
      · subst hxi; rw [BMap.get_insert_self]; rfl
      · rw [BMap.get_insert_ne _ _ hxi]; exact hx
    · simp only [step, h1, h2.blocks]; exact hx
  | invalidate id now =>
    rcases invalidate_spec (now := now) hu hs id with ⟨s', h1, h2⟩ | ⟨e, h1, -⟩
    · simp only [step, h1, h2.blocks]; exact hx
    · simp only [step, h1]; exact hx
  | reset id now =>
    rcases reset_spec (now := now) hu hs hp with ⟨s', h1, h2⟩ | ⟨h1, -⟩
    · simp only [step, h1, h2.blocks]; exact hx
    · simp only [step, h1]; exact hx

/-- stored blocks stay stored -/
theorem later_stored (hu : Undoes env) {P : Op → Prop} {s s' : Db L} (hs : SInv env s) (h : Later env P s s') {x : Nat} (hx : Stored env s x) : Stored env s' x := by
  rcases hx with hx | hx
  · exact .inl hx
  · right
    rw [stored_iff (later_sinv hu hs h).i.toIBase]
    rw [stored_iff hs.i.toIBase] at hx
    induction h with
    | refl => exact hx
    | step op h1 _ hp ih => exact stored_step hu (later_sinv hu hs h1) op hp ih

/-- processing keeps the known blocks -/
theorem later_known (hu : Undoes env) {s s' : Db L} (hs : SInv env s) (h : Later env IsProcess s s') {x : Nat} (hx : Known env s x) : Known env s' x := by
  induction h with
  | refl => exact hx
  | @step t op h1 h2 hp ih =>
    cases op with
    | process id now =>
      have ht := later_sinv hu hs h1
      rcases process_spec (now := now) hu ht.i ht.m hp with ⟨s', r, e1, e2⟩ | ⟨s', e, e1, e2, -⟩
      · simp only [step, e1]; exact e2.grows.known ih
      · simp only [step, e1]; exact e2.grows.known ih
    | invalidate => cases h2
    | reset => cases h2

/-! ### new connections, and announcements -/

theorem good_connect (hu : Undoes env) (hc : Reach env c) (hs : Reach env s) (hcs : Compatible env c s) (hl : Suffices lim n)
    (h1 : ∀ x, Known env c x → Spec.height env c x < 2 ^ n) (h2 : Spec.height env s s.best < 2 ^ n) : ∃ a b d, Good env lim n s (connectLink env c s) a b d := by
  obtain ⟨k, hk⟩ := Base.of_compatible (lim := lim) (reach_sinv hu hc) (reach_sinv hu hs) hcs hl h1 h2
  obtain ⟨loc, l1, -⟩ := locatorFromBest_ok hk.ci
  have hr : requestHeaders env c {} = ⟨c, {}, [.headerReq loc], none⟩ := by simp [requestHeaders, requestLocator, l1]
  refine ⟨_, _, _, Good.ask (k := k) (v := Spec.height env s s.best + 1) (loc := loc) ⟨hk, rfl, ?_, ?_⟩ ⟨?_, ?_⟩ ?_ ?_ rfl ?_ rfl ?_ (.inr ⟨?_, rfl⟩)⟩
  · simp [connectLink, hr]
  · intro x hx; simp [connectLink, hr] at hx
  · intro x hx; simp [connectLink] at hx
  · intro x hx; simp [connectLink] at hx
  · simp [connectLink, hr]
  · simp [connectLink, hr]
  · simp [connectLink, hr]
  · simp [connectLink, hr, requestLocator, l1]
  · intro x hx; simp [connectLink, hr] at hx

theorem short_of_near {c s : Db L} (hc : SInv env c) (hs : SInv env s) {x f : Nat} (hx : Known env c x) (hf : ForkOf env c s x f)
    (hn : (Spec.height env c x - Spec.height env c f) + (Spec.height env s s.best - Spec.height env s f) < lim.headers ∨
      ∃ b, Main env s b ∧ Spec.trust env c x ≤ Spec.trust env s b ∧ (Spec.height env c x - Spec.height env c f) + (Spec.height env s b - Spec.height env s f) ≤ lim.headers) : Short env lim c s x := by
  intro loc g hl hg
  obtain ⟨l', e1, e2⟩ := locatorFromBlock_ok hc hx
  rw [hl] at e1; cases e1
  obtain ⟨g1, g2⟩ := fork_gap hc hs (e2.isLocator hc.i.tree) hf hg
  have hgm : Main env s g := by
    rcases hg with ⟨a, b, -, h, -⟩ | ⟨h, -⟩
    · exact h
    · rw [h]; exact hs.i.tree.anc_genesis hs.m.known
  have h1 := height_env hc.i.tree hs.i.tree f hf.1.known_right hf.2.1.known_right
  have h2 := height_env hc.i.tree hs.i.tree g g1.known_right hgm.known_right
  have h3 := (hc.i.tree.anc_height g1).1
  have h4 := (hs.i.tree.anc_height hf.2.1).1
  have h5 := (hc.i.tree.anc_height hf.1).1
  have h6 : Spec.height env s f ≤ Spec.height env s g + (Spec.height env c x - Spec.height env c f) := by
    rcases g2 with rfl | g2 <;> omega
  rcases hn with hn | ⟨b, b1, b2, b3⟩
  · left; omega
  · exact .inr ⟨b, b1, by omega, b2⟩

theorem good_change (hu : Undoes env) {j : Link L} {k : Nat} (h0 : Common env lim n s j k) (hsv : Srv env j.client s j.speer []) (r1 : j.cpeer.requested = [])
    (r2 : j.cpeer.pending = []) (r3 : j.speer.queue = []) (r4 : j.toServer = []) (r5 : j.toClient = []) (ht : Told j.speer) {c' s' : Db L} (hc : Later env IsProcess j.client c')
    (hs : Later env AnyOp s s') (hcs : Compatible env c' s') (h1 : ∀ x, Known env c' x → Spec.height env c' x < 2 ^ n) (h2 : Spec.height env s' s'.best < 2 ^ n)
    (hn : Near env lim c' s' j.cpeer) : ∃ a b d, Good env lim n s' (change env lim j c' s') a b d := by
  have hb := h0.base
  have hci := later_sinv hu hb.ci hc
  have hsi := later_sinv hu hb.si hs
  obtain ⟨k', hk'⟩ := Base.of_compatible (lim := lim) hci hsi hcs hb.lim h1 h2
  have hpb : PbOk env lim c' s' j.cpeer.best := by
    intro x hx
    have hst := later_stored hu hb.ci hc (h0.pb.stored x hx)
    refine ⟨hst, ?_⟩
    rcases hn x hx with h | ⟨f, f1, f2⟩
    · exact .inl h
    · exact .inr (short_of_near hci hsi hst.known f1 f2)
  have hsv' : Srv env c' s' j.speer [] := by
    refine ⟨fun x hx => ⟨later_stored hu hb.si hs (hsv.best x hx).1, later_known hu hb.ci hc (hsv.best x hx).2⟩, ?_⟩
    intro e he
    obtain ⟨s1, s2, s3⟩ := hsv.sent e he
    have hst := later_stored hu hb.si hs s1
    refine ⟨hst, ?_, .inl (later_known hu hb.ci hc (s3.resolve_right (by simp)))⟩
    rw [s2, height_env hb.si.i.tree hsi.i.tree _ s1.known hst.known]
  obtain ⟨t1, x0, t2⟩ := ht
  generalize hids : j.speer.best.toList ++ (j.speer.bestSent.map (·.id)).toList = ids
  have hne : ids ≠ [] := by rw [← hids, t2]; simp
  have hall : ∀ x ∈ ids, Known env s' x ∧ Known env c' x := by
    intro x hx
    rw [← hids] at hx
    rcases List.mem_append.1 hx with hx | hx
    · rw [Option.mem_toList] at hx
      exact ⟨(hsv'.best x hx).1.known, (hsv'.best x hx).2⟩
    · rw [Option.mem_toList, Option.map_eq_some_iff] at hx
      obtain ⟨e, e1, rfl⟩ := hx
      obtain ⟨s1, -, s3⟩ := hsv'.sent e e1
      exact ⟨s1.known, s3.resolve_right (by simp)⟩
  -- the headers since the latest fork
  obtain ⟨m, l1, -, -, l3⟩ := latestFork_ok hsi ids 0 (fun x hx => (hall x hx).1)
  have hg : ∃ g, Main env s' g ∧ Spec.height env s' g = m ∧ Known env c' g := by
    rcases l3 with rfl | ⟨x, x1, g, g1, g2, g3⟩
    · exact ⟨_, hsi.i.tree.anc_genesis hsi.m.known, height_genesis s', known_genesis c'⟩
    · exact ⟨g, g2, g3, ((anc_env hsi.i.tree hci.i.tree (hall x x1).1 (hall x x1).2).1 g1).known_right⟩
  obtain ⟨g, g1, g2, g3⟩ := hg
  obtain ⟨l, e1, e2, e3⟩ := headersAbove_ok hsi g1 lim.headers
  have hsince : headersSinceFork env s' ids lim.headers = .ok l := by
    unfold headersSinceFork
    have : ids.isEmpty = false := by
      cases ids with
      | nil => exact absurd rfl hne
      | cons => rfl
    rw [this, l1, ← g2]
    exact e1
  have hnt : handleNewTip env lim s' j.speer s'.best = if l.isEmpty then ⟨s', j.speer, [], none⟩ else sendHeaders s' j.speer l := by
    have : ids.isEmpty = false := by
      cases ids with
      | nil => exact absurd rfl hne
      | cons => rfl
    simp only [handleNewTip, t1, r3, hids, this, hsince]
    simp
  cases l with
  | nil =>
    have hkt : k' = Spec.height env s' s'.best := by
      have h3 : min lim.headers (Spec.height env s' s'.best - Spec.height env s' g) = 0 := e3.symm
      have h4 := (hk'.known g g1).1 g3
      have h5 := hk'.top
      have h6 := hb.lim.headers
      omega
    have hch : change env lim j c' s' = { j with client := c', server := s' } := by
      simp [change, hnt, r5]
    rw [hch]
    exact ⟨_, _, _, Good.done (k := k') ⟨hk', rfl, h0.failed, hpb⟩ hsv' r1 r2 r3 r4 r5 hkt ⟨t1, x0, t2⟩⟩
  | cons b l =>
    have hch : change env lim j c' s' = { j with client := c', server := s', speer := (sendHeaders s' j.speer (b :: l)).peer, toClient := [.headers (b :: l)] } := by
      simp [change, hnt, r5, sendHeaders, h0.failed]
    rw [hch]
    refine ⟨_, _, _, Good.answer (k := k') (g := g) (l := b :: l) (v := Spec.height env s' s'.best + 2) ⟨hk', rfl, h0.failed, hpb⟩ ⟨hsv'.best, hsv'.sent⟩ r1 r2 r3 r4 rfl e2 g3 e3
      (.inr rfl) (fun _ => ⟨t1, x0, t2⟩)⟩

/-! ### what happens to the client -/

theorem requestHeaders_db (s : Db L) (p : Peer) : (requestHeaders env s p).db = s := by unfold requestHeaders; split <;> rfl

theorem continueSync_db (s : Db L) (p : Peer) : (continueSync env lim s p).db = s := by
  unfold continueSync
  split
  · dsimp only
    split
    · exact requestHeaders_db _ _
    · rfl
  · rfl

/-- messages change the database only by processing the block that was requested next -/
theorem handle_db (ctx : Ctx) (s : Db L) (p : Peer) (m : Msg) :
    (handle env lim ctx s p m).db = s ∨ ∃ id, m = .block id ∧ p.requested.head? = some id ∧ stored s id = false ∧ s.checkBlock env ctx.now id = .ok () ∧
      (handle env lim ctx s p m).db = step env s (.process id ctx.now) := by
  cases m with
  | headerReq loc =>
    left
    simp only [handle, handleHeaderReq]
    repeat' split
    all_goals rfl
  | headers l =>
    left
    simp only [handle, handleHeaders]
    repeat' split
    all_goals first | rfl | exact requestHeaders_db _ _
  | blockReq ids =>
    left
    simp only [handle, handleBlockReq]
    repeat' split
    all_goals rfl
  | block id =>
    simp only [handle, handleBlock]
    split
    · exact .inl rfl
    · next hne =>
      rw [ne_eq, not_not] at hne
      split
      · exact .inl rfl
      · next hchk =>
        cases hst : stored s id with
        | true =>
          simp only [processNew, hst, if_true]
          exact .inl (continueSync_db _ _)
        | false =>
          right
          refine ⟨id, rfl, hne, hst, hchk, ?_⟩
          simp only [processNew, hst, Bool.false_eq_true, if_false, step]
          cases hp : s.process env ctx.now id with
          | mk s' r =>
            cases r with
            | ok r => exact continueSync_db _ _
            | error e => rfl

theorem Good.requested {j : Link L} {a b d : Nat} (h : Good env lim n s j a b d) : ∀ x ∈ j.cpeer.requested, Main env s x ∧ x ≠ env.tree.genesisId := by
  cases h with
  | ask h0 hs h1 => rw [h1]; simp
  | answer h0 hs h1 => rw [h1]; simp
  | request h0 hs h1 h2 h3 h4 h5 h6 =>
    intro x hx
    have hm := List.mem_append_left j.cpeer.pending hx
    exact ⟨h6.mem_main x hm, h6.ne_genesis x hm⟩
  | blocks h0 hs h1 h2 h3 h4 h5 h6 =>
    intro x hx
    have hm := List.mem_append_left j.cpeer.pending hx
    exact ⟨h6.mem_main x hm, h6.ne_genesis x hm⟩
  | done h0 hs h1 => rw [h1]; simp

/-- the client processes blocks of the server's main chain -/
theorem step_client {j j' : Link L} {a b d : Nat} (h : Good env lim n s j a b d) (hst : Step env lim (Fine env s) j j') :
    j'.client = j.client ∨ ∃ id now, Main env s id ∧ id ≠ env.tree.genesisId ∧ j'.client = step env j.client (.process id now) := by
  cases hst with
  | server => exact .inl rfl
  | send => exact .inl rfl
  | @client m ms ctx hm hf =>
    rcases handle_db (env := env) (lim := lim) ctx j.client j.cpeer m with h1 | ⟨id, -, h2, -, -, h3⟩
    · exact .inl h1
    · obtain ⟨h4, h5⟩ := h.requested id (List.mem_of_mem_head? (by rw [h2]; rfl))
      exact .inr ⟨id, ctx.now, h4, h5, h3⟩

theorem later_trans {P : Op → Prop} {a b c : Db L} (h1 : Later env P a b) (h2 : Later env P b c) : Later env P a c := by
  induction h2 with
  | refl => exact h1
  | step op _ h3 h4 ih => exact .step op ih h3 h4

/-- the invariant of connections -/
theorem good_session (hu : Undoes env) (hl : Suffices lim n) {P : Op → Prop} {j : Link L} (h : Session env lim n P j) : ∃ a b d, Good env lim n j.server j a b d := by
  induction h with
  | connect h1 h2 h3 h4 h5 => exact good_connect hu (later_mono (fun _ _ => trivial) h1) h2 h3 hl h4 h5
  | step _ hst ih =>
    obtain ⟨a, b, d, h⟩ := ih
    obtain ⟨a', b', d', h', -⟩ := good_step hu h hst
    obtain ⟨k, hk⟩ := h'.common
    exact ⟨a', b', d', by rw [hk.server]; exact h'⟩
  | @change j c s _ hi h1 h2 h3 h4 h5 h6 ih =>
    obtain ⟨a, b, d, h⟩ := ih
    obtain ⟨k, e0, e1, e2, e3, e4, e5, e6, e7, e8⟩ := h.idle hi
    obtain ⟨a', b', d', h'⟩ := good_change hu e0 e1 e2 e3 e4 e5 e6 e8 h1 h2 h3 h4 h5 h6
    obtain ⟨k, hk⟩ := h'.common
    exact ⟨a', b', d', by rw [hk.server]; exact h'⟩

theorem session_later (hu : Undoes env) (hl : Suffices lim n) {P : Op → Prop} (hP : ∀ op, IsProcess op → P op) {j : Link L} (h : Session env lim n P j) :
    Later env P (Db.init env) j.client ∧ Reach env j.server := by
  induction h with
  | connect h1 h2 => exact ⟨h1, h2⟩
  | @step j j' h hst ih =>
    obtain ⟨a, b, d, hg⟩ := good_session hu hl h
    obtain ⟨a', b', d', hg', -⟩ := good_step hu hg hst
    obtain ⟨k, hk⟩ := hg'.common
    refine ⟨?_, by rw [hk.server]; exact ih.2⟩
    rcases step_client hg hst with e | ⟨id, now, h1, h2, h3⟩
    · rw [e]; exact ih.1
    · rw [h3]; exact .step _ ih.1 (hP _ trivial) h2
  | @change j c s h hi h1 h2 h3 h4 h5 h6 ih =>
    refine ⟨later_trans ih.1 (later_mono hP h1), ?_⟩
    have : (change env lim j c s).server = s := by
      simp only [change, handleNewTip]
      repeat' split
      all_goals rfl
    rw [this]
    exact later_trans ih.2 h2

/-- the tip of the client is the old one or on the main chain of the server -/
theorem steps_tip (hu : Undoes env) (hl : Suffices lim n) {j0 j : Link L} {P : Op → Prop} (h : Session env lim n P j0) (hst : Steps env lim (Fine env j0.server) j0 j) :
    Session env lim n P j ∧ j.server = j0.server ∧
      (j.client.best = j0.client.best ∧ Spec.trust env j.client j.client.best = Spec.trust env j0.client j0.client.best ∨ Main env j0.server j.client.best) := by
  induction hst with
  | refl => exact ⟨h, rfl, .inl ⟨rfl, rfl⟩⟩
  | @tail j j' _ hst ih =>
    obtain ⟨i1, i2, i3⟩ := ih
    rw [← i2] at hst
    obtain ⟨a, b, d, hg⟩ := good_session hu hl i1
    obtain ⟨a', b', d', hg', -⟩ := good_step hu hg hst
    obtain ⟨k', hk'⟩ := hg'.common
    obtain ⟨k, hk⟩ := hg.common
    refine ⟨.step i1 hst, hk'.server.trans i2, ?_⟩
    rcases step_client hg hst with e | ⟨id, now, h1, h2, h3⟩
    · rw [e]; exact i3
    · have hi := hk.base.ci
      have hcase : (j'.client.best = j.client.best ∧ Spec.trust env j'.client j'.client.best = Spec.trust env j.client j.client.best) ∨ j'.client.best = id := by
        rw [h3]
        rcases process_spec (now := now) hu hi.i hi.m h2 with ⟨s', r, e1, e2⟩ | ⟨s', e, e1, e2, -⟩
        · simp only [Spec.step, e1]
          rcases e2.tip with ⟨_, -, -, e3, -⟩ | ⟨-, e3, -⟩
          · exact .inr e3
          · exact .inl ⟨e3, by rw [e3, e2.grows.trust hi.m.known]⟩
        · simp only [Spec.step, e1]
          exact .inl ⟨e2.best, by rw [e2.best, e2.grows.trust hi.m.known]⟩
      rcases hcase with ⟨h4, h5⟩ | h4
      · rw [h5, h4]; exact i3
      · rw [h4, ← i2]; exact .inr h1

end Verif.Sync
