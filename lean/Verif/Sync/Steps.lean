import Verif.Sync.Phases

/-!
# Every step leads on
-/

namespace Verif.Sync
open Verif Verif.Chainstate Verif.Chainstate.Spec
open Verif.BlockTree hiding Err

variable {L : Type} {env : Env L} {lim : Limits} {n : Nat} {c s : Db L} {k : Nat}

theorem main_index {s : Db L} (hs : SInv env s) {b : Nat} (hb : Main env s b) (hg : b ≠ env.tree.genesisId) :
    ∃ e, s.index.get b = some e ∧ e.persisted = true ∧ (s.blocks.get b).isSome = true ∧ e.idx.height = height env s b ∧ e.idx.id = b := by
  obtain ⟨e, he⟩ := (known_cases hb.known_right).resolve_left hg
  have h1 := (hs.m.full b e hb he).1
  have h2 := hs.i.okp b e he h1
  exact ⟨e, he, h2, (hs.i.pers b e he).1 h2, (hs.i.tree.height_eq he).symm, hs.i.tree.id_eq' he⟩

theorem main_stored {s : Db L} (hs : SInv env s) {b : Nat} (hb : Main env s b) : Stored env s b := by
  by_cases hg : b = env.tree.genesisId
  · exact .inl hg
  · obtain ⟨e, e1, e2, -⟩ := main_index hs hb hg
    right; unfold stored; rw [e1]; exact e2

theorem _root_.Verif.Chainstate.SInv.main_best {s : Db L} (hs : SInv env s) : Main env s s.best := anc_refl hs.m.known

/-- the block whose locator is sent -/
theorem requestLocator_ok (h : Base env lim n c s k) {p : Peer} (hp : PbOk env lim c s p.best) :
    ∃ loc x, requestLocator env c p = .ok loc ∧ Known env c x ∧ AtHeights env c x (locatorHeights (Spec.height env c x)) loc ∧
      (∀ y, p.best = some y → y ≠ env.tree.genesisId → x = y ∧ locatorFromBlock env c x = .ok loc) := by
  unfold requestLocator
  obtain ⟨l, h1, h2⟩ := locatorFromBest_ok h.ci
  cases hb : p.best with
  | none => exact ⟨l, c.best, h1, h.ci.m.known, h2, by intro y hy; cases hy⟩
  | some x =>
    by_cases hg : x = env.tree.genesisId
    · simp only [if_pos hg]
      exact ⟨l, c.best, h1, h.ci.m.known, h2, by intro y hy hne; cases hy; exact absurd hg hne⟩
    · simp only [if_neg hg]
      have hk := (hp.stored x hb).known
      obtain ⟨l, h3, h4⟩ := locatorFromBlock_ok h.ci hk
      exact ⟨l, x, h3, hk, h4, by intro y hy hne; cases hy; exact ⟨rfl, h3⟩⟩

theorem firstMain_self (hc : SInv env c) {x g : Nat} {loc : List Nat} (hl : IsLocator env c x loc) (hk : Known env c x) (hx : Main env s x) (hf : FirstMain env s loc g) : g = x := by
  have hm : x ∈ loc := (hl.mem x).2 ⟨anc_refl hk, .inl (by omega)⟩
  rcases hf with ⟨a, b, rfl, h1, h2⟩ | ⟨-, h2⟩
  · rcases List.mem_append.1 hm with h | h
    · exact absurd hx (h2 x h)
    · rcases List.mem_cons.1 h with h | h
      · exact h.symm
      · have h3 := (List.pairwise_cons.1 (List.pairwise_append.1 hl.sorted).2.1).1 x h
        have h4 := (hc.i.tree.anc_height ((hl.mem g).1 (by simp)).1).1
        omega
  · exact absurd hx (h2 x hm)

/-- the server answers a request for headers -/
theorem step_ask {j : Link L} {v : Nat} {loc : List Nat} (hc : Common env lim n s j k) (hs : Srv env j.client s j.speer []) (h1 : j.cpeer.requested = []) (h2 : j.cpeer.pending = [])
    (h3 : j.speer.queue = []) (h4 : j.toServer = [.headerReq loc]) (h5 : j.toClient = []) (h6 : requestLocator env j.client j.cpeer = .ok loc)
    (h7 : Val env s j.cpeer.best v) {j' : Link L} (hst : Step env lim (Fine env s) j j') :
    Good env lim n s j' (Spec.height env s s.best - k) v (2 * lim.blocks + 2) := by
  have hb := hc.base
  cases hst with
  | send hq => exact absurd h3 hq
  | client ctx hm _ => rw [h5] at hm; cases hm
  | @server m ms ctx hm hibd =>
    rw [h4] at hm
    cases hm
    obtain ⟨loc', x, l1, l2, l3, l4⟩ := requestLocator_ok hb hc.pb
    rw [h6] at l1; cases l1
    have hloc : IsLocator env j.client x loc := l3.isLocator hb.ci.i.tree
    have hlen : loc.length ≤ lim.locator := by
      rw [← l3.length_eq]
      exact Nat.le_trans (locatorHeights_length (hb.low x l2)) hb.lim.locator
    obtain ⟨g, g1, g2, g3⟩ := forkHeight_ok hb.si loc
    obtain ⟨l, r1, r2, r3⟩ := headersAbove_ok hb.si g1 lim.headers
    have hh : headersByLocator env s loc lim.headers = .ok l := by
      unfold headersByLocator; rw [g3]; exact r1
    have hgk : Known env j.client g := by
      rcases g2 with ⟨a, b, e, -, -⟩ | ⟨e, -⟩
      · exact ((hloc.mem g).1 (by rw [e]; simp)).1.known_right
      · rw [e]; exact known_genesis _
    have hgt := (hb.si.i.tree.anc_height g1).1
    have hhd : ∀ p : Peer, handle env lim ctx j.server p (.headerReq loc) = sendHeaders s { p with
        best := match l.head? with
          | some b => chooseBest env s p.best (some (env.tree.body b).prev)
          | none => some s.best
        sentAll := decide (l.length < lim.headers) } l := by
      intro p
      simp only [handle, handleHeaderReq, hc.server, hh, hibd]
      rw [if_neg (by omega)]
      simp only [Bool.false_eq_true, if_false]
      rfl
    rw [hhd]
    have hbest : ∀ x, (match l.head? with
          | some b => chooseBest env s j.speer.best (some (env.tree.body b).prev)
          | none => some s.best) = some x → Stored env s x ∧ Known env j.client x := by
      intro x hx
      cases l with
      | nil =>
        cases hx
        have : g = s.best := (hb.si.i.tree.anc_height g1).2 (by
          have : min lim.headers (Spec.height env s s.best - Spec.height env s g) = 0 := r3.symm
          have := hb.lim.headers
          omega)
        exact ⟨main_stored hb.si hb.si.main_best, this ▸ hgk⟩
      | cons b l =>
        obtain ⟨-, -, -, -, f5, -⟩ := Run.height_cons hb.si r2
        simp only [List.head?_cons, f5] at hx
        rcases chooseBest_some hb.si.i.tree (fun y hy => (hs.best y hy).1) (main_stored hb.si g1) with ⟨e, -⟩ | ⟨y, e1, e2, -⟩
        · rw [e] at hx; cases hx; exact ⟨main_stored hb.si g1, hgk⟩
        · rw [e2] at hx; cases hx; exact hs.best x e1
    have hsome : ∃ x, (match l.head? with
          | some b => chooseBest env s j.speer.best (some (env.tree.body b).prev)
          | none => some s.best) = some x := by
      cases l with
      | nil => exact ⟨_, rfl⟩
      | cons b l =>
        obtain ⟨-, -, -, -, f5, -⟩ := Run.height_cons hb.si r2
        simp only [List.head?_cons, f5]
        rcases chooseBest_some hb.si.i.tree (fun y hy => (hs.best y hy).1) (main_stored hb.si g1) with ⟨e, -⟩ | ⟨y, e1, e2, -⟩
        · exact ⟨_, e⟩
        · exact ⟨_, e2⟩
    refine Good.answer (g := g) (l := l) (v := v) ⟨hb, rfl, ?_, hc.pb⟩ ⟨hbest, hs.sent⟩ h1 h2 h3 rfl ?_ r2 hgk r3 (.inl ⟨h7, ?_, ?_⟩)
      (fun hl => ⟨decide_eq_true hl, hsome⟩)
    · simp [sendHeaders, hc.failed]
    · simp [sendHeaders, h5]
    · intro y hy hym hyg
      obtain ⟨rfl, -⟩ := l4 y hy hyg
      exact firstMain_self hb.ci hloc l2 hym g2
    · intro y hy hym
      have hyg : y ≠ env.tree.genesisId := by
        intro he; subst he; exact hym (hb.si.i.tree.anc_genesis hb.si.m.known)
      obtain ⟨rfl, e2⟩ := l4 y hy hyg
      rcases ((hc.pb x hy).2.resolve_left hym) loc g e2 g2 with h | ⟨b, b1, b2, b3⟩
      · left
        have := hb.lim.headers
        omega
      · right
        intro z hz
        obtain ⟨z1, z2⟩ := r2.last hb.si hz
        have hbt := (hb.si.i.tree.anc_height b1).1
        exact Nat.le_trans b3 (main_trust hb.si b1 z1 (by omega))

/-- the client handles headers -/
theorem step_answer {j : Link L} {v g : Nat} {l : List Nat} (hc : Common env lim n s j k) (hs : Srv env j.client s j.speer []) (h1 : j.cpeer.requested = []) (h2 : j.cpeer.pending = [])
    (h3 : j.speer.queue = []) (h4 : j.toServer = []) (h5 : j.toClient = [.headers l]) (h6 : Run env s g l) (h7 : Known env j.client g)
    (h8 : l.length = min lim.headers (Spec.height env s s.best - Spec.height env s g))
    (h9 : Asked env lim j.client s j.cpeer.best g l v ∨ v = Spec.height env s s.best + 2) (h10 : l.length < lim.headers → Told j.speer) {j' : Link L} (hst : Step env lim (Fine env s) j j') :
    ∃ a b d, Good env lim n s j' a b d ∧ Less (a, b, d) (Spec.height env s s.best - k, v, 2 * lim.blocks + 2) := by
  have hb := hc.base
  cases hst with
  | send hq => exact absurd h3 hq
  | server ctx hm _ => rw [h4] at hm; cases hm
  | @client m ms ctx hm hfine =>
    rw [h5] at hm
    cases hm
    have hgk : Spec.height env s g ≤ k := (hb.known g h6.main).1 h7
    have hgt := (hb.si.i.tree.anc_height h6.main).1
    have hktop := hb.top
    have hlim := hb.lim.headers
    cases l with
    | nil =>
      have hk : k = Spec.height env s s.best := by
        have : min lim.headers (Spec.height env s s.best - Spec.height env s g) = 0 := h8.symm
        omega
      refine ⟨0, 0, 0, Good.done (k := k) ⟨hb, hc.server, ?_, hc.pb⟩ hs h1 h2 h3 ?_ rfl hk (h10 hlim), ?_⟩
      · simp [handle, handleHeaders, hc.failed]
      · simp [handle, handleHeaders, h4]
      · rw [less_iff]; omega
    | cons first rest =>
      obtain ⟨-, f2, f3, f4, f5, f6⟩ := Run.height_cons hb.si h6
      obtain ⟨gi, hgi⟩ := known_gen.1 h7
      have hsplit := hb.split_run h6 hgk
      have hrun : Run env s g ((first :: rest).take (k - Spec.height env s g) ++ (first :: rest).drop (k - Spec.height env s g)) := by
        rw [List.take_append_drop]; exact h6
      obtain ⟨ra, gk, rb, rc⟩ := Run.append hb.si hrun
      -- the new headers pass the check
      have hcheck : headersCheck env ctx j.client ((first :: rest).drop (k - Spec.height env s g)) = .ok () := by
        cases hd : (first :: rest).drop (k - Spec.height env s g) with
        | nil => rfl
        | cons b bs =>
          rw [hd] at rb
          obtain ⟨-, b2, b3, -⟩ := Run.height_cons hb.si rb
          have hlt : k - Spec.height env s g < (first :: rest).length := by
            by_contra hge
            rw [List.drop_eq_nil_of_le (by omega)] at hd
            cases hd
          have hbk : Spec.height env s b = k + 1 := by
            rw [b3, rc, List.length_take]; omega
          have hch := hb.check b2 hbk (now := { check := ctx.header }) (hfine.header b b2) (fun _ => rfl)
          simp only [headersCheck, hch, bind, Except.bind, hfine.chain (b :: bs) (fun x hx => rb.mem_main x hx)]
      -- the handling
      have hhandle : handle env lim ctx j.client j.cpeer (.headers (first :: rest)) =
          (let p1 := { j.cpeer with best := chooseBest env j.client j.cpeer.best ((first :: rest).take (k - Spec.height env s g)).getLast? }
           if ((first :: rest).drop (k - Spec.height env s g)).isEmpty then
             if (first :: rest).length = lim.headers then requestHeaders env j.client p1 else ⟨j.client, p1, [], none⟩
           else requestBlocks lim j.client p1 ((first :: rest).drop (k - Spec.height env s g))) := by
        simp only [handle, handleHeaders, h6.linked, f5, hgi, hsplit, hcheck, h1]
        rw [if_neg (by omega)]
        simp
      rw [hhandle]
      -- the client's idea of the server's best block
      have hpb1 : ∀ q, chooseBest env j.client j.cpeer.best ((first :: rest).take (k - Spec.height env s g)).getLast? = q →
          PbOk env lim j.client s q := by
        rintro q rfl
        cases hl : ((first :: rest).take (k - Spec.height env s g)).getLast? with
        | none => rw [chooseBest_none hb.ci.i.tree hc.pb.stored]; exact hc.pb
        | some b =>
          obtain ⟨b1, b2⟩ := ra.last hb.si hl
          rw [List.length_take] at b2
          have hbs : Stored env j.client b := hb.stored_of b1 (by omega)
          rcases chooseBest_some hb.ci.i.tree hc.pb.stored hbs with ⟨e, -⟩ | ⟨x, e1, e2, -⟩
          · rw [e]; intro x hx; cases hx; exact ⟨hbs, .inl b1⟩
          · rw [e2, ← e1]; exact hc.pb
      have hpb1' := hpb1 _ rfl
      by_cases hnew : ((first :: rest).drop (k - Spec.height env s g)).isEmpty = true
      · have hle : (first :: rest).length ≤ k - Spec.height env s g := by
          rw [List.isEmpty_iff] at hnew
          exact List.drop_eq_nil_iff.1 hnew
        rw [List.take_of_length_le hle] at hpb1' ⊢
        simp only [hnew, if_true]
        by_cases hfull : (first :: rest).length = lim.headers
        · rw [if_pos hfull]
          obtain ⟨loc, x, q1, q2, q3, q4⟩ := requestLocator_ok hb (p := { j.cpeer with best := chooseBest env j.client j.cpeer.best (first :: rest).getLast? }) hpb1'
          have hreq : requestHeaders env j.client { j.cpeer with best := chooseBest env j.client j.cpeer.best (first :: rest).getLast? } =
              ⟨j.client, { j.cpeer with best := chooseBest env j.client j.cpeer.best (first :: rest).getLast? }, [.headerReq loc], none⟩ := by
            simp only [requestHeaders, q1]
          rw [hreq]
          -- the last header
          obtain ⟨b, hlast⟩ : ∃ b, (first :: rest).getLast? = some b := ⟨_, List.getLast?_eq_some_getLast (by simp)⟩
          obtain ⟨b1, b2⟩ := h6.last hb.si hlast
          have hbt := (hb.si.i.tree.anc_height b1).1
          have hpos : 0 < (first :: rest).length := by simp
          have hbs : Stored env j.client b := hb.stored_of b1 (by omega)
          have hbg : b ≠ env.tree.genesisId := by
            intro he; subst he; rw [height_genesis] at b2; omega
          have hval : ∃ v', Val env s (chooseBest env j.client j.cpeer.best (first :: rest).getLast?) v' ∧ v' < v := by
            rcases h9 with h9 | h9
            · rw [hlast]
              rcases chooseBest_some hb.ci.i.tree hc.pb.stored hbs with ⟨e, -⟩ | ⟨x, e1, e2, e3⟩
              · rw [e]
                refine ⟨_, .inl ⟨b, rfl, b1, hbg, rfl⟩, ?_⟩
                rcases h9.val with ⟨x, x1, x2, x3, x4⟩ | ⟨-, x2⟩
                · have := h9.here x x1 x2 x3
                  subst this
                  omega
                · omega
              · exfalso
                rw [hb.trust b1 hbs.known] at e3
                by_cases hxm : Main env s x
                · rw [hb.trust hxm (hc.pb.stored x e1).known] at e3
                  by_cases hxg : x = env.tree.genesisId
                  · subst hxg
                    rw [trust_genesis] at e3; omega
                  · have := h9.here x e1 hxm hxg
                    subst this
                    have := main_trust hb.si hxm b1 (by omega)
                    omega
                · rcases h9.short x e1 hxm with h | h
                  · omega
                  · have := h b hlast
                    omega
            · obtain ⟨v', w1, w2⟩ := val_exists env s (chooseBest env j.client j.cpeer.best (first :: rest).getLast?)
              exact ⟨v', w1, by omega⟩
          obtain ⟨v', w1, w2⟩ := hval
          refine ⟨_, v', _, Good.ask (k := k) (v := v') (loc := loc) ⟨hb, hc.server, ?_, hpb1'⟩ hs h1 h2 h3 ?_ rfl q1 w1, ?_⟩
          · simp [hc.failed]
          · simp [h4]
          · rw [less_iff]; omega
        · rw [if_neg hfull]
          have hk : k = Spec.height env s s.best := by omega
          refine ⟨0, 0, 0, Good.done (k := k) ⟨hb, hc.server, ?_, hpb1'⟩ hs h1 h2 h3 ?_ rfl hk (h10 (by omega)), ?_⟩
          · simp [hc.failed]
          · simp [h4]
          · rw [less_iff]; omega
      · have hnil : (first :: rest).drop (k - Spec.height env s g) ≠ [] := by
          rw [List.isEmpty_iff] at hnew; exact hnew
        have hlt : k - Spec.height env s g < (first :: rest).length := by
          by_contra hge
          exact hnil (List.drop_eq_nil_of_le (by omega))
        have hgk' : Spec.height env s gk = k := by rw [rc, List.length_take]; omega
        simp only [hnew]
        generalize (first :: rest).drop (k - Spec.height env s g) = new at *
        have hbl := hb.lim.blocks
        refine ⟨_, 0, _, Good.request (k := k) (g := gk) ⟨hb, hc.server, ?_, ?_⟩ ?_ ?_ ?_ ?_ ?_ ?_ ?_ hgk', ?_⟩
        · simp [requestBlocks, hc.failed]
        · simpa [requestBlocks] using hpb1'
        · exact hs
        · simp only [requestBlocks, Bool.false_eq_true, if_false]
          intro he
          rcases List.take_eq_nil_iff.1 he with h | h
          · omega
          · exact hnil h
        · simp [requestBlocks]
        · exact h3
        · simp [requestBlocks, h4]
        · rfl
        · simp only [requestBlocks, Bool.false_eq_true, if_false]
          by_cases hlen : new.length > lim.blocks
          · rw [if_pos hlen, List.take_append_drop]; exact rb
          · rw [if_neg hlen, h2, List.append_nil, List.take_of_length_le (by omega)]; exact rb
        · rw [less_iff]; omega

theorem checkRequested_none {s : Db L} (hs : SInv env s) {sent : Option Idx} {k : Nat} (hsent : ∀ e, sent = some e → s.byHeight.get e.height = some e.id → e.height ≤ k) :
    ∀ ids : List Nat, (∀ b ∈ ids, Main env s b ∧ b ≠ env.tree.genesisId ∧ k < height env s b) → checkRequested s sent ids = none
  | [], _ => rfl
  | b :: ids, h => by
    obtain ⟨h1, h2, h3⟩ := h b (by simp)
    obtain ⟨e, e1, e2, -, e4, -⟩ := main_index hs h1 h2
    have ih := checkRequested_none hs hsent ids (fun x hx => h x (by simp [hx]))
    simp only [checkRequested, e1, e2, if_true]
    cases sent with
    | none => exact ih
    | some i =>
      simp only
      rw [if_neg]
      · exact ih
      · rintro ⟨h4, h5⟩
        have := hsent i rfl h5
        omega

theorem Run.ne_genesis {s : Db L} {g : Nat} {l : List Nat} (h : Run env s g l) : ∀ b ∈ l, b ≠ env.tree.genesisId := by
  induction h with
  | nil => simp
  | cons _ h1 _ _ ih =>
    intro b hb
    rcases List.mem_cons.1 hb with rfl | hb
    · exact h1
    · exact ih b hb

/-- the server handles a request for blocks -/
theorem step_request {j : Link L} {g : Nat} (hc : Common env lim n s j k) (hs : Srv env j.client s j.speer []) (h1 : j.cpeer.requested ≠ []) (h2 : j.cpeer.requested.length ≤ lim.blocks)
    (h3 : j.speer.queue = []) (h4 : j.toServer = [.blockReq j.cpeer.requested]) (h5 : j.toClient = []) (h6 : Run env s g (j.cpeer.requested ++ j.cpeer.pending))
    (h7 : Spec.height env s g = k) {j' : Link L} (hst : Step env lim (Fine env s) j j') :
    ∃ a b d, Good env lim n s j' a b d ∧ Less (a, b, d) (Spec.height env s s.best - k, 0, 2 * lim.blocks + 1) := by
  have hb := hc.base
  cases hst with
  | send hq => exact absurd h3 hq
  | client ctx hm _ => rw [h5] at hm; cases hm
  | @server m ms ctx hm hibd =>
    rw [h4] at hm
    cases hm
    have hall : ∀ b ∈ j.cpeer.requested, Main env s b ∧ b ≠ env.tree.genesisId ∧ k < Spec.height env s b := by
      intro b hbm
      have hm : b ∈ j.cpeer.requested ++ j.cpeer.pending := List.mem_append_left _ hbm
      exact ⟨h6.mem_main b hm, h6.ne_genesis b hm, by have := (h6.above hb.si b hm).1; omega⟩
    have hsent : ∀ e, j.speer.bestSent = some e → s.byHeight.get e.height = some e.id → e.height ≤ k := by
      intro e he hby
      obtain ⟨-, s2, s3⟩ := hs.sent e he
      have hk := s3.resolve_right (by simp)
      rw [s2]
      exact (hb.known e.id ((hb.si.m.heights _ _).1 hby).1).1 hk
    have hh : handle env lim ctx j.server j.speer (.blockReq j.cpeer.requested) = ⟨s, { j.speer with queue := j.cpeer.requested }, [], none⟩ := by
      have he : j.cpeer.requested.isEmpty = false := by
        cases hr : j.cpeer.requested with
        | nil => exact absurd hr h1
        | cons => rfl
      have hfind : j.cpeer.requested.find? (fun x => decide (x ∈ j.speer.queue)) = none := by
        rw [h3]; simp
      simp only [handle, handleBlockReq, hc.server, he, hibd, hfind, checkRequested_none hb.si hsent _ hall]
      rw [h3, List.length_nil, Nat.add_zero, if_neg (Nat.not_lt.2 h2)]
      rfl
    rw [hh]
    refine ⟨_, 0, _, Good.blocks (k := k) (g := g) (wire := []) ⟨hb, rfl, ?_, hc.pb⟩ ?_ ?_ h1 h2 rfl ?_ h6 h7, ?_⟩
    · simp [hc.failed]
    · exact ⟨hs.best, hs.sent⟩
    · simp
    · simp [h5]
    · rw [less_iff]
      simp only [List.length_nil]
      exact .inr ⟨trivial, .inr ⟨trivial, by omega⟩⟩

/-- the server sends a block, or the client handles one -/
theorem step_blocks (hu : Undoes env) {j : Link L} {g : Nat} {wire : List Nat} (hc : Common env lim n s j k) (hs : Srv env j.client s j.speer wire)
    (h1 : j.cpeer.requested = wire ++ j.speer.queue) (h2 : j.cpeer.requested ≠ []) (h3 : j.cpeer.requested.length ≤ lim.blocks) (h4 : j.toServer = [])
    (h5 : j.toClient = wire.map .block) (h6 : Run env s g (j.cpeer.requested ++ j.cpeer.pending)) (h7 : Spec.height env s g = k) {j' : Link L}
    (hst : Step env lim (Fine env s) j j') :
    ∃ a b d, Good env lim n s j' a b d ∧ Less (a, b, d) (Spec.height env s s.best - k, 0, 2 * j.speer.queue.length + wire.length) := by
  have hb := hc.base
  cases hst with
  | server ctx hm _ => rw [h4] at hm; cases hm
  | send hq =>
    cases hqq : j.speer.queue with
    | nil => exact absurd hqq hq
    | cons id q =>
      rw [hqq] at h1
      have hr : Run env s g (wire ++ (id :: q ++ j.cpeer.pending)) := by
        rw [h1, List.append_assoc] at h6; exact h6
      obtain ⟨-, g', r1, r2⟩ := Run.append hb.si hr
      obtain ⟨-, r3, r4, r5, -, -⟩ := Run.height_cons hb.si r1
      obtain ⟨e, e1, e2, e3, e4, e5⟩ := main_index hb.si r3 r5
      obtain ⟨u, hu'⟩ := Option.isSome_iff_exists.1 e3
      have hh : sendBlock env j.server j.speer = ⟨s, { j.speer with
          queue := q
          bestSent := if chooseBest env s (j.speer.bestSent.map (·.id)) (some id) = some id then some e.idx else j.speer.bestSent }, [.block id], none⟩ := by
        simp only [sendBlock, hqq, hc.server, hu', e1, e2, if_true]
      rw [hh]
      refine ⟨_, 0, _, Good.blocks (k := k) (g := g) (wire := wire ++ [id]) ⟨hb, rfl, ?_, hc.pb⟩ ?_ ?_ h2 h3 h4 ?_ h6 h7, ?_⟩
      · simp [hc.failed]
      · refine ⟨hs.best, ?_⟩
        intro i hi
        simp only at hi
        split at hi
        · cases hi
          refine ⟨?_, ?_, .inr (by simp [e5])⟩
          · rw [e5]; exact main_stored hb.si r3
          · rw [e5]; exact e4
        · obtain ⟨s1, s2, s3⟩ := hs.sent i hi
          refine ⟨s1, s2, ?_⟩
          rcases s3 with s3 | s3
          · exact .inl s3
          · exact .inr (List.mem_append_left _ s3)
      · simp [h1]
      · simp [h5]
      · rw [less_iff]
        refine .inr ⟨rfl, .inr ⟨rfl, ?_⟩⟩
        simp only [List.length_append, List.length_cons, List.length_nil]
        omega
  | @client m ms ctx hm hfine =>
    cases wire with
    | nil => rw [h5] at hm; cases hm
    | cons b wire =>
      rw [h5] at hm
      simp only [List.map_cons, List.cons.injEq] at hm
      obtain ⟨rfl, rfl⟩ := hm
      have hr : Run env s g (b :: (wire ++ j.speer.queue ++ j.cpeer.pending)) := by
        rw [h1] at h6; simpa using h6
      obtain ⟨-, b2, b3, b4, b5, b6⟩ := Run.height_cons hb.si hr
      have hbk : Spec.height env s b = k + 1 := by omega
      have hbt := (hb.si.i.tree.anc_height b2).1
      obtain ⟨c', r, p1, p2, p3⟩ := hb.process hu b2 hbk (hfine.check b b2) hfine.fault
      have hchk := hb.check b2 hbk (hfine.check b b2) hfine.fault
      have hns : stored j.client b = false := by rw [hb.split b2 b4]; exact decide_eq_false (by omega)
      have hst' : stored c' b = true := (p3.stored_of b2 (by omega)).resolve_left b4
      obtain ⟨gb, hgb⟩ := known_gen.1 ((p3.known b b2).2 (by omega))
      have hreq : j.cpeer.requested.tail = wire ++ j.speer.queue := by rw [h1]; rfl
      generalize hpb : chooseIdx env (j.cpeer.best.bind (storedGen env j.client)) (some gb) = pb' at *
      have hh : handle env lim ctx j.client j.cpeer (.block b) = continueSync env lim c' { j.cpeer with requested := wire ++ j.speer.queue, best := pb' } := by
        simp only [handle, handleBlock, h1, List.cons_append, List.head?_cons, ne_eq, not_true_eq_false, if_false, hchk, processNew, hns, Bool.false_eq_true, p1, hst', if_true, hgb,
          List.tail_cons, hpb]
      rw [hh]
      have hpb' : PbOk env lim c' s pb' := by
        rcases chooseIdx_some hb.ci.i.tree p3.ci.i.tree hc.pb.stored hgb with ⟨e, -⟩ | ⟨x, e1, e2, -⟩
        · rw [hpb] at e
          rw [e]; intro x hx; cases hx
          exact ⟨.inr hst', .inl b2⟩
        · rw [hpb] at e2
          rw [e2, ← e1]
          exact hc.pb.grows hb.ci p2
      have hlen : (wire ++ j.speer.queue).length ≤ lim.blocks := by
        rw [h1] at h3
        simp only [List.cons_append, List.length_cons] at h3
        omega
      have hsent : Srv env c' s j.speer wire := by
        refine ⟨fun x hx => ⟨(hs.best x hx).1, p2.grows.known (hs.best x hx).2⟩, ?_⟩
        intro e he
        obtain ⟨s1, s2, s3⟩ := hs.sent e he
        refine ⟨s1, s2, ?_⟩
        rcases s3 with s3 | s3
        · exact .inl (p2.grows.known s3)
        · rcases List.mem_cons.1 s3 with s3 | s3
          · rw [s3]; exact .inl ((p3.known b b2).2 (by omega))
          · exact .inr s3
      by_cases hmore : (wire ++ j.speer.queue).isEmpty = true
      · rw [List.isEmpty_iff, List.append_eq_nil_iff] at hmore
        obtain ⟨w1, w2⟩ := hmore
        subst w1
        rw [w2] at b6 ⊢
        have hsp := p3.split_run b6 (by omega)
        simp only [List.nil_append, List.append_nil] at hsp b6
        rw [hbk, Nat.sub_self, List.drop_zero] at hsp
        simp only [continueSync, List.nil_append, List.isEmpty_nil, if_true, hsp]
        by_cases hpend : j.cpeer.pending.isEmpty = true
        · simp only [hpend, if_true]
          obtain ⟨loc, x, q1, q2, q3, q4⟩ := requestLocator_ok p3 (p := { j.cpeer with requested := [], pending := [], best := pb' }) hpb'
          obtain ⟨v', w1, w2'⟩ := val_exists env s pb'
          simp only [requestHeaders, q1]
          refine ⟨_, v', _, Good.ask (k := k + 1) (v := v') (loc := loc) ⟨p3, hc.server, ?_, hpb'⟩ ?_ rfl rfl w2 ?_ rfl q1 w1, ?_⟩
          · simp [hc.failed]
          · exact hsent
          · simp [h4]
          · rw [less_iff]; omega
        · have hne : j.cpeer.pending ≠ [] := by rw [List.isEmpty_iff] at hpend; exact hpend
          simp only [hpend]
          have hbl := hb.lim.blocks
          refine ⟨_, 0, _, Good.request (k := k + 1) (g := b) ⟨p3, hc.server, ?_, ?_⟩ ?_ ?_ ?_ w2 ?_ rfl ?_ hbk, ?_⟩
          · simp [requestBlocks, hc.failed]
          · simpa [requestBlocks] using hpb'
          · exact hsent
          · simp only [requestBlocks, Bool.false_eq_true, if_false]
            intro he
            rcases List.take_eq_nil_iff.1 he with h | h
            · omega
            · exact hne h
          · simp [requestBlocks]
          · simp [requestBlocks, h4]
          · simp only [requestBlocks, Bool.false_eq_true, if_false]
            by_cases hl : j.cpeer.pending.length > lim.blocks
            · rw [if_pos hl, List.take_append_drop]; exact b6
            · rw [if_neg hl, List.append_nil, List.take_of_length_le (by omega)]; exact b6
          · rw [less_iff]; omega
      · simp only [continueSync, hmore, Bool.false_eq_true, if_false]
        refine ⟨_, 0, _, Good.blocks (k := k + 1) (g := b) (wire := wire) ⟨p3, hc.server, ?_, hpb'⟩ ?_ rfl ?_ hlen ?_ rfl b6 hbk, ?_⟩
        · simp [hc.failed]
        · exact hsent
        · rw [List.isEmpty_iff] at hmore; exact hmore
        · simp [h4]
        · rw [less_iff]; omega

/-- every step leads to a state of a later phase -/
theorem good_step (hu : Undoes env) {j j' : Link L} {a b d : Nat} (h : Good env lim n s j a b d) (hst : Step env lim (Fine env s) j j') :
    ∃ a' b' d', Good env lim n s j' a' b' d' ∧ Less (a', b', d') (a, b, d) := by
  cases h with
  | ask h0 hs h1 h2 h3 h4 h5 h6 h7 => exact ⟨_, _, _, step_ask h0 hs h1 h2 h3 h4 h5 h6 h7 hst, by rw [less_iff]; omega⟩
  | answer h0 hs h1 h2 h3 h4 h5 h6 h7 h8 h9 h10 => exact step_answer h0 hs h1 h2 h3 h4 h5 h6 h7 h8 h9 h10 hst
  | request h0 hs h1 h2 h3 h4 h5 h6 h7 => exact step_request h0 hs h1 h2 h3 h4 h5 h6 h7 hst
  | blocks h0 hs h1 h2 h3 h4 h5 h6 h7 => exact step_blocks hu h0 hs h1 h2 h3 h4 h5 h6 h7 hst
  | done h0 hs h1 h2 h3 h4 h5 h6 =>
    cases hst with
    | server ctx hm _ => rw [h4] at hm; cases hm
    | send hq => exact absurd h3 hq
    | client ctx hm _ => rw [h5] at hm; cases hm

end Verif.Sync
