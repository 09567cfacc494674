import Verif.Chainstate.Tree

/-! # Reorganizations keep the invariant -/

namespace Verif.Chainstate
open Verif BlockTree Spec
open Verif.BlockStatus (Stage)
variable {L : Type} {env : Env L}

/-- the index table is consistent with itself and with the stored blocks; this also holds while the index of a failed block is being stored -/
structure IBase (env : Env L) (s : Db L) : Prop where
  tree : TInv env s
  pers : ∀ id e, s.index.get id = some e → (e.persisted = true ↔ (s.blocks.get id).isSome = true)
  blk : ∀ id, (s.blocks.get id).isSome = true → ∃ e, s.index.get id = some e
  parent : ∀ id e p, s.index.get id = some e → s.index.get e.idx.prev = some p →
    (e.persisted = true → p.persisted = true) ∧ (e.status.ok = true → p.status.ok = true) ∧ e.status.stage.toNat ≤ p.status.stage.toNat
  stage : ∀ id e, s.index.get id = some e → e.persisted = true → 1 ≤ e.status.stage.toNat

/-- the full invariant of the index table: valid blocks are stored -/
structure IInv (env : Env L) (s : Db L) : Prop extends IBase env s where
  okp : ∀ id e, s.index.get id = some e → e.status.ok = true → e.persisted = true

/-- the main chain is the path from genesis to the best block, all its blocks are fully checked, the chain state is that of the best block -/
structure MInv (env : Env L) (s : Db L) : Prop where
  known : Known env s s.best
  heights : ∀ h id, s.byHeight.get h = some id ↔ Main env s id ∧ height env s id = h
  full : ∀ id e, Main env s id → s.index.get id = some e → e.status.ok = true ∧ e.status.stage = .fullyChecked
  led : Led env s.best s.ledger

/-- an index without its validation stage -/
def Entry.core (e : Entry) : Entry := { e with status := { e.status with stage := .unchecked } }

/-- only validation stages, the main chain and the chain state differ -/
structure Keeps (s s' : Db L) : Prop where
  core : ∀ id, (s'.index.get id).map Entry.core = (s.index.get id).map Entry.core
  blocks : s'.blocks = s.blocks
  minHeight : s'.minHeight = s.minHeight

theorem Keeps.refl (s : Db L) : Keeps s s := ⟨fun _ => rfl, rfl, rfl⟩
theorem Keeps.trans {s s' s'' : Db L} (h : Keeps s s') (h' : Keeps s' s'') : Keeps s s'' :=
  ⟨fun id => (h'.core id).trans (h.core id), h'.blocks.trans h.blocks, h'.minHeight.trans h.minHeight⟩

theorem core_idx (e : Entry) : e.core.idx = e.idx := rfl
theorem core_ok (e : Entry) : e.core.status.ok = e.status.ok := rfl

theorem Keeps.tree {s s' : Db L} (h : Keeps s s') : s'.tree = s.tree := by
  apply tree_eq
  intro id
  have := congrArg (Option.map Entry.idx) (h.core id)
  simpa [Option.map_map, Function.comp_def, core_idx] using this

theorem Keeps.get {s s' : Db L} (h : Keeps s s') {id e'} (he : s'.index.get id = some e') :
    ∃ e, s.index.get id = some e ∧ e.idx = e'.idx ∧ e.persisted = e'.persisted ∧ e.status.ok = e'.status.ok := by
  have := h.core id
  rw [he] at this
  cases hs : s.index.get id with
  | none => rw [hs] at this; cases this
  | some e =>
    rw [hs] at this
    simp only [Option.map_some, Option.some.injEq] at this
    refine ⟨e, rfl, ?_, ?_, ?_⟩
    · rw [← core_idx e, ← this, core_idx]
    · have := congrArg Entry.persisted this; exact this.symm
    · rw [← core_ok e, ← this, core_ok]

theorem Keeps.symm {s s' : Db L} (h : Keeps s s') : Keeps s' s := ⟨fun id => (h.core id).symm, h.blocks.symm, h.minHeight.symm⟩

theorem anc_of_tree {s s' : Db L} (h : s'.tree = s.tree) {a b} : Anc env s' a b ↔ Anc env s a b := by simp only [Spec.Anc, h]
theorem height_of_tree {s s' : Db L} (h : s'.tree = s.tree) (a) : height env s' a = height env s a := by simp only [height, Db.gen, h]
theorem trust_of_tree {s s' : Db L} (h : s'.tree = s.tree) (a) : trust env s' a = trust env s a := by simp only [trust, Db.gen, h]
theorem known_of_tree {s s' : Db L} (h : s'.tree = s.tree) {a} : Known env s' a ↔ Known env s a := by simp only [Spec.Known, h]

theorem genOk_genesis (s : Db L) : s.genOk env env.tree.genesisId = true := by simp [Db.genOk]
theorem genOk_block {s : Db L} {id e} (h : id ≠ env.tree.genesisId) (he : s.index.get id = some e) : s.genOk env id = e.status.ok := by
  simp [Db.genOk, h, he]

theorem Keeps.ok {s s' : Db L} (h : Keeps s s') (id : Nat) : s'.genOk env id = s.genOk env id := by
  unfold Db.genOk
  split
  · rfl
  · cases he : s'.index.get id with
    | some e' => obtain ⟨e, h1, -, -, h4⟩ := h.get he; rw [h1]; exact h4.symm
    | none =>
      cases he2 : s.index.get id with
      | none => rfl
      | some e => obtain ⟨e', h1, -⟩ := h.symm.get he2; rw [he] at h1; cases h1

theorem inMain_iff {s : Db L} (hi : IBase env s) (hm : MInv env s) (id : Nat) : s.inMain env id = true ↔ Main env s id := by
  unfold Db.inMain
  by_cases hg : id = env.tree.genesisId
  · simp only [hg, if_true, true_iff]; exact hi.tree.anc_genesis hm.known
  · rw [if_neg hg]
    cases he : s.index.get id with
    | none =>
      constructor
      · intro h; cases h
      · intro h
        rcases known_cases h.known_right with h | ⟨e, h⟩
        · exact absurd h hg
        · rw [he] at h; cases h
    | some e =>
      simp only [decide_eq_true_eq]
      rw [hm.heights, hi.tree.height_eq he]
      simp

theorem MInv.main_ok {s : Db L} (hm : MInv env s) {id} (h : Main env s id) : s.genOk env id = true := by
  rcases known_cases h.known_right with rfl | ⟨e, he⟩
  · exact genOk_genesis s
  · by_cases hg : id = env.tree.genesisId
    · subst hg; exact genOk_genesis s
    · rw [genOk_block hg he]; exact (hm.full id e h he).1

/-! ### connecting one block -/

theorem apply_ok {now : Now} {l l' : L} {id} (h : env.apply now l id = .ok l') : env.connect l id = some l' := by
  unfold Env.apply at h
  split at h
  · cases h
  · exact okOr_eq_ok.1 h

/-- why a block was not connected -/
def Blamed (env : Env L) (now : Now) (id : Nat) (e : Err) : Prop :=
  e = .storage ∧ now.fault id = true ∨ e = .badBlock ∧ ∃ l, Led env (env.tree.body id).prev l ∧ env.connect l id = none

theorem toNat_one {st : Stage} (h : 1 ≤ st.toNat) : decide (Stage.toNat .checkBlockOk ≤ st.toNat) = true := by
  rw [decide_eq_true_eq]; exact h

theorem connectStatus_ok {s : Db L} (hi : IInv env s) {now e} (he : s.index.get e.idx.id = some e) (hok : e.status.ok = true) :
    s.connectStatus env now e = .ok e.status := by
  have hp := hi.okp _ _ he hok
  have hb := (hi.pers _ _ he).1 hp
  have hs := toNat_one (hi.stage _ _ he hp)
  simp only [Db.connectStatus, ensure, hok, if_true, hb, bind, Except.bind, Status.atLeast, hs, pure, Except.pure]

theorem connectStatus_spec {s : Db L} (hi : IInv env s) {now e st} (he : s.index.get e.idx.id = some e)
    (h : s.connectStatus env now e = .ok st) : e.status.ok = true ∧ st = e.status := by
  have hok : e.status.ok = true := by
    simp only [Db.connectStatus, bind_eq_ok, ensure_eq_ok] at h
    exact h.choose_spec.1
  rw [connectStatus_ok hi he hok] at h
  exact ⟨hok, (Except.ok.inj h).symm⟩

theorem connectTip_eq {s s' : Db L} (hi : IInv env s) {now e} (he : s.index.get e.idx.id = some e) (h : s.connectTip env now e = .ok s') :
    e.status.ok = true ∧ s.best = e.idx.prev ∧ env.connect s.ledger e.idx.id = some s'.ledger ∧
    s'.byHeight = s.byHeight.insert e.idx.height e.idx.id ∧ s'.best = e.idx.id ∧ s'.blocks = s.blocks ∧ s'.minHeight = s.minHeight ∧
    ∀ id, s'.index.get id = if id = e.idx.id then some { e with status := { e.status with stage := .fullyChecked } } else s.index.get id := by
  unfold Db.connectTip at h
  simp only [bind_eq_ok, ensure_eq_ok, pure_eq_ok] at h
  obtain ⟨st, h1, -, h2, l, h3, h4⟩ := h
  obtain ⟨hok, rfl⟩ := connectStatus_spec hi he h1
  subst h4
  refine ⟨hok, h2, apply_ok h3, rfl, rfl, rfl, rfl, ?_⟩
  intro id
  dsimp only
  by_cases hf : e.status.stage = .fullyChecked
  · rw [if_pos hf]
    split
    · rename_i h; rw [h, he, ← hf]
    · rfl
  · rw [if_neg hf, BMap.get_insert]

theorem connectTip_ok {s s' : Db L} (hi : IInv env s) (hm : MInv env s) {now e} (he : s.index.get e.idx.id = some e)
    (h : s.connectTip env now e = .ok s') :
    IInv env s' ∧ MInv env s' ∧ Keeps s s' ∧ s'.best = e.idx.id ∧ s.best = e.idx.prev ∧
      ∀ id, id ≠ e.idx.id → s'.index.get id = s.index.get id := by
  obtain ⟨hok, hbest, hcon, hbh, hb', hblk, hmin, hidx⟩ := connectTip_eq hi he h
  have hk : Keeps s s' := by
    refine ⟨fun id => ?_, hblk, hmin⟩
    rw [hidx]; split
    · rename_i h; rw [h, he]; rfl
    · rfl
  have ht := hk.tree
  have hti : TInv env s' := by unfold TInv; rw [ht]; exact hi.tree
  have hne := hi.tree.ne_genesis he
  have hmain : ∀ id, Main env s' id ↔ id = e.idx.id ∨ Main env s id := by
    intro id
    unfold Main
    rw [hb', anc_of_tree ht, hi.tree.anc_iff he, hbest]
  have hhb : height env s e.idx.id = height env s s.best + 1 := by rw [hbest]; exact (hi.tree.parent he).2.1
  refine ⟨⟨⟨hti, ?_, ?_, ?_, ?_⟩, ?_⟩, ⟨?_, ?_, ?_, ?_⟩, hk, hb', hbest, ?_⟩
  · intro id e' he'
    obtain ⟨e0, h1, h2, h3, h4⟩ := hk.get he'
    rw [hblk, ← h3]; exact hi.pers id e0 h1
  · intro id hid
    rw [hblk] at hid
    obtain ⟨e0, h1⟩ := hi.blk id hid
    obtain ⟨e1, h2, -⟩ := hk.symm.get h1
    exact ⟨e1, h2⟩
  · intro id e' p' he' hp'
    obtain ⟨e0, h1, h2, h3, h4⟩ := hk.get he'
    obtain ⟨p0, g1, g2, g3, g4⟩ := hk.get hp'
    rw [← h2] at g1
    obtain ⟨q1, q2, q3⟩ := hi.parent id e0 p0 h1 g1
    refine ⟨fun h => g3 ▸ q1 (h3.trans h), fun h => g4 ▸ q2 (h4.trans h), ?_⟩
    rw [hidx] at he' hp'
    split at hp'
    · cases hp'
      show _ ≤ 2
      cases e'.status.stage <;> simp [Stage.toNat]
    · split at he'
      · cases he'
        have hid : id = e.idx.id := by assumption
        subst hid
        rw [he] at h1; cases h1
        have hmp : Main env s e.idx.prev := by rw [← hbest]; exact anc_refl hm.known
        have := (hm.full _ _ hmp g1).2
        rw [hp'] at g1; cases g1
        rw [this]
      · rw [he'] at h1; cases h1
        rw [← h2] at hp'; rw [hp'] at g1; cases g1
        exact q3
  · intro id e' he' hp
    obtain ⟨e0, h1, h2, h3, h4⟩ := hk.get he'
    rw [hidx] at he'
    split at he'
    · cases he'; show 1 ≤ 2; omega
    · exact hi.stage id e' he' hp
  · intro id e' he' ho
    obtain ⟨e0, h1, h2, h3, h4⟩ := hk.get he'
    rw [← h3]; exact hi.okp id e0 h1 (h4.trans ho)
  · rw [hb']; exact (known_of_tree ht).2 (known_of_get he)
  · intro hh id
    rw [hbh, BMap.get_insert, hmain, height_of_tree ht, ← hi.tree.height_eq he]
    split
    · rename_i hc
      simp only [Option.some.injEq]
      constructor
      · rintro rfl; exact ⟨.inl rfl, hc.symm⟩
      · rintro ⟨rfl | h, h2⟩
        · rfl
        · have := (hi.tree.anc_height h).1; omega
    · rename_i hc
      rw [hm.heights]
      constructor
      · rintro ⟨h1, h2⟩; exact ⟨.inr h1, h2⟩
      · rintro ⟨rfl | h, h2⟩
        · exact absurd h2.symm hc
        · exact ⟨h, h2⟩
  · intro id e' hmn he'
    rw [hidx] at he'
    split at he'
    · cases he'; exact ⟨hok, rfl⟩
    · rename_i hne
      rcases (hmain id).1 hmn with h | h
      · exact absurd h hne
      · exact hm.full id e' h he'
  · rw [hb']
    refine .block hne ?_ hcon
    rw [← hi.tree.prev_eq he, ← hbest]; exact hm.led
  · intro id hid; rw [hidx, if_neg hid]

theorem connectTip_err {s : Db L} (hi : IInv env s) (hm : MInv env s) {now e err} (he : s.index.get e.idx.id = some e) (hok : e.status.ok = true)
    (hb : s.best = e.idx.prev) (h : s.connectTip env now e = .error err) : Blamed env now e.idx.id err := by
  unfold Db.connectTip at h
  rw [connectStatus_ok hi he hok] at h
  simp only [bind, Except.bind, ensure, hb, if_true] at h
  unfold Env.apply at h
  by_cases hf : now.fault e.idx.id = true
  · rw [if_pos hf] at h
    dsimp only at h
    cases h; exact .inl ⟨rfl, hf⟩
  · rw [if_neg hf] at h
    cases hc : env.connect s.ledger e.idx.id with
    | none =>
      rw [hc] at h
      simp only [okOr] at h
      cases h
      refine .inr ⟨rfl, s.ledger, ?_, hc⟩
      rw [← hi.tree.prev_eq he, ← hb]; exact hm.led
    | some l => rw [hc] at h; simp only [okOr, pure, Except.pure] at h; cases h

/-! ### connecting a chain -/

/-- a chain of stored blocks above block `a` -/
def Chain (s : Db L) : Nat → List Entry → Prop
  | _, [] => True
  | a, e :: es => e.idx.prev = a ∧ s.index.get e.idx.id = some e ∧ Chain s e.idx.id es

theorem Chain.anc {s : Db L} (hi : TInv env s) : ∀ {a es}, Chain s a es → Known env s a → ∀ x ∈ es, Anc env s x.idx.id a ∧ x.idx.id ≠ a
  | _, [], _, _ => by simp
  | a, e :: es, ⟨h1, h2, h3⟩, hk => by
    have hea : Anc env s e.idx.id a := by rw [← h1]; exact hi.anc_parent h2
    have hh := (hi.parent h2).2.1
    intro x hx
    rcases List.mem_cons.1 hx with rfl | hx
    · refine ⟨hea, fun h => ?_⟩
      rw [h1, h] at hh; omega
    · obtain ⟨g1, g2⟩ := Chain.anc hi h3 (known_of_get h2) x hx
      refine ⟨g1.trans hea, fun h => ?_⟩
      have := (hi.anc_height g1).1
      rw [h] at this; rw [h1] at hh; omega

theorem Chain.congr {s s' : Db L} : ∀ {a es}, Chain s a es → (∀ x ∈ es, s'.index.get x.idx.id = s.index.get x.idx.id) → Chain s' a es
  | _, [], _, _ => trivial
  | _, e :: es, ⟨h1, h2, h3⟩, h => ⟨h1, (h e (List.mem_cons_self ..)).trans h2, h3.congr fun x hx => h x (List.mem_cons_of_mem _ hx)⟩

theorem Chain.get {s : Db L} : ∀ {a es}, Chain s a es → ∀ {x}, x ∈ es → s.index.get x.idx.id = some x
  | _, _ :: _, ⟨_, h2, h3⟩, _, hx => by
    rcases List.mem_cons.1 hx with rfl | hx
    · exact h2
    · exact h3.get hx

/-- the id of the last block -/
def lastId (a : Nat) : List Entry → Nat
  | [] => a
  | e :: es => lastId e.idx.id es

theorem connectAll_spec {now : Now} : ∀ {es : List Entry} {s : Db L}, IInv env s → MInv env s → Chain s s.best es → (∀ x ∈ es, x.status.ok = true) →
    match Db.connectAll env now es s with
    | .ok s' => IInv env s' ∧ MInv env s' ∧ Keeps s s' ∧ s'.best = lastId s.best es
    | .error (.connectFailed id err) => (∃ x ∈ es, x.idx.id = id) ∧ Blamed env now id err
    | .error (.other _) => False
  | [], s, hi, hm, _, _ => ⟨hi, hm, Keeps.refl s, rfl⟩
  | e :: es, s, hi, hm, ⟨h1, h2, h3⟩, hok => by
    rw [Db.connectAll]
    cases hc : s.connectTip env now e with
    | error err =>
      simp only [blame, bind, Except.bind]
      exact ⟨⟨e, List.mem_cons_self .., rfl⟩, connectTip_err hi hm h2 (hok e (List.mem_cons_self ..)) h1.symm hc⟩
    | ok s1 =>
      simp only [blame, bind, Except.bind]
      obtain ⟨hi1, hm1, hk1, hb1, hb0, hsame⟩ := connectTip_ok hi hm h2 hc
      have hch : Chain s1 s1.best es := by
        rw [hb1]
        refine h3.congr fun x hx => hsame _ ?_
        exact (Chain.anc hi.tree h3 (known_of_get h2) x hx).2
      have ih := connectAll_spec (now := now) hi1 hm1 hch (fun x hx => hok x (List.mem_cons_of_mem _ hx))
      revert ih
      cases Db.connectAll env now es s1 with
      | ok s2 =>
        rintro ⟨a1, a2, a3, a4⟩
        exact ⟨a1, a2, hk1.trans a3, by rw [a4, hb1]; rfl⟩
      | error re =>
        cases re with
        | connectFailed id err =>
          rintro ⟨⟨x, hx, hxi⟩, hb⟩
          exact ⟨⟨x, List.mem_cons_of_mem _ hx, hxi⟩, hb⟩
        | other err => exact id

/-! ### disconnecting -/

theorem disconnectTip_ok (hu : Undoes env) {s : Db L} (hi : IInv env s) (hm : MInv env s) {e} (hg : s.best ≠ env.tree.genesisId)
    (he : s.index.get s.best = some e) : ∃ s', s.disconnectTip env = .ok (s', e.idx.prev) ∧ s'.index = s.index ∧ s'.blocks = s.blocks ∧
      s'.minHeight = s.minHeight ∧ s'.best = e.idx.prev ∧ MInv env s' := by
  have hf := hm.full _ _ (anc_refl hm.known) he
  have hp := hi.okp _ _ he hf.1
  have hblk := (hi.pers _ _ he).1 hp
  obtain ⟨l, hl1, hl2⟩ : ∃ l, Led env (env.tree.body s.best).prev l ∧ env.connect l s.best = some s.ledger := by
    have hled := hm.led
    generalize hb : s.best = b at hled hg
    generalize s.ledger = l0 at hled
    cases hled with
    | genesis => exact absurd rfl hg
    | block _ h1 h2 => exact ⟨_, h1, h2⟩
  have hd := hu _ _ _ hg hl1 hl2
  obtain ⟨p, hpk⟩ := known_gen.1 (hi.tree.parent he).1
  refine ⟨{ s with ledger := l, best := e.idx.prev, byHeight := s.byHeight.erase e.idx.height }, ?_, rfl, rfl, rfl, rfl, ?_⟩
  · have hpk' : (({ s with ledger := l, best := e.idx.prev, byHeight := s.byHeight.erase e.idx.height } : Db L).gen env e.idx.prev) = some p := hpk
    simp only [Db.disconnectTip, ensure, hg, he, hblk, hd, okOr, bind, Except.bind, pure, Except.pure, ne_eq, not_false_eq_true, if_true, hpk',
      Option.isSome_some]
  · have hmain : ∀ id, Anc env s e.idx.prev id ↔ Main env s id ∧ id ≠ s.best := by
      intro id
      unfold Main
      rw [hi.tree.anc_iff he]
      constructor
      · intro h
        refine ⟨.inr h, fun hc => ?_⟩
        have h1 := (hi.tree.anc_height h).1
        have h2 := (hi.tree.parent he).2.1
        rw [hc] at h1; omega
      · rintro ⟨h | h, h2⟩
        · exact absurd h h2
        · exact h
    refine ⟨(hi.tree.parent he).1, ?_, ?_, ?_⟩
    · intro h id
      show (s.byHeight.erase e.idx.height).get h = some id ↔ Anc env s e.idx.prev id ∧ height env s id = h
      rw [BMap.get_erase, hmain, ← hi.tree.height_eq he]
      split
      · rename_i hc
        constructor
        · intro h; cases h
        · rintro ⟨⟨h1, h2⟩, h3⟩
          exact absurd ((hi.tree.anc_height h1).2 (h3.trans hc)) h2
      · rename_i hc
        rw [hm.heights]
        constructor
        · rintro ⟨h1, h2⟩
          exact ⟨⟨h1, fun hb => hc (by rw [← h2, hb])⟩, h2⟩
        · rintro ⟨⟨h1, h2⟩, h3⟩; exact ⟨h1, h3⟩
    · intro id e' h he'
      exact hm.full id e' ((hmain id).1 h).1 he'
    · show Led env e.idx.prev l
      rw [hi.tree.prev_eq he]; exact hl1

theorem IInv.congr {s s' : Db L} (hi : IInv env s) (h1 : s'.index = s.index) (h2 : s'.blocks = s.blocks) : IInv env s' := by
  have ht : s'.tree = s.tree := by simp only [Db.tree, h1]
  refine ⟨⟨by unfold TInv; rw [ht]; exact hi.tree, ?_, ?_, ?_, ?_⟩, ?_⟩
  · intro id e he; rw [h2]; rw [h1] at he; exact hi.pers id e he
  · intro id hid; rw [h2] at hid; rw [h1]; exact hi.blk id hid
  · intro id e p he hp; rw [h1] at he hp; exact hi.parent id e p he hp
  · intro id e he; rw [h1] at he; exact hi.stage id e he
  · intro id e he; rw [h1] at he; exact hi.okp id e he

theorem disconnectUntil_ok (hu : Undoes env) {last : Nat} : ∀ (fuel : Nat) {s : Db L}, IInv env s → MInv env s → Main env s last →
    height env s s.best < fuel → ∃ s', Db.disconnectUntil env last fuel s.best s = .ok s' ∧ s'.index = s.index ∧ s'.blocks = s.blocks ∧
      s'.minHeight = s.minHeight ∧ s'.best = last ∧ MInv env s'
  | 0, s, _, _, _, hf => by omega
  | fuel + 1, s, hi, hm, hl, hf => by
    rw [Db.disconnectUntil]
    by_cases hc : s.best = last
    · rw [if_pos hc]; exact ⟨s, rfl, rfl, rfl, rfl, hc, hm⟩
    · rw [if_neg hc]
      have hg : s.best ≠ env.tree.genesisId := by
        intro h; unfold Main at hl; rw [h] at hl hc; exact hc (anc_of_genesis hl).symm
      rw [if_neg hg]
      obtain ⟨e, he⟩ := (known_cases hm.known).resolve_left hg
      obtain ⟨s1, h1, h2, h3, h4, h5, h6⟩ := disconnectTip_ok hu hi hm hg he
      have ht : s1.tree = s.tree := by simp only [Db.tree, h2]
      have hl1 : Main env s1 last := by
        unfold Main; rw [h5, anc_of_tree ht]
        exact ((hi.tree.anc_iff he).1 hl).resolve_left (fun h => hc h.symm)
      have hh : height env s1 s1.best < fuel := by
        rw [h5, height_of_tree ht]
        have := (hi.tree.parent he).2.1; omega
      obtain ⟨s2, g1, g2, g3, g4, g5, g6⟩ := disconnectUntil_ok hu fuel (hi.congr h2 h3) h6 hl1 hh
      refine ⟨s2, ?_, g2.trans h2, g3.trans h3, g4.trans h4, g5, g6⟩
      rw [h5] at g1
      simp only [h1, bind, Except.bind]; exact g1

/-! ### reorganizations -/

theorem Chain.append {s : Db L} : ∀ {a es e}, Chain s a es → e.idx.prev = lastId a es → s.index.get e.idx.id = some e → Chain s a (es ++ [e])
  | _, [], _, _, h1, h2 => ⟨h1, h2, trivial⟩
  | _, _ :: _, _, ⟨g1, g2, g3⟩, h1, h2 => ⟨g1, g2, g3.append h1 h2⟩

theorem lastId_append (a : Nat) (es : List Entry) (e : Entry) : lastId a (es ++ [e]) = e.idx.id := by
  induction es generalizing a with
  | nil => rfl
  | cons x es ih => exact ih _

theorem newChain_ok {s : Db L} (hi : IInv env s) (hm : MInv env s) : ∀ (fuel : Nat) {e : Entry}, s.index.get e.idx.id = some e →
    height env s e.idx.id < fuel → ∃ es a, s.newChain env fuel e = .ok es ∧ Main env s a ∧ Chain s a es ∧ lastId a es = e.idx.id ∧
      (∀ x ∈ es, Anc env s e.idx.id x.idx.id ∧ ¬ Main env s x.idx.id) ∧ (¬ Main env s e.idx.id → es ≠ [])
  | 0, e, _, hf => by omega
  | fuel + 1, e, he, hf => by
    rw [Db.newChain]
    by_cases hmn : Main env s e.idx.id
    · rw [if_pos ((inMain_iff hi.toIBase hm _).2 hmn)]
      exact ⟨[], e.idx.id, rfl, hmn, trivial, rfl, by simp, fun h => absurd hmn h⟩
    · rw [if_neg (fun h => hmn ((inMain_iff hi.toIBase hm _).1 h))]
      have hpar := hi.tree.parent he
      by_cases hg : e.idx.prev = env.tree.genesisId
      · rw [if_pos hg]
        refine ⟨[e], e.idx.prev, rfl, by rw [hg]; exact hi.tree.anc_genesis hm.known, ⟨rfl, he, trivial⟩, rfl, ?_, by simp⟩
        simp only [List.mem_singleton, forall_eq]
        exact ⟨anc_refl (known_of_get he), hmn⟩
      · rw [if_neg hg]
        obtain ⟨p, hp⟩ := (hi.tree.parent_cases he).resolve_left hg
        have hpid := hi.tree.id_eq' hp
        have hp' : s.index.get p.idx.id = some p := by rw [hpid]; exact hp
        obtain ⟨es, a, h1, h2, h3, h4, h5, h6⟩ := newChain_ok hi hm fuel hp' (by rw [hpid]; omega)
        refine ⟨es ++ [e], a, ?_, h2, h3.append (by rw [h4, hpid]) he, lastId_append _ _ _, ?_, by simp⟩
        · simp only [hp, okOr, bind, Except.bind, h1, pure, Except.pure]
        · intro x hx
          rcases List.mem_append.1 hx with hx | hx
          · obtain ⟨g1, g2⟩ := h5 x hx
            rw [hpid] at g1
            exact ⟨(hi.tree.anc_iff he).2 (.inr g1), g2⟩
          · simp only [List.mem_singleton] at hx; subst hx
            exact ⟨anc_refl (known_of_get he), hmn⟩

/-- ancestors of a valid block are valid -/
theorem IBase.ok_anc {s : Db L} (hi : IBase env s) {a b} (h : Anc env s a b) (ha : s.genOk env a = true) : s.genOk env b = true := by
  have hk := h.known_left
  revert h ha
  refine hi.tree.induct (P := fun a => Anc env s a b → s.genOk env a = true → s.genOk env b = true) ?_ ?_ a hk
  · intro h ha; rw [anc_of_genesis h]; exact ha
  · intro id e he ih h ha
    rcases (hi.tree.anc_iff he).1 h with rfl | h
    · exact ha
    · refine ih h ?_
      rcases hi.tree.parent_cases he with hg | ⟨p, hp⟩
      · rw [hg]; exact genOk_genesis s
      · rw [genOk_block (hi.tree.ne_genesis hp) hp]
        rw [genOk_block (hi.tree.ne_genesis he) he] at ha
        exact (hi.parent id e p he hp).2.1 ha

theorem reorganize_spec (hu : Undoes env) {now : Now} {s : Db L} (hi : IInv env s) (hm : MInv env s) {e : Entry}
    (he : s.index.get e.idx.id = some e) (hok : e.status.ok = true) (hnm : ¬ Main env s e.idx.id) :
    match s.reorganize env now e with
    | .ok s' => IInv env s' ∧ MInv env s' ∧ Keeps s s' ∧ s'.best = e.idx.id
    | .error (.connectFailed id err) => Anc env s e.idx.id id ∧ ¬ Main env s id ∧ Blamed env now id err
    | .error (.other _) => False := by
  obtain ⟨es, a, h1, h2, h3, h4, h5, h6⟩ := newChain_ok hi hm (e.idx.height + 1) he (by rw [hi.tree.height_eq he]; omega)
  unfold Db.reorganize
  simp only [h1, orOther, bind, Except.bind]
  have hgok : ∀ x ∈ es, x.status.ok = true := by
    intro x hx
    have hx1 := (h5 x hx).1
    have hg : s.genOk env e.idx.id = true := by rw [genOk_block (hi.tree.ne_genesis he) he]; exact hok
    have := hi.ok_anc hx1 hg
    have hxg := h3.get hx
    rw [genOk_block (hi.tree.ne_genesis hxg) hxg] at this; exact this
  cases es with
  | nil => exact absurd rfl (h6 hnm)
  | cons f rest =>
    obtain ⟨s1, g1, g2, g3, g4, g5, g6⟩ : ∃ s1, s.disconnectFor env f.idx.prev = .ok s1 ∧ s1.index = s.index ∧ s1.blocks = s.blocks ∧
        s1.minHeight = s.minHeight ∧ s1.best = f.idx.prev ∧ MInv env s1 := by
      unfold Db.disconnectFor
      have hfa : f.idx.prev = a := h3.1
      rw [hfa]
      by_cases hg : s.best = env.tree.genesisId
      · rw [if_pos hg]
        refine ⟨s, rfl, rfl, rfl, rfl, ?_, hm⟩
        unfold Main at h2; rw [hg] at h2 ⊢; exact (anc_of_genesis h2).symm
      · rw [if_neg hg]
        obtain ⟨b, hb⟩ := known_gen.1 hm.known
        obtain ⟨s1, q1, q⟩ := disconnectUntil_ok hu (b.height + 1) hi hm h2 (by rw [gen_height hb]; omega)
        refine ⟨s1, ?_, q⟩
        simp only [Db.bestIndex, hb, okOr, orOther, bind, Except.bind, q1]
    have hi1 := hi.congr g2 g3
    have hk1 : Keeps s s1 := ⟨fun id => by rw [g2], g3, g4⟩
    have hch : Chain s1 s1.best (f :: rest) := by
      rw [g5, h3.1]; exact h3.congr fun x _ => by rw [g2]
    have hc := connectAll_spec (now := now) hi1 g6 hch hgok
    simp only [g1]
    revert hc
    cases Db.connectAll env now (f :: rest) s1 with
    | ok s2 =>
      rintro ⟨a1, a2, a3, a4⟩
      refine ⟨a1, a2, hk1.trans a3, ?_⟩
      rw [a4, g5, h3.1, h4]
    | error re =>
      cases re with
      | connectFailed id err =>
        rintro ⟨⟨x, hx, rfl⟩, hb⟩
        exact ⟨(h5 x hx).1, (h5 x hx).2, hb⟩
      | other err => exact id

theorem activate_spec (hu : Undoes env) {now : Now} {s : Db L} (hi : IInv env s) (hm : MInv env s) {e : Entry}
    (he : s.index.get e.idx.id = some e) (hok : e.status.ok = true) :
    match s.activate env now e with
    | .ok (s', true) => IInv env s' ∧ MInv env s' ∧ Keeps s s' ∧ s'.best = e.idx.id ∧ trust env s s.best < trust env s e.idx.id
    | .ok (s', false) => s' = s ∧ trust env s e.idx.id ≤ trust env s s.best
    | .error (.connectFailed id err) => Anc env s e.idx.id id ∧ ¬ Main env s id ∧ Blamed env now id err ∧ trust env s s.best < trust env s e.idx.id
    | .error (.other _) => False := by
  unfold Db.activate
  obtain ⟨b, hb⟩ := known_gen.1 hm.known
  have hbt := gen_trust hb
  have het := hi.tree.trust_eq he
  simp only [Db.bestIndex, hb, okOr, orOther, bind, Except.bind]
  by_cases hc : e.idx.trust > b.trust
  · rw [if_pos hc]
    have hlt : trust env s s.best < trust env s e.idx.id := by rw [het, ← hbt]; exact hc
    have hnm : ¬ Main env s e.idx.id := by
      intro h; have := hi.tree.anc_trust h; omega
    have hr := reorganize_spec (now := now) hu hi hm he hok hnm
    revert hr
    cases s.reorganize env now e with
    | ok s' => rintro ⟨a1, a2, a3, a4⟩; exact ⟨a1, a2, a3, a4, hlt⟩
    | error re =>
      cases re with
      | connectFailed id err => rintro ⟨a1, a2, a3⟩; exact ⟨a1, a2, a3, hlt⟩
      | other err => exact id
  · rw [if_neg hc]
    exact ⟨rfl, by omega⟩

end Verif.Chainstate
