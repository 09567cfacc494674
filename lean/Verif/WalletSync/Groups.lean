import Verif.WalletSync.Static

/-! # Accounts at different blocks (C71) -/

namespace Verif.WalletSync

/-- What the grouping has done with the accounts `ps`. -/
structure GInv (E : Env) (m : BMap Nat (Nat × List Ty)) (ps : List (Ty × Acc)) : Prop where
  height : ∀ id h ts, m.get id = some (h, ts) → ∃ t a, (t, a) ∈ ps ∧ t ∈ ts ∧ best E a = id ∧ a.seen.length = h
  mem : ∀ id h ts t, m.get id = some (h, ts) → t ∈ ts → ∃ a, (t, a) ∈ ps ∧ best E a = id
  cover : ∀ t a, (t, a) ∈ ps → ∃ h ts, m.get (best E a) = some (h, ts) ∧ t ∈ ts

theorem putGroup_inv {E : Env} {m : BMap Nat (Nat × List Ty)} {ps : List (Ty × Acc)} (h : GInv E m ps) (p : Ty × Acc) :
    GInv E (putGroup E m p) (ps ++ [p]) := by
  obtain ⟨t0, a0⟩ := p
  have hget : ∀ id, (putGroup E m (t0, a0)).get id = if id = best E a0 then
      (match m.get (best E a0) with
        | none => some (a0.seen.length, [t0])
        | some (h, l) => some (h, l ++ [t0])) else m.get id := by
    intro id
    unfold putGroup
    simp only
    split
    · next hm => rw [BMap.get_insert, hm]
    · next h' l' hm => rw [BMap.get_insert, hm]
  refine ⟨?_, ?_, ?_⟩
  · intro id hh ts e
    rw [hget] at e
    split at e
    · next hid =>
      cases hm : m.get (best E a0) with
      | none =>
        rw [hm] at e; cases e
        exact ⟨t0, a0, by simp, by simp, hid.symm, rfl⟩
      | some q =>
        obtain ⟨h', l'⟩ := q
        rw [hm] at e; cases e
        obtain ⟨t, a, x1, x2, x3, x4⟩ := h.height _ _ _ hm
        exact ⟨t, a, by simp [x1], by simp [x2], by rw [x3, hid], x4⟩
    · obtain ⟨t, a, x1, x2, x3, x4⟩ := h.height _ _ _ e
      exact ⟨t, a, by simp [x1], x2, x3, x4⟩
  · intro id hh ts t e ht
    rw [hget] at e
    split at e
    · next hid =>
      cases hm : m.get (best E a0) with
      | none =>
        rw [hm] at e; cases e
        simp only [List.mem_singleton] at ht
        subst ht
        exact ⟨a0, by simp, hid.symm⟩
      | some q =>
        obtain ⟨h', l'⟩ := q
        rw [hm] at e; cases e
        rcases List.mem_append.1 ht with ht | ht
        · obtain ⟨a, x1, x2⟩ := h.mem _ _ _ t hm ht
          exact ⟨a, by simp [x1], by rw [x2, hid]⟩
        · simp only [List.mem_singleton] at ht
          subst ht
          exact ⟨a0, by simp, hid.symm⟩
    · obtain ⟨a, x1, x2⟩ := h.mem _ _ _ t e ht
      exact ⟨a, by simp [x1], x2⟩
  · intro t a hm
    rw [hget]
    rcases List.mem_append.1 hm with hm | hm
    · obtain ⟨h', ts, x1, x2⟩ := h.cover t a hm
      by_cases hid : best E a = best E a0
      · rw [if_pos hid, ← hid, x1]
        exact ⟨h', ts ++ [t0], rfl, by simp [x2]⟩
      · rw [if_neg hid]
        exact ⟨h', ts, x1, x2⟩
    · simp only [List.mem_singleton, Prod.mk.injEq] at hm
      obtain ⟨rfl, rfl⟩ := hm
      rw [if_pos rfl]
      cases m.get (best E a) with
      | none => exact ⟨_, _, rfl, by simp⟩
      | some q => exact ⟨_, _, rfl, by simp⟩

theorem foldl_inv {E : Env} : ∀ (ps qs : List (Ty × Acc)) (m : BMap Nat (Nat × List Ty)), GInv E m qs →
    GInv E (ps.foldl (putGroup E) m) (qs ++ ps) := by
  intro ps
  induction ps with
  | nil => intro qs m h; simpa using h
  | cons p ps ih =>
    intro qs m h
    have := ih (qs ++ [p]) _ (putGroup_inv h p)
    simpa using this

theorem grouped_inv (E : Env) (w : Wallet) : GInv E ((accs w).foldl (putGroup E) BMap.empty) (accs w) := by
  have h0 : GInv E BMap.empty [] := ⟨fun id h ts e => (by cases e), fun id h ts t e => (by cases e), fun t a h => (by simp at h)⟩
  simpa using foldl_inv (accs w) [] _ h0

/-- The conditions under which accounts at different blocks are brought together. -/
structure Apart (E : Env) (n : Node) (w : Wallet) : Prop where
  branch : ∀ a, Holds w a → Branch E a.seen
  low : ∀ a, Holds w a → a.seen.length ≤ (E.path n.tip).length
  off : ∀ a, Holds w a → a.seen ≠ E.path n.tip

/-- The common block of a group. -/
def infoOf (E : Env) (n : Node) (id : Nat) : Info :=
  match commonInfo E n n.tip (E.path n.tip).length id (E.path id).length with
  | .ok c => c
  | .error _ => ⟨0, 0⟩

theorem commonInfos_map {E : Env} {n : Node} {r : Nat} : ∀ (es : List (Nat × (Nat × List Ty))) (i : Nat),
    (∀ e ∈ es, e.2.1 = (E.path e.1).length ∧
      ∃ c, commonInfo E n n.tip (E.path n.tip).length e.1 (E.path e.1).length = .ok c) →
    commonInfos E (still n r) i es = .ok (es.map (fun e => (infoOf E n e.1, e.2.2))) := by
  intro es
  induction es with
  | nil => intro i _; rfl
  | cons e es ih =>
    intro i h
    obtain ⟨id, hh, ts⟩ := e
    obtain ⟨h1, c, h2⟩ := h (id, hh, ts) (by simp)
    simp only at h1 h2
    subst h1
    have hc : commonInfo E ((still n r).anc i) (still n r).info.tip (E.path (still n r).info.tip).length id
        (E.path id).length = .ok c := h2
    have hi : infoOf E n id = c := by unfold infoOf; rw [h2]
    simp only [commonInfos, hc, ih (i + 1) (fun e he => h e (List.mem_cons_of_mem _ he)), List.map_cons, hi]

/-- What is known about the list of groups, lowest first. -/
structure MInv (E : Env) (n : Node) (w : Wallet) (L : List (Info × List Ty)) : Prop where
  sorted : L.Pairwise (fun a b => a.1.height ≤ b.1.height)
  disj : L.Pairwise (fun a b => ∀ t ∈ a.2, t ∉ b.2)
  each : ∀ g ∈ L, E.path g.1.id = (E.path n.tip).take g.1.height ∧ g.1.height < (E.path n.tip).length ∧
    ∀ t ∈ g.2, ∃ a, get w t = some a ∧ g.1.height ≤ a.seen.length ∧
      a.seen.take g.1.height = (E.path n.tip).take g.1.height

/-- The groups of a wallet whose accounts are not at the node's best block. -/
theorem groups_spec {E : Env} (ok : TreeOk E) {n : Node} (hn : NodeOk E n) {w : Wallet} (hw : Apart E n w) (r : Nat) :
    ∃ gs, groups E (still n r) w = .ok gs ∧ gs ≠ [] ∧ MInv E n w gs.reverse ∧
      (∀ t a, get w t = some a → ∃ g ∈ gs.reverse, t ∈ g.2 ∧ Resume E n a.seen g.1.height) ∧
      (∀ g ∈ gs.reverse, ∀ t t' a a', t ∈ g.2 → t' ∈ g.2 → get w t = some a → get w t' = some a' → a.seen = a'.seen) ∧
      ((∀ a a', Holds w a → Holds w a' → a.seen ≠ a'.seen → ∀ h h', Resume E n a.seen h → Resume E n a'.seen h' →
          h ≠ h') → gs.reverse.Pairwise (fun a b => a.1.height < b.1.height)) := by
  have inv := grouped_inv E w
  -- an account of the wallet is at the end of the branch of its best block
  have hbr : ∀ a, Holds w a → a.seen = E.path (best E a) := by
    intro a ha
    obtain ⟨b, hb⟩ := hw.branch a ha
    have : best E a = b := by unfold best; rw [hb, lastOr_path ok]
    rw [this]; exact hb
  -- the answer for an account
  have hinfo : ∀ a, Holds w a → commonInfo E n n.tip (E.path n.tip).length (best E a) (E.path (best E a)).length =
        .ok (infoOf E n (best E a)) ∧
      E.path (infoOf E n (best E a)).id = a.seen.take (infoOf E n (best E a)).height ∧
      E.path (infoOf E n (best E a)).id = (E.path n.tip).take (infoOf E n (best E a)).height ∧
      (infoOf E n (best E a)).height ≤ a.seen.length ∧
      (infoOf E n (best E a)).height < (E.path n.tip).length ∧ Resume E n a.seen (infoOf E n (best E a)).height := by
    intro a ha
    have hb := hbr a ha
    have h1 : n.tip ≠ best E a := by
      intro hc
      exact hw.off a ha (by rw [hc]; exact hb)
    have h2 : (E.path (best E a)).length ≤ (E.path n.tip).length := by rw [← hb]; exact hw.low a ha
    obtain ⟨c, c0, c1, c2, c3, c4, c5⟩ := commonInfo_resume ok hn h1 h2
    have hi : infoOf E n (best E a) = c := by unfold infoOf; rw [c0]
    rw [hi]
    rw [← hb] at c1 c3 c5
    exact ⟨c0, c1, c2, c3, c4, c5⟩
  -- the entries of the map
  have hes : ∀ e ∈ grouped E w, (∃ t a, get w t = some a ∧ t ∈ e.2.2 ∧ best E a = e.1 ∧ a.seen.length = e.2.1) ∧
      ∀ t ∈ e.2.2, ∃ a, get w t = some a ∧ best E a = e.1 := by
    intro e he
    obtain ⟨id, hh, ts⟩ := e
    have hg := BMap.mem_entries.1 he
    refine ⟨?_, ?_⟩
    · obtain ⟨t, a, x1, x2, x3, x4⟩ := inv.height _ _ _ hg
      exact ⟨t, a, mem_accs.1 x1, x2, x3, x4⟩
    · intro t ht
      obtain ⟨a, x1, x2⟩ := inv.mem _ _ _ t hg ht
      exact ⟨a, mem_accs.1 x1, x2⟩
  have hci := commonInfos_map (E := E) (n := n) (r := r) (grouped E w) 0 (by
    intro e he
    obtain ⟨⟨t, a, x1, _, x3, x4⟩, _⟩ := hes e he
    have hh := holds_get.2 ⟨t, x1⟩
    refine ⟨?_, ?_⟩
    · rw [← x4, ← x3, ← hbr a hh]
    · rw [← x3]; exact ⟨_, (hinfo a hh).1⟩)
  have hdist : (grouped E w).Pairwise (fun a b => a.1 ≠ b.1) := by
    have := ((accs w).foldl (putGroup E) BMap.empty).sorted
    exact this.imp (fun h => Nat.ne_of_lt h)
  set rs := (grouped E w).map (fun e => (infoOf E n e.1, e.2.2)) with hrs
  set gs := rs.insertionSort (fun a b => b.1.height ≤ a.1.height) with hgs
  have hperm : gs.Perm rs := List.perm_insertionSort _ _
  have hrperm : gs.reverse.Perm rs := (List.reverse_perm gs).trans hperm
  have hmem : ∀ g ∈ gs.reverse, ∃ e ∈ grouped E w, g = (infoOf E n e.1, e.2.2) := by
    intro g hg
    have := (hrperm.mem_iff).1 hg
    obtain ⟨e, he, e'⟩ := List.mem_map.1 this
    exact ⟨e, he, e'.symm⟩
  have hsorted : gs.reverse.Pairwise (fun a b => a.1.height ≤ b.1.height) := by
    rw [List.pairwise_reverse]
    haveI : Std.Total (fun a b : Info × List Ty => b.1.height ≤ a.1.height) := ⟨fun a b => Nat.le_total _ _⟩
    haveI : IsTrans (Info × List Ty) (fun a b => b.1.height ≤ a.1.height) := ⟨fun a b c h1 h2 => Nat.le_trans h2 h1⟩
    exact List.pairwise_insertionSort _ _
  have hdisj : gs.reverse.Pairwise (fun a b => ∀ t ∈ a.2, t ∉ b.2) := by
    have : rs.Pairwise (fun a b => ∀ t ∈ a.2, t ∉ b.2) := by
      rw [hrs, List.pairwise_map]
      refine List.Pairwise.imp_of_mem ?_ hdist
      intro a b ha hb hab t ht ht'
      obtain ⟨x, x1, x2⟩ := (hes a ha).2 t ht
      obtain ⟨y, y1, y2⟩ := (hes b hb).2 t ht'
      rw [x1] at y1; cases y1
      exact hab (x2.symm.trans y2)
    exact (hrperm.symm.pairwise_iff (fun h t ht ht' => h t ht' ht)).1 this
  refine ⟨gs, ?_, ?_, ⟨hsorted, hdisj, ?_⟩, ?_, ?_, ?_⟩
  · unfold groups; rw [hci]
  · intro hc
    have h0 : rs = [] := by rw [hc] at hperm; exact hperm.symm.eq_nil
    obtain ⟨h, ts, x1, x2⟩ := inv.cover Ty.unused w.unused (mem_accs.2 rfl)
    have : (best E w.unused, h, ts) ∈ grouped E w := BMap.mem_entries.2 x1
    have h1 : grouped E w = [] := List.map_eq_nil_iff.1 h0
    rw [h1] at this; simp at this
  · intro g hg
    obtain ⟨e, he, rfl⟩ := hmem g hg
    obtain ⟨⟨t, a, x1, _, x3, _⟩, hall⟩ := hes e he
    obtain ⟨_, i1, i2, i3, i4, _⟩ := hinfo a (holds_get.2 ⟨t, x1⟩)
    rw [x3] at i1 i2 i3 i4
    refine ⟨i2, i4, ?_⟩
    intro t' ht'
    obtain ⟨a', y1, y2⟩ := hall t' ht'
    obtain ⟨_, j1, j2, j3, _, _⟩ := hinfo a' (holds_get.2 ⟨t', y1⟩)
    rw [y2] at j1 j2 j3
    exact ⟨a', y1, j3, by simp only; rw [← j1, ← j2]⟩
  · intro t a ha
    obtain ⟨h, ts, x1, x2⟩ := inv.cover t a (mem_accs.2 ha)
    refine ⟨(infoOf E n (best E a), ts), ?_, x2, ?_⟩
    · rw [hrperm.mem_iff, hrs]
      exact List.mem_map.2 ⟨(best E a, h, ts), BMap.mem_entries.2 x1, rfl⟩
    · exact (hinfo a (holds_get.2 ⟨t, ha⟩)).2.2.2.2.2
  · intro g hg t t' a a' ht ht' ha ha'
    obtain ⟨e, he, rfl⟩ := hmem g hg
    obtain ⟨x, x1, x2⟩ := (hes e he).2 t ht
    obtain ⟨y, y1, y2⟩ := (hes e he).2 t' ht'
    rw [ha] at x1; cases x1
    rw [ha'] at y1; cases y1
    rw [hbr a (holds_get.2 ⟨t, ha⟩), hbr a' (holds_get.2 ⟨t', ha'⟩), x2, y2]
  · intro hne
    have hns : rs.Pairwise (fun a b => a.1.height ≠ b.1.height) := by
      rw [hrs, List.pairwise_map]
      refine List.Pairwise.imp_of_mem ?_ hdist
      intro a b ha hb hab
      obtain ⟨⟨t, x, x1, _, x3, _⟩, _⟩ := hes a ha
      obtain ⟨⟨t', y, y1, _, y3, _⟩, _⟩ := hes b hb
      have hx := holds_get.2 ⟨t, x1⟩
      have hy := holds_get.2 ⟨t', y1⟩
      have rx := (hinfo x hx).2.2.2.2.2
      have ry := (hinfo y hy).2.2.2.2.2
      rw [x3] at rx; rw [y3] at ry
      refine hne x y hx hy ?_ _ _ rx ry
      intro hc
      apply hab
      rw [← x3, ← y3]
      unfold best; rw [hc]
    have := (hrperm.symm.pairwise_iff (fun h => h.symm)).1 hns
    exact (hsorted.and this).imp (fun h => Nat.lt_of_le_of_ne h.1 h.2)

theorem fetchNext_zero (E : Env) (n : Node) (c : Info) : fetchNext E n c 0 = .error .noNewBlocks := by
  unfold fetchNext mainchainBlocks
  rw [List.take_zero]

/-- Bringing the lowest group to the next one. -/
theorem merge_step {E : Env} (ok : TreeOk E) {n : Node} (hm : 0 < E.maxAcc) {r i : Nat} {cur next : Info × List Ty}
    {rest : List (Info × List Ty)} {w : Wallet} (inv : MInv E n w (cur :: next :: rest))
    (hlt : cur.1.height < next.1.height) (hq : ∀ b ∈ E.path n.tip, E.rel w.accounts.length b = false) :
    ∃ w', fetchAndSync E ((still n r).fetch i) cur.1 cur.2 (next.1.height - cur.1.height) w = (w', .ok ()) ∧
      w'.accounts.length = w.accounts.length ∧ MInv E n w' ((next.1, next.2 ++ cur.2) :: rest) ∧
      (∀ t, t ∉ cur.2 → get w' t = get w t) ∧
      (∀ t a, t ∈ cur.2 → get w' t = some a → a.seen = (E.path n.tip).take next.1.height) ∧
      (AllRec E w → AllRec E w') := by
  obtain ⟨c1, c2, c3⟩ := inv.each cur (by simp)
  obtain ⟨n1, n2, n3⟩ := inv.each next (by simp)
  have hf := fetchNext_main ok (k := next.1.height - cur.1.height) c1 c2 (by omega)
  obtain ⟨_, hne, _⟩ := fetchNext_ok hf
  generalize hbl : ((E.path n.tip).drop cur.1.height).take (next.1.height - cur.1.height) = blocks at *
  have hjoin : (E.path n.tip).take cur.1.height ++ blocks = (E.path n.tip).take next.1.height := by
    rw [← hbl, ← List.take_add]; congr 1; omega
  obtain ⟨w', e1, e2, e3, e4, e5⟩ := scanAll_quiet (E := E) (h := cur.1.height) hne hm cur.2 w
    (fun x hx => hq x (by rw [← hbl] at hx; exact List.mem_of_mem_drop (List.mem_of_mem_take hx)))
    (fun t ht => by obtain ⟨a, x1, x2, _⟩ := c3 t ht; exact ⟨a, x1, x2⟩)
  have hcur : ∀ t ∈ cur.2, ∃ a, get w' t = some a ∧ a.seen = (E.path n.tip).take next.1.height := by
    intro t ht
    obtain ⟨a, x1, x2, x3⟩ := c3 t ht
    obtain ⟨a', y1, y2⟩ := e3 t a ht x1
    exact ⟨a', y1, by rw [y2, x3, hjoin]⟩
  have hd := List.pairwise_cons.1 inv.disj
  have hd2 := List.pairwise_cons.1 hd.2
  have hs2 := (List.pairwise_cons.1 inv.sorted).2
  refine ⟨w', ?_, e2, ⟨?_, ?_, ?_⟩, e4, ?_, e5⟩
  · have hf' : fetchNext E ((still n r).fetch i) cur.1 (next.1.height - cur.1.height) = .ok blocks := hf
    simp only [fetchAndSync, hf']; exact e1
  · have := List.pairwise_cons.1 hs2
    exact List.pairwise_cons.2 ⟨this.1, this.2⟩
  · refine List.pairwise_cons.2 ⟨?_, hd2.2⟩
    intro b hb t ht
    rcases List.mem_append.1 ht with ht | ht
    · exact hd2.1 b hb t ht
    · exact hd.1 b (List.mem_cons_of_mem _ hb) t ht
  · intro g hg
    rcases List.mem_cons.1 hg with rfl | hg
    · refine ⟨n1, n2, ?_⟩
      intro t ht
      by_cases hc : t ∈ cur.2
      · obtain ⟨a, x1, x2⟩ := hcur t hc
        refine ⟨a, x1, ?_, ?_⟩
        · rw [x2]; simp; omega
        · rw [x2, List.take_take]; simp
      · rcases List.mem_append.1 ht with ht | ht
        · rw [e4 t hc]; exact n3 t ht
        · exact absurd ht hc
    · obtain ⟨g1, g2, g3⟩ := inv.each g (by simp [hg])
      refine ⟨g1, g2, ?_⟩
      intro t ht
      have : t ∉ cur.2 := fun hc => hd.1 g (by simp [hg]) t hc ht
      rw [e4 t this]; exact g3 t ht
  · intro t a ht ha
    obtain ⟨a', x1, x2⟩ := hcur t ht
    rw [ha] at x1; cases x1; exact x2

/-- Groups at different heights are brought together. -/
theorem mergeLoop_ok {E : Env} (ok : TreeOk E) {n : Node} (hm : 0 < E.maxAcc) {r : Nat} :
    ∀ (rest : List (Info × List Ty)) (i : Nat) (cur : Info × List Ty) (w : Wallet), MInv E n w (cur :: rest) →
      (cur :: rest).Pairwise (fun a b => a.1.height < b.1.height) →
      (∀ b ∈ E.path n.tip, E.rel w.accounts.length b = false) →
      ∃ w' j c, mergeLoop E (still n r) i cur rest w = (w', .ok (j, c)) ∧ w'.accounts.length = w.accounts.length ∧
        MInv E n w' [c] ∧ (∀ g ∈ cur :: rest, ∀ t ∈ g.2, t ∈ c.2) ∧ (AllRec E w → AllRec E w') := by
  intro rest
  induction rest with
  | nil => intro i cur w inv _ _; exact ⟨w, i, cur, rfl, rfl, inv, by simp, id⟩
  | cons next rest ih =>
    intro i cur w inv hs hq
    have hlt := (List.pairwise_cons.1 hs).1 next (by simp)
    obtain ⟨w1, e1, e2, e3, _, _, e6⟩ := merge_step (r := r) (i := i) ok hm inv hlt hq
    have hs2 := List.pairwise_cons.1 (List.pairwise_cons.1 hs).2
    obtain ⟨w2, j, c, f1, f2, f3, f4, f5⟩ := ih (i + 1) (next.1, next.2 ++ cur.2) w1 e3
      (List.pairwise_cons.2 ⟨hs2.1, hs2.2⟩) (by rw [e2]; exact hq)
    refine ⟨w2, j, c, ?_, by rw [f2, e2], f3, ?_, fun h => f5 (e6 h)⟩
    · simp only [mergeLoop]
      rw [if_neg (by omega), e1]
      exact f1
    · intro g hg t ht
      rcases List.mem_cons.1 hg with rfl | hg
      · exact f4 _ (List.mem_cons_self ..) t (List.mem_append_right _ ht)
      · rcases List.mem_cons.1 hg with rfl | hg
        · exact f4 _ (List.mem_cons_self ..) t (List.mem_append_left _ ht)
        · exact f4 g (List.mem_cons_of_mem _ hg) t ht

/-- Two groups at the same height stop the loop; neither of them is touched. -/
theorem mergeLoop_dup {E : Env} (ok : TreeOk E) {n : Node} (hm : 0 < E.maxAcc) {r : Nat} :
    ∀ (rest : List (Info × List Ty)) (i : Nat) (cur : Info × List Ty) (w : Wallet) (g1 g2 : Info × List Ty) (t1 t2 : Ty),
      MInv E n w (cur :: rest) → [g1, g2].Sublist (cur :: rest) → g1.1.height = g2.1.height →
      t1 ∈ g1.2 → t2 ∈ g2.2 →
      (∀ b ∈ E.path n.tip, E.rel w.accounts.length b = false) →
      ∃ w', mergeLoop E (still n r) i cur rest w = (w', .error .noNewBlocks) ∧
        w'.accounts.length = w.accounts.length ∧ get w' t1 = get w t1 ∧ get w' t2 = get w t2 ∧
        (∀ t a, get w' t = some a → get w t = some a ∨
          ∃ k, k < (E.path n.tip).length ∧ a.seen = (E.path n.tip).take k) := by
  intro rest
  induction rest with
  | nil =>
    intro i cur w g1 g2 t1 t2 _ hsub
    have := hsub.length_le
    simp at this
  | cons next rest ih =>
    intro i cur w g1 g2 t1 t2 inv hsub hh ht1 ht2 hq
    have hle := (List.pairwise_cons.1 inv.sorted).1 next (by simp)
    rcases Nat.lt_or_ge cur.1.height next.1.height with hlt | hge
    · obtain ⟨w1, e1, e2, e3, e4, e5, _⟩ := merge_step (r := r) (i := i) ok hm inv hlt hq
      -- the two groups are not the lowest one
      have hsub' : [g1, g2].Sublist (next :: rest) := by
        cases hsub with
        | cons _ h => exact h
        | cons_cons _ h =>
          exfalso
          have hmem : g2 ∈ next :: rest := h.subset (by simp)
          have h2 : next.1.height ≤ g2.1.height := by
            rcases List.mem_cons.1 hmem with rfl | hmem
            · exact le_rfl
            · exact (List.pairwise_cons.1 (List.pairwise_cons.1 inv.sorted).2).1 _ hmem
          omega
      have hd := (List.pairwise_cons.1 inv.disj).1
      have hn1 : t1 ∉ cur.2 := fun hc => hd g1 (hsub'.subset (by simp)) t1 hc ht1
      have hn2 : t2 ∉ cur.2 := fun hc => hd g2 (hsub'.subset (by simp)) t2 hc ht2
      have hnext : n.tip = n.tip ∧ next.1.height < (E.path n.tip).length := ⟨rfl, (inv.each next (by simp)).2.1⟩
      have key : ∃ g1', [g1', g2].Sublist ((next.1, next.2 ++ cur.2) :: rest) ∧ g1'.1.height = g2.1.height ∧ t1 ∈ g1'.2 := by
        cases hsub' with
        | cons _ h => exact ⟨g1, h.cons _, hh, ht1⟩
        | cons_cons _ h => exact ⟨(next.1, next.2 ++ cur.2), h.cons_cons _, hh, List.mem_append_left _ ht1⟩
      obtain ⟨g1', k1, k2, k3⟩ := key
      obtain ⟨w2, f1, f2, f3, f4, f5⟩ := ih (i + 1) (next.1, next.2 ++ cur.2) w1 g1' g2 t1 t2 e3 k1 k2 k3 ht2
        (by rw [e2]; exact hq)
      refine ⟨w2, ?_, by rw [f2, e2], by rw [f3, e4 t1 hn1], by rw [f4, e4 t2 hn2], ?_⟩
      · simp only [mergeLoop]
        rw [if_neg (by omega), e1]
        exact f1
      · intro t a ha
        rcases f5 t a ha with h | h
        · by_cases hc : t ∈ cur.2
          · exact Or.inr ⟨next.1.height, hnext.2, e5 t a hc h⟩
          · rw [e4 t hc] at h; exact Or.inl h
        · exact Or.inr h
    · have heq : next.1.height - cur.1.height = 0 := by omega
      refine ⟨w, ?_, rfl, rfl, rfl, fun t a h => Or.inl h⟩
      simp only [mergeLoop]
      rw [if_neg (by omega), heq]
      simp only [fetchAndSync, fetchNext_zero]

/-- The first two checks of a round when no account is at the node's best block or above it. -/
theorem round_apart {E : Env} (ok : TreeOk E) {n : Node} {w : Wallet} (hw : Apart E n w) {r : Nat}
    {gs : List (Info × List Ty)} (hg : groups E (still n r) w = .ok gs) :
    round E (still n r) w = (match syncGroups E (still n r) gs w with
      | (w', .error e) => (w', .error e)
      | (w', .ok _) => (w', .ok none)) := by
  have hn1 : ¬ ((accs w).all (fun p => decide ((still n r).info.tip = best E p.2)) = true) := by
    intro hall
    rw [List.all_eq_true] at hall
    have := of_decide_eq_true (hall (Ty.unused, w.unused) (mem_accs.2 rfl))
    obtain ⟨b, hb⟩ := hw.branch w.unused (Or.inr rfl)
    have e : best E w.unused = b := by unfold best; rw [hb, lastOr_path ok]
    rw [e] at this
    have h3 : n.tip = b := this
    exact hw.off w.unused (Or.inr rfl) (by rw [hb, h3])
  have hn2 : ¬ ((accs w).any (fun p => decide ((E.path (still n r).info.tip).length < p.2.seen.length)) = true) := by
    intro hany
    obtain ⟨p, hp1, hp2⟩ := List.any_eq_true.1 hany
    have h1 : (E.path n.tip).length < p.2.seen.length := of_decide_eq_true hp2
    have h2 := hw.low p.2 (holds_accs.2 ⟨p.1, hp1⟩)
    omega
  unfold round
  rw [if_neg hn1, if_neg hn2, hg]
  simp only
  split <;> simp_all

/-- A round with accounts at different blocks brings all of them to the same block. -/
theorem round_groups {E : Env} (ok : TreeOk E) {n : Node} (hn : NodeOk E n) {w : Wallet} (hm : 0 < E.maxAcc) (hw : Apart E n w)
    (hq : ∀ b ∈ E.path n.tip, E.rel w.accounts.length b = false)
    (hne : ∀ a a', Holds w a → Holds w a' → a.seen ≠ a'.seen → ∀ h h', Resume E n a.seen h → Resume E n a'.seen h' →
      h ≠ h') (r : Nat) :
    ∃ w' k, round E (still n r) w = (w', .ok none) ∧ k ≤ (E.path n.tip).length ∧
      w'.accounts.length = w.accounts.length ∧ AllAt w' ((E.path n.tip).take k) ∧ (AllRec E w → AllRec E w') := by
  obtain ⟨gs, g1, g2, g3, g4, _, g6⟩ := groups_spec ok hn hw r
  have hstrict := g6 hne
  rw [round_apart ok hw g1]
  simp only [syncGroups]
  cases hrev : gs.reverse with
  | nil => exact absurd (List.reverse_eq_nil_iff.1 hrev) g2
  | cons cur rest =>
    rw [hrev] at g3 g4 hstrict
    simp only
    obtain ⟨w1, j, c, m1, m2, m3, m4, m5⟩ := mergeLoop_ok (r := r) ok hm rest 0 cur w g3 hstrict hq
    rw [m1]
    simp only
    obtain ⟨c1, c2, c3⟩ := m3.each c (by simp)
    have hf := fetchNext_main ok (k := maxFetch) c1 c2 (by decide)
    obtain ⟨_, hne', _⟩ := fetchNext_ok hf
    generalize hbl : ((E.path n.tip).drop c.1.height).take maxFetch = blocks at *
    have hjoin : (E.path n.tip).take c.1.height ++ blocks = (E.path n.tip).take (c.1.height + maxFetch) := by
      rw [← hbl, ← List.take_add]
    obtain ⟨w2, e1, e2, e3, e4, e5⟩ := scanAll_quiet (E := E) (h := c.1.height) hne' hm c.2 w1
      (fun x hx => by
        rw [m2]
        exact hq x (by rw [← hbl] at hx; exact List.mem_of_mem_drop (List.mem_of_mem_take hx)))
      (fun t ht => by obtain ⟨a, x1, x2, _⟩ := c3 t ht; exact ⟨a, x1, x2⟩)
    have hfs : fetchAndSync E ((still n r).fetch j) c.1 c.2 maxFetch w1 = (w2, .ok ()) := by
      have hf' : fetchNext E ((still n r).fetch j) c.1 maxFetch = .ok blocks := hf
      simp only [fetchAndSync, hf']; exact e1
    rw [hfs]
    refine ⟨w2, min (c.1.height + maxFetch) (E.path n.tip).length, rfl, by omega, by rw [e2, m2], ?_, fun h => e5 (m5 h)⟩
    have htake : (E.path n.tip).take (c.1.height + maxFetch) =
        (E.path n.tip).take (min (c.1.height + maxFetch) (E.path n.tip).length) := by
      rcases Nat.le_total (c.1.height + maxFetch) (E.path n.tip).length with q | q
      · rw [Nat.min_eq_left q]
      · rw [Nat.min_eq_right q, List.take_length, List.take_of_length_le q]
    rw [← htake]
    -- every account belongs to a group
    have hlen : w2.accounts.length = w.accounts.length := by rw [e2, m2]
    intro a ha
    obtain ⟨t, ht⟩ := holds_get.1 ha
    have hin : ∃ a0, get w t = some a0 := by
      cases t with
      | unused => exact ⟨_, rfl⟩
      | account i =>
        have ht' : w2.accounts[i]? = some a := ht
        have hi : i < w.accounts.length := by
          by_contra hc
          rw [List.getElem?_eq_none (by omega)] at ht'; cases ht'
        exact ⟨_, List.getElem?_eq_getElem hi⟩
    obtain ⟨a0, h0⟩ := hin
    obtain ⟨g, q1, q2, _⟩ := g4 t a0 h0
    have hc := m4 g q1 t q2
    obtain ⟨a1, x1, x2, x3⟩ := c3 t hc
    obtain ⟨a2, y1, y2⟩ := e3 t a1 hc x1
    rw [ht] at y1; cases y1
    rw [y2, x3, hjoin]

/-- Two accounts at different blocks with the same last shared block: an error, and both stay where they are. -/
theorem round_dup {E : Env} (ok : TreeOk E) {n : Node} (hn : NodeOk E n) {w : Wallet} (hm : 0 < E.maxAcc) (hw : Apart E n w)
    (hq : ∀ b ∈ E.path n.tip, E.rel w.accounts.length b = false) {t t' : Ty} {a a' : Acc} {h : Nat}
    (ha : get w t = some a) (ha' : get w t' = some a') (hne : a.seen ≠ a'.seen)
    (hr : Resume E n a.seen h) (hr' : Resume E n a'.seen h) (r : Nat) :
    ∃ w', round E (still n r) w = (w', .error .noNewBlocks) ∧ w'.accounts.length = w.accounts.length ∧
      get w' t = some a ∧ get w' t' = some a' ∧ Apart E n w' := by
  obtain ⟨gs, g1, g2, g3, g4, g5, _⟩ := groups_spec ok hn hw r
  rw [round_apart ok hw g1]
  simp only [syncGroups]
  cases hrev : gs.reverse with
  | nil => exact absurd (List.reverse_eq_nil_iff.1 hrev) g2
  | cons cur rest =>
    rw [hrev] at g3 g4 g5
    simp only
    obtain ⟨x, x1, x2, x3⟩ := g4 t a ha
    obtain ⟨y, y1, y2, y3⟩ := g4 t' a' ha'
    have hxy : x ≠ y := by
      intro hc
      subst hc
      exact hne (g5 x x1 t t' a a' x2 y2 ha ha')
    have hheight : x.1.height = y.1.height := by
      rw [resume_unique x3 hr, resume_unique y3 hr']
    have fin : ∀ {w' : Wallet}, w'.accounts.length = w.accounts.length →
        (∀ t a, get w' t = some a → get w t = some a ∨
          ∃ k, k < (E.path n.tip).length ∧ a.seen = (E.path n.tip).take k) → Apart E n w' := by
      intro w' _ hall
      refine ⟨?_, ?_, ?_⟩
      · intro b hb
        obtain ⟨s, hs⟩ := holds_get.1 hb
        rcases hall s b hs with h | ⟨k, _, hk⟩
        · exact hw.branch b (holds_get.2 ⟨s, h⟩)
        · exact ⟨lastOr E.genesis ((E.path n.tip).take k), by rw [hk]; exact (path_prefix ok (List.take_prefix _ _)).symm⟩
      · intro b hb
        obtain ⟨s, hs⟩ := holds_get.1 hb
        rcases hall s b hs with h | ⟨k, _, hk⟩
        · exact hw.low b (holds_get.2 ⟨s, h⟩)
        · rw [hk]; simp
      · intro b hb
        obtain ⟨s, hs⟩ := holds_get.1 hb
        rcases hall s b hs with h | ⟨k, hlt, hk⟩
        · exact hw.off b (holds_get.2 ⟨s, h⟩)
        · intro hc
          rw [hk] at hc
          have := congrArg List.length hc
          simp at this; omega
    have hsub : [x, y].Sublist (cur :: rest) ∨ [y, x].Sublist (cur :: rest) := by
      generalize cur :: rest = L at *
      clear g3 g4 g5 hrev
      induction L with
      | nil => simp at x1
      | cons z L ih =>
        rcases List.mem_cons.1 x1 with rfl | hx
        · rcases List.mem_cons.1 y1 with h | hy
          · exact absurd h.symm hxy
          · exact Or.inl ((List.singleton_sublist.2 hy).cons_cons _)
        · rcases List.mem_cons.1 y1 with rfl | hy
          · exact Or.inr ((List.singleton_sublist.2 hx).cons_cons _)
          · rcases ih hx hy with h | h
            · exact Or.inl (h.cons _)
            · exact Or.inr (h.cons _)
    rcases hsub with hsub | hsub
    · obtain ⟨w', m1, m2, m3, m4, m5⟩ := mergeLoop_dup (r := r) ok hm rest 0 cur w x y t t' g3 hsub hheight x2 y2 hq
      rw [m1]
      exact ⟨w', rfl, m2, by rw [m3]; exact ha, by rw [m4]; exact ha', fin m2 m5⟩
    · obtain ⟨w', m1, m2, m3, m4, m5⟩ := mergeLoop_dup (r := r) ok hm rest 0 cur w y x t' t g3 hsub hheight.symm y2 x2 hq
      rw [m1]
      exact ⟨w', rfl, m2, by rw [m4]; exact ha, by rw [m3]; exact ha', fin m2 m5⟩

theorem commonInfos_err {E : Env} {v : View} : ∀ (es : List (Nat × (Nat × List Ty))) (i : Nat) (e : Err),
    commonInfos E v i es = .error e → e = .panic := by
  intro es
  induction es with
  | nil => intro i e h; simp only [commonInfos] at h; cases h
  | cons x es ih =>
    intro i e h
    obtain ⟨id, hh, l⟩ := x
    simp only [commonInfos] at h
    split at h
    · next e' he => cases h; exact commonInfo_err he
    · split at h
      · next e' he => cases h; exact ih _ _ he
      · cases h

theorem commonInfos_panic {E : Env} {v : View} : ∀ (es : List (Nat × (Nat × List Ty))) (i : Nat),
    (∃ e ∈ es, e.1 = v.info.tip) → commonInfos E v i es = .error .panic := by
  intro es
  induction es with
  | nil => intro i h; obtain ⟨e, he, _⟩ := h; simp at he
  | cons x es ih =>
    intro i h
    obtain ⟨id, hh, l⟩ := x
    simp only [commonInfos]
    cases hc : commonInfo E (v.anc i) v.info.tip (E.path v.info.tip).length id hh with
    | error e => simp only; rw [commonInfo_err hc]
    | ok c =>
      simp only
      have hne : id ≠ v.info.tip := by
        intro heq
        unfold commonInfo at hc
        rw [if_pos heq.symm] at hc; cases hc
      have : ∃ e ∈ es, e.1 = v.info.tip := by
        obtain ⟨e, he, h2⟩ := h
        rcases List.mem_cons.1 he with rfl | he
        · exact absurd h2 hne
        · exact ⟨e, he, h2⟩
      rw [ih (i + 1) this]

/-- An account at the node's best block and one that is not: a failed assertion. -/
theorem round_panic {E : Env} {v : View} {w : Wallet} {a b : Acc} (ha : Holds w a) (hb : Holds w b)
    (ha1 : best E a = v.info.tip) (hb1 : best E b ≠ v.info.tip)
    (hlow : ∀ a, Holds w a → a.seen.length ≤ (E.path v.info.tip).length) :
    round E v w = (w, .error .panic) := by
  have hn1 : ¬ ((accs w).all (fun p => decide (v.info.tip = best E p.2)) = true) := by
    intro hall
    rw [List.all_eq_true] at hall
    obtain ⟨t, ht⟩ := holds_accs.1 hb
    have := of_decide_eq_true (hall (t, b) ht)
    exact hb1 this.symm
  have hn2 : ¬ ((accs w).any (fun p => decide ((E.path v.info.tip).length < p.2.seen.length)) = true) := by
    intro hany
    obtain ⟨p, hp1, hp2⟩ := List.any_eq_true.1 hany
    have h1 := of_decide_eq_true hp2
    have h2 := hlow p.2 (holds_accs.2 ⟨p.1, hp1⟩)
    omega
  have hg : groups E v w = .error .panic := by
    unfold groups
    rw [commonInfos_panic (grouped E w) 0 (by
      obtain ⟨t, ht⟩ := holds_accs.1 ha
      obtain ⟨h, ts, x1, _⟩ := (grouped_inv E w).cover t a ht
      exact ⟨_, BMap.mem_entries.2 x1, ha1⟩)]
  unfold round
  rw [if_neg hn1, if_neg hn2, hg]

end Verif.WalletSync
