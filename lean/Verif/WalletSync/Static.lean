import Verif.WalletSync.Single

/-! # A node that stays as it is, all accounts at the same block (C71) -/

namespace Verif.WalletSync

theorem scanAll_append {E : Env} {h : Nat} {blocks : List Nat} : ∀ (ts us : List Ty) (w w' : Wallet),
    scanAll E h blocks ts w = (w', .ok ()) → scanAll E h blocks (ts ++ us) w = scanAll E h blocks us w' := by
  intro ts
  induction ts with
  | nil => intro us w w' e; simp only [scanAll] at e; cases e; rfl
  | cons t ts ih =>
    intro us w w' e
    simp only [scanAll, List.cons_append] at e ⊢
    cases hx : scanTy E h blocks w t with
    | mk w1 r =>
      rw [hx] at e
      cases r with
      | error x => simp only at e; cases e
      | ok u => simp only at e ⊢; exact ih us w1 w' e

theorem types_eq (w : Wallet) : types w = (List.range w.accounts.length).map Ty.account ++ [.unused] := by
  unfold types accs
  rw [List.map_append, List.map_map]
  congr 1
  apply List.ext_getElem?
  intro i
  rw [List.getElem?_map, List.getElem?_map, List.getElem?_zipIdx]
  by_cases hi : i < w.accounts.length
  · rw [List.getElem?_eq_getElem hi, List.getElem?_range hi]; simp
  · rw [List.getElem?_eq_none (by omega : w.accounts.length ≤ i), List.getElem?_eq_none (by simp; omega)]; rfl

/-- The scan of accounts in use keeps their records complete. -/
theorem scanAll_used {E : Env} {h : Nat} {blocks : List Nat} (hb : blocks ≠ []) : ∀ (is : List Nat) (w : Wallet),
    (∀ i ∈ is, i < w.accounts.length) → (∀ a ∈ w.accounts, h ≤ a.seen.length) →
    (∀ (i : Nat) a, w.accounts[i]? = some a → a.recs = expected E i a.seen) →
    ∃ w', scanAll E h blocks (is.map Ty.account) w = (w', .ok ()) ∧ w'.unused = w.unused ∧
      w'.accounts.length = w.accounts.length ∧
      (∀ (i : Nat) a, w'.accounts[i]? = some a → a.recs = expected E i a.seen) := by
  intro is
  induction is with
  | nil => intro w _ _ hc; exact ⟨w, rfl, rfl, rfl, hc⟩
  | cons i is ih =>
    intro w hi hl hc
    have hil := hi i (by simp)
    have hgi : w.accounts[i]? = some w.accounts[i] := List.getElem?_eq_getElem hil
    have f1 := hl _ (List.getElem_mem hil)
    have hrec : (scanned E i w.accounts[i] h blocks).recs = expected E i (scanned E i w.accounts[i] h blocks).seen :=
      scanned_recs f1 (prep_recs f1 (hc i _ hgi))
    obtain ⟨w', e1, e2, e3, e4⟩ := ih { w with accounts := w.accounts.set i (scanned E i w.accounts[i] h blocks) }
      (by intro j hj; have := hi j (List.mem_cons_of_mem _ hj); simpa using this)
      (by
        intro a ha
        rcases List.mem_or_eq_of_mem_set ha with ha | ha
        · exact hl a ha
        · rw [ha, scanned_seen f1]; simp; omega)
      (by
        intro j a ha
        by_cases hij : i = j
        · subst hij
          simp only [List.getElem?_set_self hil] at ha
          cases ha; exact hrec
        · simp only [List.getElem?_set_ne hij] at ha
          exact hc j a ha)
    refine ⟨w', ?_, e2, by rw [e3]; simp, e4⟩
    simp only [List.map_cons, scanAll, scanTy, hgi, scanAcc_eq hb f1]
    exact e1

theorem ordered_prefix {E : Env} {l m : List Nat} (h : Ordered E m) (hp : l <+: m) : Ordered E l := by
  intro k i b hi hr
  have hlt : i < l.length := by
    by_contra hc
    rw [List.getElem?_eq_none (by omega)] at hi; cases hi
  obtain ⟨t, rfl⟩ := hp
  obtain ⟨j, b', h1, h2, h3⟩ := h k i b (by rw [List.getElem?_append_left hlt]; exact hi) hr
  exact ⟨j, b', h1, by rwa [List.getElem?_append_left (by omega)] at h2, h3⟩

theorem expected_ne_nil {E : Env} {k : Nat} {l : List Nat} {b : Nat} (hb : b ∈ l) (hr : E.rel k b = true) :
    expected E k l ≠ [] := by
  intro hc
  unfold expected at hc
  obtain ⟨i, hi⟩ := List.mem_iff_getElem?.1 hb
  have := List.filter_eq_nil_iff.1 hc (b, i + 1)
    (List.mk_mem_zipIdx_iff_le_and_getElem?_sub.2 ⟨by omega, by simpa using hi⟩)
  exact this hr

theorem expected_nil {E : Env} {k : Nat} {l : List Nat} (h : ∀ b ∈ l, E.rel k b = false) : expected E k l = [] := by
  unfold expected
  apply List.filter_eq_nil_iff.2
  intro p hp
  obtain ⟨b, i⟩ := p
  have := List.mem_zipIdx hp
  rw [h b (by rw [this.2.2]; exact List.getElem_mem _)]
  simp

/-- Accounts used in order are all found. -/
theorem scanUnused_complete {E : Env} {h : Nat} {blocks : List Nat} (hb : blocks ≠ []) {s : List Nat}
    (ho : Ordered E s) (hmax : ∀ k b, E.maxAcc ≤ k + 1 → b ∈ s → E.rel k b = false) :
    ∀ fuel (w : Wallet), w.accounts ≠ [] → w.accounts.length < E.maxAcc → E.maxAcc ≤ fuel + w.accounts.length →
      h ≤ w.unused.seen.length → s = w.unused.seen.take h ++ blocks →
      (∀ (i : Nat) a, w.accounts[i]? = some a → a.recs = expected E i a.seen ∧ a.seen = s) →
      (prep w.unused h).recs = expected E w.accounts.length (w.unused.seen.take h) →
      (∀ b ∈ w.unused.seen.take h, E.rel w.accounts.length b = false) →
      ∃ w', scanUnused E h blocks fuel w = (w', .ok ()) ∧ Complete E w' ∧ w'.accounts.length < E.maxAcc := by
  intro fuel
  induction fuel with
  | zero => intro w _ h1 h2; omega
  | succ fuel ih =>
    intro w hw hlt hfuel hl hs hacc hprep hnone
    have hseen := scanned_seen (E := E) (k := w.accounts.length) (blocks := blocks) hl
    rw [← hs] at hseen
    have hrecs := scanned_recs (blocks := blocks) hl hprep
    simp only [scanUnused]
    rw [scanAcc_eq hb hl]
    cases hr : blocks.any (fun b => E.rel w.accounts.length b) with
    | false =>
      simp only
      refine ⟨_, rfl, ⟨fun i a ha => (hacc i a ha).1, hrecs, ?_⟩, hlt⟩
      intro b hb'
      have hb'' : b ∈ s := by rw [← hseen]; exact hb'
      rw [hs] at hb''
      rcases List.mem_append.1 hb'' with hm | hm
      · exact hnone b hm
      · rw [List.any_eq_false] at hr
        simpa using hr b hm
    | true =>
      simp only
      obtain ⟨b, hbm, hbr⟩ := List.any_eq_true.1 hr
      have hbs : b ∈ s := by rw [hs]; exact List.mem_append_right _ hbm
      have hlen : w.accounts.length ≠ 0 := fun hc => hw (List.length_eq_zero_iff.1 hc)
      obtain ⟨k, hk⟩ : ∃ k, w.accounts.length = k + 1 := ⟨w.accounts.length - 1, by omega⟩
      -- the last account in use has an entry
      obtain ⟨i, hi⟩ := List.mem_iff_getElem?.1 hbs
      rw [hk] at hbr
      obtain ⟨j, b', _, hj, hjr⟩ := ho k i b hi hbr
      have hlast : w.accounts[k]? = some w.accounts[k] := List.getElem?_eq_getElem (by omega)
      have hgl : w.accounts.getLast? = some w.accounts[k] := by
        have hk' : w.accounts.length - 1 = k := by omega
        rw [List.getLast?_eq_getElem?, hk']; exact hlast
      have hne : w.accounts[k].recs ≠ [] := by
        rw [(hacc k _ hlast).1, (hacc k _ hlast).2]
        exact expected_ne_nil (List.mem_of_getElem? hj) hjr
      have hroom : w.accounts.length + 1 < E.maxAcc := by
        by_contra hc
        have := hmax w.accounts.length b (by omega) hbs
        rw [hk] at this
        rw [this] at hbr; cases hbr
      have hcn : createNext E { w with unused := scanned E w.accounts.length w.unused h blocks } =
          .ok { accounts := w.accounts ++ [scanned E w.accounts.length w.unused h blocks],
                unused := { seen := (scanned E w.accounts.length w.unused h blocks).seen, recs := [] } } := by
        simp only [createNext, hgl]
        rw [if_neg (by simpa using hne), if_pos hroom]
      rw [hcn]
      simp only
      have hsl : h < s.length := by
        rw [hs]
        have : blocks.length ≠ 0 := fun hc => hb (List.length_eq_zero_iff.1 hc)
        simp; omega
      have hst : s.take h = w.unused.seen.take h := by
        rw [hs, List.take_append_of_le_length (by simp; omega), List.take_take]; simp
      have hnone' : ∀ b ∈ s.take h, E.rel (w.accounts.length + 1) b = false := by
        intro x hx
        by_contra hc
        have hxr : E.rel (w.accounts.length + 1) x = true := by simpa using hc
        obtain ⟨i, hi⟩ := List.mem_iff_getElem?.1 hx
        have hpre : Ordered E (s.take h) := ordered_prefix ho (List.take_prefix _ _)
        obtain ⟨j, y, _, hy, hyr⟩ := hpre _ i x hi hxr
        have := hnone y (by rw [← hst]; exact List.mem_of_getElem? hy)
        rw [this] at hyr; cases hyr
      refine ih _ (by simp) (by simpa using hroom) (by simp; omega) ?_ ?_ ?_ ?_ ?_
      · simp only [hseen]; omega
      · simp only [hseen]; rw [hst]; exact hs
      · intro i a ha
        simp only at ha
        by_cases hi' : i < w.accounts.length
        · rw [List.getElem?_append_left hi'] at ha; exact hacc i a ha
        · rw [List.getElem?_append_right (by omega)] at ha
          have : i = w.accounts.length := by
            by_contra hc
            rw [List.getElem?_eq_none (by simp; omega)] at ha; cases ha
          subst this
          simp only [Nat.sub_self, List.getElem?_cons_zero] at ha
          cases ha
          exact ⟨hrecs, hseen⟩
      · simp only [hseen, List.length_append, List.length_singleton]
        unfold prep
        rw [if_pos hsl]
        rw [expected_nil hnone']
        rfl
      · simp only [hseen, List.length_append, List.length_singleton]
        exact hnone'

/-- One round brings the accounts further along the chain of the node. -/
theorem round_static {E : Env} (ok : TreeOk E) {n : Node} (hn : NodeOk E n) {w : Wallet} {b : Nat} (hw0 : w.accounts ≠ [])
    (hw : AllAt w (E.path b)) (h1 : n.tip ≠ b) (h2 : (E.path b).length ≤ (E.path n.tip).length) (r : Nat) :
    ∃ h, Resume E n (E.path b) h ∧ h < (E.path n.tip).length ∧
      (((round E (still n r) w).2 = .ok none ∧ (round E (still n r) w).1.accounts ≠ [] ∧
          AllAt (round E (still n r) w).1 ((E.path n.tip).take (h + maxFetch))) ∨
        (round E (still n r) w).2 = .error .emptyLast ∨ (round E (still n r) w).2 = .error .tooMany) ∧
      (Complete E w → Ordered E (E.path n.tip) → w.accounts.length < E.maxAcc →
        (∀ k b, E.maxAcc ≤ k + 1 → b ∈ E.path n.tip → E.rel k b = false) →
        (round E (still n r) w).2 = .ok none ∧ Complete E (round E (still n r) w).1 ∧
          (round E (still n r) w).1.accounts.length < E.maxAcc) ∧
      ((∀ b ∈ E.path n.tip, E.rel w.accounts.length b = false) → 0 < E.maxAcc →
        (round E (still n r) w).2 = .ok none ∧
          (round E (still n r) w).1.accounts.length = w.accounts.length ∧
          (AllRec E w → AllRec E (round E (still n r) w).1)) := by
  obtain ⟨c, c0, c1, c2, c3, c4, hr⟩ := round_single ok (v := still n r) hw h1 h2
  obtain ⟨c', d0, _, _, _, d4, d5⟩ := commonInfo_resume ok hn h1 h2
  have hcc : c = c' := by
    have e : Except.ok c = (Except.ok c' : Except Err Info) := c0.symm.trans d0
    cases e; rfl
  subst hcc
  have c2' : E.path c.id = (E.path n.tip).take c.height := c2
  have hf : fetchNext E n c maxFetch = .ok (((E.path n.tip).drop c.height).take maxFetch) :=
    fetchNext_main ok c2' d4 (by decide)
  obtain ⟨_, hne, _⟩ := fetchNext_ok hf
  obtain ⟨f1, f2⟩ := fetch_branch ok hf c2 (by simp; omega)
  have hs : (E.path b).take c.height ++ ((E.path n.tip).drop c.height).take maxFetch =
      (E.path n.tip).take (c.height + maxFetch) := by
    rw [← f1]; congr 1; rw [← c1]; exact c2
  generalize hbl : ((E.path n.tip).drop c.height).take maxFetch = blocks at *
  have hfs : fetchAndSync E ((still n r).fetch 0) c (types w) maxFetch w =
      scanAll E c.height blocks (types w) w := by
    have hf' : fetchNext E ((still n r).fetch 0) c maxFetch = .ok blocks := hf
    simp only [fetchAndSync, hf']
  rw [hfs] at hr
  obtain ⟨p1, ⟨k, p2⟩, p3, p4, p5, p6⟩ := scanAll_single (E := E) (l := E.path b)
    (s := (E.path n.tip).take (c.height + maxFetch)) hne c3 hs.symm (types w) w hw0
    (fun i => account_mem_types) (fun a ha => Or.inl (hw a ha))
  refine ⟨c.height, d5, d4, ?_, ?_, ?_⟩
  · rw [hr]
    cases hx : (scanAll E c.height blocks (types w) w) with
    | mk w' o =>
      rw [hx] at p2 p3 p4 p5 p6
      cases o with
      | error e =>
        simp only
        rcases p6 e rfl with h | h
        · exact Or.inr (Or.inl (by rw [h]))
        · exact Or.inr (Or.inr (by rw [h]))
      | ok u =>
        simp only
        refine Or.inl ⟨trivial, ?_, ?_⟩
        · intro hc
          simp only at p2
          rw [hc] at p2
          have : w.accounts.length ≠ 0 := fun h => hw0 (List.length_eq_zero_iff.1 h)
          simp only [List.length_nil] at p2; omega
        · intro a ha
          obtain ⟨t, ht⟩ := holds_get.1 ha
          have key : ∀ t, t ∈ types w → get w' t = some a → a.seen = (E.path n.tip).take (c.height + maxFetch) := by
            intro t hm hg
            obtain ⟨a', g1, g2⟩ := p5 rfl t hm
            rw [show get w' t = some a' from g1] at hg
            cases hg; exact g2
          cases t with
          | unused => exact key .unused (get_mem_types (a := w.unused) rfl) ht
          | account i =>
            by_cases hi : i < w.accounts.length
            · exact key (.account i) (get_mem_types (a := w.accounts[i]) (List.getElem?_eq_getElem hi)) ht
            · exact p4 i a (by omega) ht
  · intro hcomp hord hmax hbound
    have hlen : ∀ a ∈ w.accounts, c.height ≤ a.seen.length := by
      intro a ha; rw [hw a (Or.inl ha)]; exact c3
    obtain ⟨w1, e1, e2, e3, e4⟩ := scanAll_used (E := E) hne (List.range w.accounts.length) w
      (fun i hi => List.mem_range.1 hi) hlen hcomp.used
    obtain ⟨q1, ⟨k1, q2⟩, q3, q4, q5, q6⟩ := scanAll_single (E := E) (l := E.path b)
      (s := (E.path n.tip).take (c.height + maxFetch)) hne c3 hs.symm
      ((List.range w.accounts.length).map Ty.account) w hw0
      (fun i hi => by
        obtain ⟨j, hj, e⟩ := List.mem_map.1 hi
        cases e; exact List.mem_range.1 hj) (fun a ha => Or.inl (hw a ha))
    rw [e1] at q5
    have hu : w1.unused.seen = E.path b := by rw [e2]; exact hw _ (Or.inr rfl)
    have hacc : ∀ (i : Nat) a, w1.accounts[i]? = some a →
        a.recs = expected E i a.seen ∧ a.seen = (E.path n.tip).take (c.height + maxFetch) := by
      intro i a ha
      refine ⟨e4 i a ha, ?_⟩
      have hi : i < w.accounts.length := by
        by_contra hc
        rw [List.getElem?_eq_none (by omega)] at ha; cases ha
      obtain ⟨a', g1, g2⟩ := q5 rfl (.account i) (List.mem_map.2 ⟨i, List.mem_range.2 hi, rfl⟩)
      have g1' : w1.accounts[i]? = some a' := g1
      rw [ha] at g1'; cases g1'; exact g2
    obtain ⟨w2, x1, x2⟩ := scanUnused_complete (E := E) (h := c.height) hne
      (s := (E.path n.tip).take (c.height + maxFetch))
      (ordered_prefix hord (List.take_prefix _ _))
      (fun k b hk hb => hbound k b hk (List.mem_of_mem_take hb))
      E.maxAcc w1 (fun hc => by rw [hc] at e3; exact hw0 (List.length_eq_zero_iff.1 e3.symm)) (by omega) (by omega)
      (by rw [hu]; exact c3) (by rw [hu]; exact hs.symm) hacc
      (by
        rw [e2, e3]
        exact prep_recs (by rw [hw _ (Or.inr rfl)]; exact c3) hcomp.unused)
      (by
        rw [e2, e3]
        exact fun x hx => hcomp.none x (List.mem_of_mem_take hx))
    have hall : scanAll E c.height blocks (types w) w = (w2, .ok ()) := by
      rw [types_eq, scanAll_append _ _ _ _ e1]
      simp only [scanAll, scanTy, x1]
    rw [hr, hall]
    exact ⟨rfl, x2⟩
  · intro hq hm
    obtain ⟨w1, e1, e2, _, _, e5⟩ := scanAll_quiet (E := E) (h := c.height) hne hm (types w) w
      (fun x hx => hq x (by rw [← hbl] at hx; exact List.mem_of_mem_drop (List.mem_of_mem_take hx)))
      (fun t ht => by
        obtain ⟨⟨t', a⟩, m1, m2⟩ := List.mem_map.1 ht
        simp only at m2; subst m2
        have hg := mem_accs.1 m1
        exact ⟨a, hg, by rw [hw a (holds_get.2 ⟨t', hg⟩)]; exact c3⟩)
    rw [hr, e1]
    exact ⟨rfl, e2, e5⟩

theorem round_done {E : Env} (ok : TreeOk E) {v : View} {w : Wallet} (hw : AllAt w (E.path v.info.tip)) :
    round E v w = (w, .ok (some .synced)) := by
  have hall : (accs w).all (fun p => decide (v.info.tip = best E p.2)) = true := by
    rw [List.all_eq_true]
    intro p hp
    have := hw p.2 (holds_accs.2 ⟨p.1, hp⟩)
    unfold best; rw [this, lastOr_path ok]; simp
  unfold round
  rw [if_pos hall]

/-- A node that stays as it is: the loop ends with every account at the end of the node's chain, unless a new account
is found out of order. -/
theorem syncOnce_chain {E : Env} (ok : TreeOk E) {n : Node} (hn : NodeOk E n) : ∀ (m fuel r : Nat) (w : Wallet) (k : Nat),
    k ≤ (E.path n.tip).length → (E.path n.tip).length - k ≤ m → m < fuel → w.accounts ≠ [] →
    AllAt w ((E.path n.tip).take k) →
    (((syncOnce E (still n) fuel r w).2 = .ok .synced ∧ (syncOnce E (still n) fuel r w).1.accounts ≠ [] ∧
        AllAt (syncOnce E (still n) fuel r w).1 (E.path n.tip)) ∨
      (syncOnce E (still n) fuel r w).2 = .error .emptyLast ∨ (syncOnce E (still n) fuel r w).2 = .error .tooMany) ∧
    (Complete E w → Ordered E (E.path n.tip) → w.accounts.length < E.maxAcc →
      (∀ k b, E.maxAcc ≤ k + 1 → b ∈ E.path n.tip → E.rel k b = false) →
      (syncOnce E (still n) fuel r w).2 = .ok .synced ∧ Complete E (syncOnce E (still n) fuel r w).1)  ∧
    ((∀ b ∈ E.path n.tip, E.rel w.accounts.length b = false) → 0 < E.maxAcc →
      (syncOnce E (still n) fuel r w).2 = .ok .synced ∧
        (syncOnce E (still n) fuel r w).1.accounts.length = w.accounts.length ∧
        (AllRec E w → AllRec E (syncOnce E (still n) fuel r w).1)) := by
  intro m
  induction m with
  | zero =>
    intro fuel r w k hk hm hf hw0 hw
    have hk' : k = (E.path n.tip).length := by omega
    rw [hk', List.take_length] at hw
    obtain ⟨fuel, rfl⟩ : ∃ f, fuel = f + 1 := ⟨fuel - 1, by omega⟩
    have hr : round E (still n r) w = (w, .ok (some .synced)) := round_done ok hw
    simp only [syncOnce, hr]
    exact ⟨Or.inl ⟨trivial, hw0, hw⟩, fun hc _ _ _ => ⟨trivial, hc⟩, fun _ _ => ⟨trivial, trivial, id⟩⟩
  | succ m ih =>
    intro fuel r w k hk hm hf hw0 hw
    obtain ⟨fuel, rfl⟩ : ∃ f, fuel = f + 1 := ⟨fuel - 1, by omega⟩
    rcases Nat.lt_or_ge k (E.path n.tip).length with hlt | hge
    · have hpre : (E.path n.tip).take k <+: E.path n.tip := List.take_prefix _ _
      have hpb := path_prefix ok hpre
      rw [← hpb] at hw
      have hlen : (E.path (lastOr E.genesis ((E.path n.tip).take k))).length = k := by rw [hpb]; simp; omega
      have hne : n.tip ≠ lastOr E.genesis ((E.path n.tip).take k) := by
        intro hc
        rw [← hc] at hlen; omega
      obtain ⟨h, r1, _, r3, r4, r5⟩ := round_static ok hn hw0 hw hne (by omega) r
      have hh : h = k := by
        rw [hpb] at r1
        have := resume_prefix ok hn hpre r1
        rw [this]; simp; omega
      subst hh
      simp only [syncOnce]
      cases hx : round E (still n r) w with
      | mk w' o =>
        rw [hx] at r3 r4 r5
        simp only at r3 r4 r5
        have htake : (E.path n.tip).take (h + maxFetch) =
            (E.path n.tip).take (min (h + maxFetch) (E.path n.tip).length) := by
          rcases Nat.le_total (h + maxFetch) (E.path n.tip).length with q | q
          · rw [Nat.min_eq_left q]
          · rw [Nat.min_eq_right q, List.take_length, List.take_of_length_le q]
        have hmf : maxFetch = 100 := rfl
        have hcont : o = .ok none → w'.accounts ≠ [] → AllAt w' ((E.path n.tip).take (h + maxFetch)) → _ :=
          fun _ q2 q3 => ih fuel (r + 1) w' (min (h + maxFetch) (E.path n.tip).length) (by omega) (by omega) (by omega)
            q2 (by rw [← htake]; exact q3)
        refine ⟨?_, ?_, ?_⟩
        · rcases r3 with ⟨q1, q2, q3⟩ | q | q
          · subst q1
            exact (hcont rfl q2 q3).1
          · subst q; exact Or.inr (Or.inl rfl)
          · subst q; exact Or.inr (Or.inr rfl)
        · intro hc ho hx hb
          obtain ⟨q1, q2, q3⟩ := r4 hc ho hx hb
          subst q1
          rcases r3 with ⟨_, p2, p3⟩ | q | q
          · exact (hcont rfl p2 p3).2.1 q2 ho q3 hb
          · cases q
          · cases q
        · intro hq hm0
          obtain ⟨q1, q2, q3⟩ := r5 hq hm0
          subst q1
          rcases r3 with ⟨_, p2, p3⟩ | q | q
          · obtain ⟨z1, z2, z3⟩ := (hcont rfl p2 p3).2.2 (by rw [q2]; exact hq) hm0
            exact ⟨z1, by rw [z2, q2], fun hrec => z3 (q3 hrec)⟩
          · cases q
          · cases q
    · exact ih (fuel + 1) r w k hk (by omega) (by omega) hw0 hw

/-- From any common block. -/
theorem syncOnce_single {E : Env} (ok : TreeOk E) {n : Node} (hn : NodeOk E n) {w : Wallet} {l : List Nat} {fuel : Nat}
    (hf : (E.path n.tip).length + 2 ≤ fuel) (hw0 : w.accounts ≠ []) (hw : AllAt w l) (hl : Branch E l)
    (hlen : l.length ≤ (E.path n.tip).length) (r : Nat) :
    (((syncOnce E (still n) fuel r w).2 = .ok .synced ∧ (syncOnce E (still n) fuel r w).1.accounts ≠ [] ∧
        AllAt (syncOnce E (still n) fuel r w).1 (E.path n.tip)) ∨
      (syncOnce E (still n) fuel r w).2 = .error .emptyLast ∨ (syncOnce E (still n) fuel r w).2 = .error .tooMany) ∧
    (Complete E w → Ordered E (E.path n.tip) → w.accounts.length < E.maxAcc →
      (∀ k b, E.maxAcc ≤ k + 1 → b ∈ E.path n.tip → E.rel k b = false) →
      (syncOnce E (still n) fuel r w).2 = .ok .synced ∧ Complete E (syncOnce E (still n) fuel r w).1) := by
  obtain ⟨b, rfl⟩ := hl
  by_cases hb : n.tip = b
  · subst hb
    have := syncOnce_chain ok hn 0 fuel r w (E.path n.tip).length le_rfl (by omega) (by omega) hw0
      (by rw [List.take_length]; exact hw)
    exact ⟨this.1, this.2.1⟩
  · obtain ⟨fuel, rfl⟩ : ∃ f, fuel = f + 1 := ⟨fuel - 1, by omega⟩
    obtain ⟨h, r1, r2, r3, r4, _⟩ := round_static ok hn hw0 hw hb hlen r
    simp only [syncOnce]
    cases hx : round E (still n r) w with
    | mk w' o =>
      rw [hx] at r3 r4
      simp only at r3 r4
      have htake : (E.path n.tip).take (h + maxFetch) =
          (E.path n.tip).take (min (h + maxFetch) (E.path n.tip).length) := by
        rcases Nat.le_total (h + maxFetch) (E.path n.tip).length with q | q
        · rw [Nat.min_eq_left q]
        · rw [Nat.min_eq_right q, List.take_length, List.take_of_length_le q]
      have hcont : o = .ok none → w'.accounts ≠ [] → AllAt w' ((E.path n.tip).take (h + maxFetch)) → _ :=
        fun _ q2 q3 => syncOnce_chain ok hn (E.path n.tip).length fuel (r + 1) w'
          (min (h + maxFetch) (E.path n.tip).length) (by omega) (by omega) (by omega)
          q2 (by rw [← htake]; exact q3)
      constructor
      · rcases r3 with ⟨q1, q2, q3⟩ | q | q
        · subst q1
          exact (hcont rfl q2 q3).1
        · subst q; exact Or.inr (Or.inl rfl)
        · subst q; exact Or.inr (Or.inr rfl)
      · intro hc ho hx hb
        obtain ⟨q1, q2, q3⟩ := r4 hc ho hx hb
        subst q1
        rcases r3 with ⟨_, p2, p3⟩ | q | q
        · exact (hcont rfl p2 p3).2.1 q2 ho q3 hb
        · cases q
        · cases q

end Verif.WalletSync
