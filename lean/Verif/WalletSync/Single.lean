import Verif.WalletSync.Scan

/-! # All accounts at the same block (C71) -/

namespace Verif.WalletSync

theorem mem_accs {w : Wallet} {t : Ty} {a : Acc} : (t, a) ∈ accs w ↔ get w t = some a := by
  unfold accs
  rw [List.mem_append, List.mem_map, List.mem_singleton]
  constructor
  · rintro (⟨⟨x, i⟩, h1, h2⟩ | h)
    · cases h2
      exact List.mk_mem_zipIdx_iff_getElem?.1 h1
    · cases h; rfl
  · intro h
    cases t with
    | account i => exact Or.inl ⟨(a, i), List.mk_mem_zipIdx_iff_getElem?.2 h, rfl⟩
    | unused => exact Or.inr (by rw [← Option.some.inj h])

theorem holds_accs {w : Wallet} {a : Acc} : Holds w a ↔ ∃ t, (t, a) ∈ accs w := by
  rw [holds_get]; exact exists_congr fun t => mem_accs.symm

/-- All accounts have scanned `l`. -/
def AllAt (w : Wallet) (l : List Nat) : Prop := ∀ a, Holds w a → a.seen = l

/-- The types of the accounts of the wallet. -/
def types (w : Wallet) : List Ty := (accs w).map Prod.fst

theorem putGroup_same {E : Env} {l : List Nat} : ∀ (ps : List (Ty × Acc)) (m : BMap Nat (Nat × List Ty)) (ts : List Ty),
    (∀ p ∈ ps, p.2.seen = l) → m = BMap.empty.insert (lastOr E.genesis l) (l.length, ts) →
    ps.foldl (putGroup E) m = BMap.empty.insert (lastOr E.genesis l) (l.length, ts ++ ps.map Prod.fst) := by
  intro ps
  induction ps with
  | nil => intro m ts _ h; simpa using h
  | cons p ps ih =>
    intro m ts hp hm
    have h1 := hp p (by simp)
    rw [List.foldl_cons, ih (putGroup E m p) (ts ++ [p.1]) (fun q hq => hp q (List.mem_cons_of_mem _ hq))]
    · simp
    · unfold putGroup best
      rw [h1, hm, BMap.get_insert, if_pos rfl]
      apply BMap.ext_get
      intro k
      simp only [BMap.get_insert]
      split <;> rfl

theorem grouped_single {E : Env} {w : Wallet} {l : List Nat} (h : AllAt w l) :
    grouped E w = [(lastOr E.genesis l, (l.length, types w))] := by
  have hne : accs w ≠ [] := by unfold accs; simp
  have hall : ∀ p ∈ accs w, p.2.seen = l := fun p hp => h p.2 (holds_accs.2 ⟨p.1, hp⟩)
  unfold grouped types
  cases hx : accs w with
  | nil => exact absurd hx hne
  | cons p ps =>
    rw [hx] at hall
    have h1 := hall p (by simp)
    rw [List.foldl_cons, putGroup_same ps _ [p.1] (fun q hq => hall q (List.mem_cons_of_mem _ hq))]
    · rfl
    · unfold putGroup best
      rw [h1]
      rfl

theorem account_mem_types {w : Wallet} {i : Nat} (h : Ty.account i ∈ types w) : i < w.accounts.length := by
  obtain ⟨p, h1, h2⟩ := List.mem_map.1 h
  obtain ⟨t, a⟩ := p
  simp only at h2; subst h2
  have := mem_accs.1 h1
  simp only [get] at this
  by_contra hc
  rw [List.getElem?_eq_none (by omega)] at this; cases this

theorem get_mem_types {w : Wallet} {t : Ty} {a : Acc} (h : get w t = some a) : t ∈ types w :=
  List.mem_map.2 ⟨(t, a), mem_accs.2 h, rfl⟩

/-- The batch a round asks for when all accounts are at the same block, and what it scans. -/
theorem round_single {E : Env} (ok : TreeOk E) {v : View} {w : Wallet} {b : Nat}
    (hw : AllAt w (E.path b)) (h1 : v.info.tip ≠ b) (h2 : (E.path b).length ≤ (E.path v.info.tip).length) :
    ∃ c, commonInfo E (v.anc 0) v.info.tip (E.path v.info.tip).length b (E.path b).length = .ok c ∧
      E.path c.id = (E.path b).take c.height ∧ E.path c.id = (E.path v.info.tip).take c.height ∧
      c.height ≤ (E.path b).length ∧ c.height ≤ (E.path v.info.tip).length ∧
      round E v w = (match fetchAndSync E (v.fetch 0) c (types w) maxFetch w with
        | (w', .error e) => (w', .error e)
        | (w', .ok _) => (w', .ok none)) := by
  have hlast : lastOr E.genesis (E.path b) = b := lastOr_path ok b
  obtain ⟨c, hc, c1, c2, c3, c4, _⟩ := commonInfo_ok ok (n := v.anc 0) h1 h2
  refine ⟨c, hc, c1, c2, c3, c4, ?_⟩
  have hg : groups E v w = .ok [(c, types w)] := by
    unfold groups
    rw [grouped_single hw, hlast]
    simp only [commonInfos, hc]
    rfl
  have hn1 : ¬ ((accs w).all (fun p => decide (v.info.tip = best E p.2)) = true) := by
    intro hall
    rw [List.all_eq_true] at hall
    have := hall (Ty.unused, w.unused) (mem_accs.2 rfl)
    have e : best E w.unused = b := by unfold best; rw [hw w.unused (Or.inr rfl), hlast]
    rw [e] at this
    exact h1 (by simpa using this)
  have hn2 : ¬ ((accs w).any (fun p => decide ((E.path v.info.tip).length < p.2.seen.length)) = true) := by
    intro hany
    obtain ⟨p, hp1, hp2⟩ := List.any_eq_true.1 hany
    have := hw p.2 (holds_accs.2 ⟨p.1, hp1⟩)
    rw [this] at hp2
    have := of_decide_eq_true hp2
    omega
  unfold round
  rw [if_neg hn1, if_neg hn2, hg]
  simp only [syncGroups, List.reverse_singleton, mergeLoop]
  split <;> simp_all

theorem fetchNext_ok {E : Env} {n : Node} {c : Info} {k : Nat} {blocks : List Nat}
    (h : fetchNext E n c k = .ok blocks) :
    blocks = ((E.path n.tip).drop c.height).take k ∧ blocks ≠ [] ∧
      ∃ b, (E.path n.tip)[c.height]? = some b ∧ E.prev b = c.id := by
  unfold fetchNext at h
  split at h
  · cases h
  · next b l hm =>
    split at h
    · next hp =>
      cases h
      refine ⟨hm.symm, by simp, b, ?_, hp⟩
      unfold mainchainBlocks at hm
      have h0 : (((E.path n.tip).drop c.height).take k)[0]? = some b := by rw [hm]; rfl
      rw [List.getElem?_take] at h0
      split at h0
      · simpa using h0
      · cases h0
    · cases h

/-- Blocks fetched after a common block continue its branch. -/
theorem fetch_branch {E : Env} (ok : TreeOk E) {n : Node} {c : Info} {k : Nat} {blocks l : List Nat}
    (h : fetchNext E n c k = .ok blocks) (hc : E.path c.id = l) (hl : l.length = c.height) :
    l ++ blocks = (E.path n.tip).take (c.height + k) ∧ Branch E (l ++ blocks) := by
  obtain ⟨e, hne, b, hb, hp⟩ := fetchNext_ok h
  have h1 := prev_of_get ok hb
  rw [hp, hc] at h1
  have h2 : l ++ blocks = (E.path n.tip).take (c.height + k) := by
    rw [e, h1, List.take_add]
  refine ⟨h2, ⟨lastOr E.genesis ((E.path n.tip).take (c.height + k)), ?_⟩⟩
  rw [h2]; exact (path_prefix ok (List.take_prefix _ _)).symm

theorem fetchNext_main {E : Env} (ok : TreeOk E) {n : Node} {c : Info} {k : Nat}
    (h1 : E.path c.id = (E.path n.tip).take c.height) (h2 : c.height < (E.path n.tip).length) (hk : 0 < k) :
    fetchNext E n c k = .ok (((E.path n.tip).drop c.height).take k) := by
  have hb : (E.path n.tip)[c.height]? = some ((E.path n.tip)[c.height]) := List.getElem?_eq_getElem h2
  have hp := prev_of_get ok hb
  have he : E.prev ((E.path n.tip)[c.height]) = c.id := path_inj ok (by rw [hp, h1])
  have hd : (E.path n.tip).drop c.height = (E.path n.tip)[c.height] :: (E.path n.tip).drop (c.height + 1) :=
    List.drop_eq_getElem_cons h2
  obtain ⟨k, rfl⟩ : ∃ j, k = j + 1 := ⟨k - 1, by omega⟩
  unfold fetchNext mainchainBlocks
  rw [hd, List.take_succ_cons]
  simp only [he, if_true]

/-- One round with all accounts at the same block, whatever the node answers: every account ends on a branch. If the
round succeeds, all accounts are again at the same block. -/
theorem round_branch {E : Env} (ok : TreeOk E) {v : View} {w : Wallet} {l : List Nat} (hw0 : w.accounts ≠ [])
    (hw : AllAt w l) (hl : Branch E l) :
    (∀ a, Holds (round E v w).1 a → Branch E a.seen) ∧
    ((∃ s, (round E v w).2 = .ok s) → (round E v w).1.accounts ≠ [] ∧
      ∃ l', AllAt (round E v w).1 l' ∧ Branch E l') := by
  obtain ⟨b, rfl⟩ := hl
  have hb0 : Branch E (E.path b) := ⟨b, rfl⟩
  by_cases h1 : v.info.tip = b
  · have hall : (accs w).all (fun p => decide (v.info.tip = best E p.2)) = true := by
      rw [List.all_eq_true]
      intro p hp
      have := hw p.2 (holds_accs.2 ⟨p.1, hp⟩)
      unfold best; rw [this, lastOr_path ok, h1]; simp
    unfold round
    rw [if_pos hall]
    exact ⟨fun a ha => by rw [hw a ha]; exact hb0, fun _ => ⟨hw0, E.path b, hw, hb0⟩⟩
  · by_cases h2 : (E.path b).length ≤ (E.path v.info.tip).length
    · obtain ⟨c, _, c1, c2, c3, c4, hr⟩ := round_single ok hw h1 h2
      rw [hr]
      unfold fetchAndSync
      cases hf : fetchNext E (v.fetch 0) c maxFetch with
      | error e =>
        simp only
        exact ⟨fun a ha => by rw [hw a ha]; exact hb0, fun ⟨s, hs⟩ => by (cases hs)⟩
      | ok blocks =>
        simp only
        obtain ⟨_, hne, _⟩ := fetchNext_ok hf
        obtain ⟨f1, f2⟩ := fetch_branch ok hf c1 (by simp [c3])
        obtain ⟨p1, ⟨k, p2⟩, p3, p4, p5, p6⟩ := scanAll_single (E := E) (l := E.path b)
          (s := (E.path b).take c.height ++ blocks) hne c3 rfl (types w) w hw0
          (fun i => account_mem_types) (fun a ha => Or.inl (hw a ha))
        have hb : ∀ a, Holds (scanAll E c.height blocks (types w) w).1 a → Branch E a.seen := by
          intro a ha
          rcases p1 a ha with h | h
          · rw [h]; exact hb0
          · rw [h]; exact f2
        cases hx : (scanAll E c.height blocks (types w) w) with
        | mk w' r =>
          rw [hx] at p2 p3 p4 p5 hb
          cases r with
          | error e =>
            simp only
            exact ⟨hb, fun ⟨s, hs⟩ => by (cases hs)⟩
          | ok u =>
            simp only
            refine ⟨hb, fun _ => ⟨?_, _, ?_, f2⟩⟩
            · intro hc
              simp only at p2
              rw [hc] at p2
              have : w.accounts.length ≠ 0 := fun h => hw0 (List.length_eq_zero_iff.1 h)
              simp only [List.length_nil] at p2; omega
            · intro a ha
              obtain ⟨t, ht⟩ := holds_get.1 ha
              have key : ∀ t, t ∈ types w → get w' t = some a → a.seen = (E.path b).take c.height ++ blocks := by
                intro t hm hg
                obtain ⟨a', g1, g2⟩ := p5 rfl t hm
                rw [show get w' t = some a' from g1] at hg
                cases hg; exact g2
              cases t with
              | unused => exact key .unused (get_mem_types (a := w.unused) rfl) ht
              | account i =>
                by_cases hi : i < w.accounts.length
                · exact key (.account i) (get_mem_types (a := w.accounts[i]) (List.getElem?_eq_getElem hi)) ht
                · exact p4 i a (by omega) ht
    · have hn1 : ¬ ((accs w).all (fun p => decide (v.info.tip = best E p.2)) = true) := by
        intro hall
        rw [List.all_eq_true] at hall
        have := hall (Ty.unused, w.unused) (mem_accs.2 rfl)
        have e : best E w.unused = b := by unfold best; rw [hw w.unused (Or.inr rfl), lastOr_path ok]
        rw [e] at this
        exact h1 (by simpa using this)
      have hany : (accs w).any (fun p => decide ((E.path v.info.tip).length < p.2.seen.length)) = true := by
        rw [List.any_eq_true]
        refine ⟨(Ty.unused, w.unused), mem_accs.2 rfl, ?_⟩
        rw [hw w.unused (Or.inr rfl)]
        simp; omega
      unfold round
      rw [if_neg hn1, if_pos hany]
      exact ⟨fun a ha => by rw [hw a ha]; exact hb0, fun _ => ⟨hw0, E.path b, hw, hb0⟩⟩

theorem syncOnce_branch {E : Env} (ok : TreeOk E) (views : Nat → View) : ∀ fuel r (w : Wallet) (l : List Nat),
    w.accounts ≠ [] → AllAt w l → Branch E l →
    ∀ a, Holds (syncOnce E views fuel r w).1 a → Branch E a.seen := by
  intro fuel
  induction fuel with
  | zero => intro r w l _ hw hl a ha; rw [hw a ha]; exact hl
  | succ fuel ih =>
    intro r w l hw0 hw hl
    obtain ⟨p1, p2⟩ := round_branch ok (v := views r) hw0 hw hl
    simp only [syncOnce]
    cases hx : round E (views r) w with
    | mk w' o =>
      rw [hx] at p1 p2
      cases o with
      | error e => exact p1
      | ok s =>
        cases s with
        | some s => exact p1
        | none =>
          obtain ⟨q1, l', q2, q3⟩ := p2 ⟨none, rfl⟩
          exact ih (r + 1) w' l' q1 q2 q3

end Verif.WalletSync
