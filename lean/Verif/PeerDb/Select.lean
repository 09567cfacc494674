import Verif.PeerDb.Exact
import Mathlib.Data.List.Nodup

/-! The choice of addresses to connect to; the number of addresses of a group in a table. -/

namespace Verif.PeerDb

open Verif

theorem insertL_length {K V : Type} [LinearOrder K] (k : K) (v : V) (l : List (K × V)) :
    (BMap.insertL k v l).length ≤ l.length + 1 := by
  induction l with
  | nil => simp [BMap.insertL]
  | cons x l ih =>
    unfold BMap.insertL
    split
    · simp
    · split
      · simp
      · simp only [List.length_cons]; omega

theorem size_insert {K V : Type} [LinearOrder K] (m : BMap K V) (k : K) (v : V) : (m.insert k v).size ≤ m.size + 1 :=
  insertL_length k v m.entries

/-- what the loop has collected -/
theorem pick_spec (c : Cfg) (count : Nat) (coin : Nat → Bool) (P : Addr → Prop) : ∀ (n : Nat) (new tried : List Addr) (m : BMap Nat Addr),
    (∀ a ∈ new, P a) → (∀ a ∈ tried, P a) → (∀ g a, m.get g = some a → c.newH.group a = g ∧ P a) → m.size ≤ count →
    (∀ g a, (pick c count coin n new tried m).get g = some a → c.newH.group a = g ∧ P a) ∧ (pick c count coin n new tried m).size ≤ count ∧
    ∀ g, m.get g ≠ none → (pick c count coin n new tried m).get g ≠ none := by
  intro n
  induction n with
  | zero => intro new tried m _ _ hm hs; exact ⟨hm, hs, fun _ h => h⟩
  | succ n ih =>
    intro new tried m hn ht hm hs
    have ins : ∀ a, P a → m.size < count → (∀ g x, (m.insert (c.newH.group a) a).get g = some x → c.newH.group x = g ∧ P x) ∧
        (m.insert (c.newH.group a) a).size ≤ count ∧ ∀ g, m.get g ≠ none → (m.insert (c.newH.group a) a).get g ≠ none := by
      intro a ha hlt
      refine ⟨?_, by have := size_insert m (c.newH.group a) a; omega, ?_⟩
      · intro g x hx
        rw [BMap.get_insert] at hx
        split at hx
        · next e => cases hx; exact ⟨e.symm, ha⟩
        · exact hm g x hx
      · intro g hg
        rw [BMap.get_insert]
        split
        · nofun
        · exact hg
    unfold pick
    split
    · next hlt =>
      split
      · exact ⟨hm, hs, fun _ h => h⟩
      · obtain ⟨h1, h2, h3⟩ := ins _ (hn _ List.mem_cons_self) hlt
        obtain ⟨g1, g2, g3⟩ := ih _ _ _ (fun a ha => hn a (List.mem_cons_of_mem _ ha)) ht h1 h2
        exact ⟨g1, g2, fun g hg => g3 g (h3 g hg)⟩
      · obtain ⟨h1, h2, h3⟩ := ins _ (ht _ List.mem_cons_self) hlt
        obtain ⟨g1, g2, g3⟩ := ih _ _ _ hn (fun a ha => ht a (List.mem_cons_of_mem _ ha)) h1 h2
        exact ⟨g1, g2, fun g hg => g3 g (h3 g hg)⟩
      · split
        · obtain ⟨h1, h2, h3⟩ := ins _ (hn _ List.mem_cons_self) hlt
          obtain ⟨g1, g2, g3⟩ := ih _ _ _ (fun a ha => hn a (List.mem_cons_of_mem _ ha)) ht h1 h2
          exact ⟨g1, g2, fun g hg => g3 g (h3 g hg)⟩
        · obtain ⟨h1, h2, h3⟩ := ins _ (ht _ List.mem_cons_self) hlt
          obtain ⟨g1, g2, g3⟩ := ih _ _ _ hn (fun a ha => ht a (List.mem_cons_of_mem _ ha)) h1 h2
          exact ⟨g1, g2, fun g hg => g3 g (h3 g hg)⟩
    · exact ⟨hm, hs, fun _ h => h⟩

/-- as long as there is something to choose from, something is chosen -/
theorem pick_some (c : Cfg) {count : Nat} (hcnt : 0 < count) (coin : Nat → Bool) (new tried : List Addr) (n : Nat)
    (h : new ++ tried ≠ []) : ∃ g, (pick c count coin (n + 1) new tried BMap.empty).get g ≠ none := by
  have keep : ∀ n new tried (a : Addr), ∃ g, (pick c count coin n new tried (BMap.empty.insert (c.newH.group a) a)).get g ≠ none := by
    intro n new tried a
    refine ⟨c.newH.group a, (pick_spec c count coin (fun _ => True) n new tried _ (fun _ _ => trivial) (fun _ _ => trivial) ?_ ?_).2.2 _ ?_⟩
    · intro g x hx
      rw [BMap.get_insert] at hx
      split at hx
      · next e => cases hx; exact ⟨e.symm, trivial⟩
      · cases hx
    · have := size_insert (BMap.empty : BMap Nat Addr) (c.newH.group a) a
      have e : (BMap.empty : BMap Nat Addr).size = 0 := rfl
      omega
    · rw [BMap.get_insert, if_pos rfl]; nofun
  unfold pick
  rw [if_pos (show (BMap.empty : BMap Nat Addr).size < count from hcnt)]
  split
  · exact absurd rfl h
  · exact keep _ _ _ _
  · exact keep _ _ _ _
  · split
    · exact keep _ _ _ _
    · exact keep _ _ _ _

/-- the number of addresses of one group in a table -/
theorem group_le {c : Hash} (hc : c.WF) {t : Table} (h : t.Ok c) (g : Nat) :
    (t.addrIter.filter fun a => decide (c.group a = g)).length ≤ bucketsPerGroup * c.cols := by
  let f : Addr → Nat := fun a => c.addrHash a % bucketsPerGroup * c.cols + c.col a
  have hcol : ∀ a, c.col a < c.cols := fun a => Nat.mod_lt _ hc.cols
  have hlt : ∀ a, f a < bucketsPerGroup * c.cols := by
    intro a
    have h1 : c.addrHash a % bucketsPerGroup < bucketsPerGroup := Nat.mod_lt _ (by decide)
    calc f a < c.addrHash a % bucketsPerGroup * c.cols + c.cols := Nat.add_lt_add_left (hcol a) _
      _ = (c.addrHash a % bucketsPerGroup + 1) * c.cols := by ring
      _ ≤ bucketsPerGroup * c.cols := Nat.mul_le_mul_right _ h1
  have hinj : ∀ a b, c.group a = g → c.group b = g → f a = f b → c.slot a = c.slot b := by
    intro a b ha hb e
    have e1 : c.col a = c.col b := by
      have := congrArg (· % c.cols) e
      simpa [f, Nat.add_mod, Nat.mod_eq_of_lt (hcol a), Nat.mod_eq_of_lt (hcol b)] using this
    have e2 : c.addrHash a % bucketsPerGroup = c.addrHash b % bucketsPerGroup := by
      have := congrArg (· / c.cols) e
      simpa [f, Nat.add_comm, Nat.add_mul_div_right _ _ hc.cols, Nat.div_eq_of_lt (hcol a), Nat.div_eq_of_lt (hcol b)] using this
    unfold Hash.slot Hash.row
    rw [ha, hb, e2, e1]
  have hnd : ((t.addrIter.filter fun a => decide (c.group a = g)).map f).Nodup := by
    refine List.Nodup.map_on ?_ (h.iter_nodup.filter _)
    intro a ha b hb e
    obtain ⟨a1, a2⟩ := List.mem_filter.1 ha
    obtain ⟨b1, b2⟩ := List.mem_filter.1 hb
    exact h.uniq (h.mem_iter.1 a1) (h.mem_iter.1 b1) (hinj a b (by simpa using a2) (by simpa using b2) e)
  have hsub : (t.addrIter.filter fun a => decide (c.group a = g)).map f ⊆ List.range (bucketsPerGroup * c.cols) := by
    intro x hx
    obtain ⟨a, _, rfl⟩ := List.mem_map.1 hx
    exact List.mem_range.2 (hlt a)
  have := (List.subperm_of_subset hnd hsub).length_le
  simpa using this

theorem values_of {m : BMap Nat Addr} {a : Addr} : a ∈ m.entries.map (·.2) ↔ ∃ g, m.get g = some a := by
  rw [List.mem_map]
  constructor
  · rintro ⟨⟨g, x⟩, h, rfl⟩; exact ⟨g, BMap.mem_entries.1 h⟩
  · rintro ⟨g, h⟩; exact ⟨(g, a), BMap.mem_entries.2 h, rfl⟩

theorem select_spec {c : Cfg} {k T : Nat} {b : Book} (hi : Inv c k T b) (groups : List Nat) (extra : Addr → Bool)
    (count now : Nat) {sample : List Addr → List Addr} (hs : Samples count sample) (coin : Nat → Bool) :
    (b.select c groups extra count now sample coin).length ≤ count ∧
    ((b.select c groups extra count now sample coin).map c.newH.group).Nodup ∧
    (∀ a ∈ b.select c groups extra count now sample coin, b.eligible c groups extra now a = true ∧ (b.tables.New c a ∨ b.tables.Tried c a)) ∧
    (0 < count → (∃ a, b.eligible c groups extra now a = true ∧ (b.tables.New c a ∨ b.tables.Tried c a)) →
      b.select c groups extra count now sample coin ≠ []) := by
  unfold Book.select
  by_cases hc0 : count = 0
  · rw [if_pos hc0]
    exact ⟨Nat.zero_le _, List.nodup_nil, by nofun, fun h => by omega⟩
  · rw [if_neg hc0]
    dsimp only
    have nd : ∀ (t : Table) (h : Hash), t.Ok h → (t.addrIter.filter (b.eligible c groups extra now)).Nodup :=
      fun t h ho => ho.iter_nodup.filter _
    obtain ⟨_, n2, n3⟩ := hs _ (nd _ _ hi.ts.new)
    obtain ⟨_, t2, t3⟩ := hs _ (nd _ _ hi.ts.tried)
    generalize hnew : sample (b.tables.new.addrIter.filter (b.eligible c groups extra now)) = new at *
    generalize htried : sample (b.tables.tried.addrIter.filter (b.eligible c groups extra now)) = tried at *
    have pn : ∀ a ∈ new, b.eligible c groups extra now a = true ∧ (b.tables.New c a ∨ b.tables.Tried c a) := by
      intro a ha
      obtain ⟨h1, h2⟩ := List.mem_filter.1 (n2 ha)
      exact ⟨h2, .inl (hi.ts.new.mem_iter.1 h1)⟩
    have pt : ∀ a ∈ tried, b.eligible c groups extra now a = true ∧ (b.tables.New c a ∨ b.tables.Tried c a) := by
      intro a ha
      obtain ⟨h1, h2⟩ := List.mem_filter.1 (t2 ha)
      exact ⟨h2, .inr (hi.ts.tried.mem_iter.1 h1)⟩
    obtain ⟨g1, g2, _⟩ := pick_spec c count coin (fun a => b.eligible c groups extra now a = true ∧ (b.tables.New c a ∨ b.tables.Tried c a))
      (new.length + tried.length) new tried BMap.empty pn pt (by intro g a h; cases h) (Nat.zero_le _)
    refine ⟨by rw [List.length_map]; exact g2, ?_, ?_, ?_⟩
    · rw [List.map_map]
      have : ((pick c count coin (new.length + tried.length) new tried BMap.empty).entries.map (c.newH.group ∘ fun x => x.2)) =
          ((pick c count coin (new.length + tried.length) new tried BMap.empty).entries.map (·.1)) := by
        apply List.map_congr_left
        rintro ⟨g, a⟩ h
        exact (g1 g a (BMap.mem_entries.1 h)).1
      rw [this]
      exact keys_nodup _
    · intro a ha
      obtain ⟨g, hg⟩ := values_of.1 ha
      exact (g1 g a hg).2
    · rintro hcnt ⟨a, ha, hin⟩ hnil
      have hne : new ++ tried ≠ [] := by
        have ne1 : ∀ {t : Table}, a ∈ t.addrIter → 0 < (t.addrIter.filter (b.eligible c groups extra now)).length := by
          intro t hm
          exact List.length_pos_of_mem (List.mem_filter.2 ⟨hm, ha⟩)
        intro e
        rw [List.append_eq_nil_iff] at e
        rw [e.1] at n3
        rw [e.2] at t3
        simp only [List.length_nil] at n3 t3
        rcases hin with hin | hin
        · have := ne1 (hi.ts.new.mem_iter.2 hin); omega
        · have := ne1 (hi.ts.tried.mem_iter.2 hin); omega
      have hlen : 0 < new.length + tried.length := by
        rw [← List.length_append]; exact List.length_pos_iff.2 hne
      obtain ⟨n, hn⟩ : ∃ n, new.length + tried.length = n + 1 := ⟨_, (Nat.succ_pred_eq_of_pos hlen).symm⟩
      rw [hn] at hnil
      obtain ⟨g, hg⟩ := pick_some c hcnt coin new tried n hne
      cases e : (pick c count coin (n + 1) new tried BMap.empty).get g with
      | none => exact hg e
      | some x =>
        have := values_of.2 ⟨g, e⟩
        rw [hnil] at this
        cases this

end Verif.PeerDb
