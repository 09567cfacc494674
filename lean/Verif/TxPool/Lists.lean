import Verif.TxPool.Conn

/-! # Lists of transactions on a ledger -/

namespace Verif.TxPool

open Verif.Mempool

/-- the transactions, in order, take the ledger `L` to `L'` -/
def DoesAll : List Tx → Ledger → Ledger → Prop
  | [], L, L' => L = L'
  | t :: ts, L, L' => ∃ M, Does t L M ∧ DoesAll ts M L'

theorem connectAll_eq {tip : Tip} {ts : List Tx} {L L' : Ledger} :
    connectAll tip ts L = some L' ↔ (∀ t ∈ ts, tip.ok t = true) ∧ DoesAll ts L L' := by
  induction ts generalizing L with
  | nil => simp [connectAll, DoesAll]
  | cons t ts ih =>
    simp only [connectAll, DoesAll, Option.bind_eq_some_iff, List.forall_mem_cons]
    constructor
    · rintro ⟨M, h1, h2⟩
      obtain ⟨h3, h4⟩ := connect_eq.1 h1
      obtain ⟨h5, h6⟩ := ih.1 h2
      exact ⟨⟨h3, h5⟩, M, h4, h6⟩
    · rintro ⟨⟨h3, h5⟩, M, h4, h6⟩
      exact ⟨M, connect_eq.2 ⟨h3, h4⟩, ih.2 ⟨h5, h6⟩⟩

theorem doesAll_append {a b : List Tx} {L L' : Ledger} :
    DoesAll (a ++ b) L L' ↔ ∃ M, DoesAll a L M ∧ DoesAll b M L' := by
  induction a generalizing L with
  | nil => simp [DoesAll]
  | cons t a ih =>
    simp only [List.cons_append, DoesAll]
    constructor
    · rintro ⟨M, h1, h2⟩
      obtain ⟨N, h3, h4⟩ := ih.1 h2
      exact ⟨N, ⟨M, h1, h3⟩, h4⟩
    · rintro ⟨N, ⟨M, h1, h3⟩, h4⟩
      exact ⟨M, h1, ih.2 ⟨N, h3, h4⟩⟩

theorem doesAll_single {t : Tx} {L L' : Ledger} : DoesAll [t] L L' ↔ Does t L L' := by
  simp [DoesAll]

theorem doesAll_run {ts : List Tx} {L L' : Ledger} :
    DoesAll ts L L' ↔ (∀ t ∈ ts, noncesOk t = true) ∧ run (ts.flatMap acts) L = some L' := by
  induction ts generalizing L with
  | nil => simp [DoesAll, run]
  | cons t ts ih =>
    simp only [DoesAll, List.flatMap_cons, run_append, Option.bind_eq_some_iff, List.forall_mem_cons]
    constructor
    · rintro ⟨M, h1, h2⟩
      obtain ⟨h5, h6⟩ := ih.1 h2
      exact ⟨⟨h1.nonces, h5⟩, M, h1.run, h6⟩
    · rintro ⟨⟨h3, h5⟩, M, h4, h6⟩
      exact ⟨M, ⟨h3, h4⟩, ih.2 ⟨h5, h6⟩⟩

theorem doesAll_det {ts : List Tx} {L L' L'' : Ledger} (h : DoesAll ts L L') (h' : DoesAll ts L L'') : L' = L'' := by
  have := (doesAll_run.1 h).2.symm.trans (doesAll_run.1 h').2
  exact Option.some.inj this

/-! ## What stays -/

theorem DoesAll.outKnown {ts : List Tx} {L L' : Ledger} (h : DoesAll ts L L') (hk : OutKnown L) : OutKnown L' := by
  induction ts generalizing L with
  | nil => cases h; exact hk
  | cons t ts ih => obtain ⟨M, h1, h2⟩ := h; exact ih h2 (h1.outKnown hk)

theorem DoesAll.known_stays {ts : List Tx} {L L' : Ledger} (h : DoesAll ts L L') {k : Nat}
    (hk : L (.known k) ≠ 0) : L' (.known k) ≠ 0 := by
  induction ts generalizing L with
  | nil => cases h; exact hk
  | cons t ts ih => obtain ⟨M, h1, h2⟩ := h; exact ih h2 (h1.known_stays hk)

theorem DoesAll.made_stays {ts : List Tx} {L L' : Ledger} (h : DoesAll ts L L') {d : Dep}
    (hk : L (.made d) ≠ 0) : L' (.made d) ≠ 0 := by
  induction ts generalizing L with
  | nil => cases h; exact hk
  | cons t ts ih => obtain ⟨M, h1, h2⟩ := h; exact ih h2 (h1.made_stays hk)

theorem DoesAll.reward_stays {ts : List Tx} {L L' : Ledger} (h : DoesAll ts L L') {n : Nat}
    (hk : L (.reward n) = 0) : L' (.reward n) = 0 := by
  induction ts generalizing L with
  | nil => cases h; exact hk
  | cons t ts ih => obtain ⟨M, h1, h2⟩ := h; exact ih h2 (h1.reward_stays hk)

theorem DoesAll.out_stays {ts : List Tx} {L L' : Ledger} (h : DoesAll ts L L') (hok : OutKnown L) {u n : Nat}
    (hk : L (.known u) ≠ 0) (h0 : L (.out u n) = 0) : L' (.out u n) = 0 := by
  induction ts generalizing L with
  | nil => cases h; exact h0
  | cons t ts ih =>
    obtain ⟨M, h1, h2⟩ := h
    exact ih h2 (h1.outKnown hok) (h1.known_stays hk) (h1.out_stays hok h0 hk)

theorem DoesAll.count_le {ts : List Tx} {L L' : Ledger} (h : DoesAll ts L L') {c : Cell} (hc : c.counts = true) :
    L c ≤ L' c := by
  induction ts generalizing L with
  | nil => cases h; exact le_refl _
  | cons t ts ih =>
    obtain ⟨M, h1, h2⟩ := h
    have := (h1.count hc).1
    have := ih h2
    omega

theorem DoesAll.known {ts : List Tx} {L L' : Ledger} (h : DoesAll ts L L') :
    (∀ t ∈ ts, L (.known t.id) = 0 ∧ L' (.known t.id) ≠ 0) ∧ (ts.map Tx.id).Nodup ∧
      ∀ k, k ∉ ts.map Tx.id → L' (.known k) = L (.known k) := by
  induction ts generalizing L with
  | nil => cases h; simp
  | cons t ts ih =>
    obtain ⟨M, h1, h2⟩ := h
    obtain ⟨h3, h4, h5⟩ := ih h2
    have hnt : ∀ x ∈ ts, x.id ≠ t.id := by
      intro x hx e
      have := (h3 x hx).1
      rw [e, h1.known.2] at this
      simp at this
    refine ⟨?_, ?_, ?_⟩
    · intro x hx
      rcases List.mem_cons.1 hx with rfl | hx
      · refine ⟨h1.known.1, h2.known_stays ?_⟩
        rw [h1.known.2]; decide
      · refine ⟨?_, (h3 x hx).2⟩
        rw [← h1.known_ne (hnt x hx)]; exact (h3 x hx).1
    · simp only [List.map_cons, List.nodup_cons, List.mem_map, not_exists, not_and]
      exact ⟨hnt, h4⟩
    · intro k hk
      simp only [List.map_cons, List.mem_cons, not_or] at hk
      rw [h5 k hk.2, h1.known_ne hk.1]

/-! ## Moving a transaction on which nothing depends to the end -/

theorem bubble {d : Tx} {post : List Tx} {L M N : Ledger} (hk : OutKnown L) (hd : Does d L M)
    (hp : DoesAll post M N) (hn : ∀ x ∈ post, ¬ DependsOn d x) : ∃ M', DoesAll post L M' ∧ Does d M' N := by
  induction post generalizing L M with
  | nil => cases hp; exact ⟨L, rfl, hd⟩
  | cons x post ih =>
    obtain ⟨M1, h1, h2⟩ := hp
    obtain ⟨L1, h3, h4⟩ := does_swap hk hd h1 (hn x (by simp))
    obtain ⟨M', h5, h6⟩ := ih (h3.outKnown hk) h4 h2 (fun y hy => hn y (by simp [hy]))
    exact ⟨M', ⟨L1, h3, h5⟩, h6⟩

theorem remove_leaf {pre post : List Tx} {d : Tx} {L N : Ledger} (hk : OutKnown L)
    (h : DoesAll (pre ++ d :: post) L N) (hn : ∀ x ∈ post, ¬ DependsOn d x) :
    ∃ M, DoesAll (pre ++ post) L M ∧ Does d M N := by
  obtain ⟨L1, h1, M1, h2, h3⟩ := doesAll_append.1 h
  obtain ⟨M, h4, h5⟩ := bubble (h1.outKnown hk) h2 h3 hn
  exact ⟨M, doesAll_append.2 ⟨L1, h1, h4⟩, h5⟩

/-- a selection that contains with every transaction those before it on which it depends can be connected alone -/
theorem doesAll_filter {S : Tx → Bool} {l : List Tx} {L N : Ledger} (hk : OutKnown L) (h : DoesAll l L N)
    (hS : l.Pairwise (fun a b => DependsOn a b → S b = true → S a = true)) : ∃ M, DoesAll (l.filter S) L M := by
  induction l generalizing L with
  | nil => exact ⟨L, rfl⟩
  | cons a l ih =>
    obtain ⟨L1, h1, h2⟩ := h
    rw [List.pairwise_cons] at hS
    obtain ⟨M1, h3⟩ := ih (h1.outKnown hk) h2 hS.2
    by_cases hs : S a = true
    · rw [List.filter_cons_of_pos hs]
      exact ⟨M1, L1, h1, h3⟩
    · rw [List.filter_cons_of_neg hs]
      obtain ⟨M', h4, -⟩ := bubble hk h1 h3 (fun x hx hdep => by
        rw [List.mem_filter] at hx
        exact hs (hS.1 x hx.1 hdep hx.2))
      exact ⟨M', h4⟩

theorem disconnect_of_does {t : Tx} {L L' : Ledger} (h : Does t L L') : disconnect L' t = some L := run_rev h.run

/-- disconnecting transactions one by one, each when nothing connected depends on it any more -/
theorem disconnectAll_spec {es l : List Tx} {L N : Ledger} (hk : OutKnown L) (h : DoesAll l L N)
    (hsub : ∀ e ∈ es, e ∈ l) (hnd : es.Nodup)
    (hord : ∀ pre x post, es = pre ++ x :: post → ∀ c ∈ l, c ≠ x → DependsOn x c → c ∈ pre) :
    ∃ M, disconnectAll es N = .ok M ∧ DoesAll (l.filter (fun t => t ∉ es)) L M := by
  induction es generalizing l N with
  | nil => exact ⟨N, rfl, by simpa using h⟩
  | cons e es ih =>
    obtain ⟨pre, post, hl⟩ := List.append_of_mem (hsub e (by simp))
    have hids := h.known.2.1
    have hnd' : l.Nodup := List.Nodup.of_map _ hids
    rw [hl] at hnd'
    have hepost : e ∉ post := by
      have := (List.nodup_append.1 hnd').2.1
      exact (List.nodup_cons.1 this).1
    have hepre : e ∉ pre := by
      intro hm
      exact (List.nodup_append.1 hnd').2.2 e hm e (by simp) rfl
    subst hl
    obtain ⟨M1, h1, h2⟩ := remove_leaf hk h (fun x hx hdep => by
      have := hord [] e es rfl x (by simp [hx]) (fun he => hepost (he ▸ hx)) hdep
      simp at this)
    rw [List.nodup_cons] at hnd
    obtain ⟨M, h3, h4⟩ := ih h1 (fun x hx => by
        have := hsub x (by simp [hx])
        simp only [List.mem_append, List.mem_cons] at this ⊢
        rcases this with h | rfl | h
        · exact .inl h
        · exact absurd hx hnd.1
        · exact .inr h) hnd.2
      (fun p x q hq c hc hcx hdep => by
        have := hord (e :: p) x q (by rw [hq]; rfl) c (by
          simp only [List.mem_append, List.mem_cons] at hc ⊢
          rcases hc with h | h
          · exact .inl h
          · exact .inr (.inr h)) hcx hdep
        rcases List.mem_cons.1 this with rfl | h
        · exfalso
          rcases List.mem_append.1 hc with h | h
          · exact hepre h
          · exact hepost h
        · exact h)
    refine ⟨M, ?_, ?_⟩
    · simp only [disconnectAll, disconnect_of_does h2]
      exact h3
    · have : (pre ++ e :: post).filter (fun t => t ∉ e :: es) = (pre ++ post).filter (fun t => t ∉ es) := by
        rw [List.filter_append, List.filter_cons_of_neg (by simp), List.filter_append]
        congr 1
        · apply List.filter_congr
          intro x hx
          have : x ≠ e := fun he => hepre (he ▸ hx)
          simp [this]
        · apply List.filter_congr
          intro x hx
          have : x ≠ e := fun he => hepost (he ▸ hx)
          simp [this]
      rw [this]; exact h4

end Verif.TxPool
