import Verif.Orphans.Pool
import Verif.Orphans.Spec
import Verif.Chainstate.Props

/-!
# Processing blocks with a pool of waiting blocks
-/

namespace Verif.Orphans
open Verif BlockTree Chainstate Chainstate.Spec Orphans.Spec
variable {L : Type} {env : Env L}

/-- the invariant of all histories -/
structure NInv (env : Env L) (r : Nat → Nat) (n : Node L) : Prop where
  reach : Reach env n.db
  db : SInv env n.db
  rep : Rep (parent env) n.pool
  pos : 0 < n.pool.max
  len : n.pool.ids.length ≤ n.pool.max
  ids : ∀ x ∈ n.pool.ids, x ≠ env.tree.genesisId ∧ r (parent env x) < r x

/-- a waiting block whose parent was accepted has its parent in the queue -/
def Waits (env : Env L) (n : Node L) (queue : List Nat) : Prop := ∀ x ∈ n.pool.ids, Ok env n.db (parent env x) → parent env x ∈ queue

/-- the result tells the new tip -/
def TipOk (best : Nat) (n : Node L) (tip : Option Entry) : Prop :=
  (∀ e, tip = some e → n.db.best = e.idx.id) ∧ (tip = none → n.db.best = best)

/-- what an attempt does -/
structure Attempted (env : Env L) (r : Nat → Nat) (n n' : Node L) (id : Nat) (res : Except Chainstate.Err (Option Entry)) : Prop where
  inv : NInv env r n'
  max : n'.pool.max = n.pool.max
  pool : ∀ x ∈ n'.pool.ids, x ∈ n.pool.ids ∨ x = id ∧ ¬ Known env n.db (parent env id) ∧ n'.db = n.db
  ok : ∀ x, Ok env n'.db x → Ok env n.db x ∨ x = id ∧ ∃ t, res = .ok t
  bad : ∀ e, res = .error e → n'.db.best = n.db.best
  tip : ∀ t, res = .ok t → TipOk n.db.best n' t

theorem filter_len_le {l l' : List Nat} {m : Nat} {f : Nat → Bool} (h : l' = l.filter f) (hl : l.length ≤ m) : l'.length ≤ m := by
  rw [h]; exact Nat.le_trans (List.length_filter_le ..) hl

theorem attempt_spec (hu : Undoes env) {r : Nat → Nat} {n : Node L} (h : NInv env r n) {id : Nat} (hid : id ≠ env.tree.genesisId)
    (hr : r (parent env id) < r id) (now : Now) (pick : Nat) : ∃ n' res, n.attempt env now pick id = .ok (n', res) ∧ Attempted env r n n' id res := by
  unfold Node.attempt
  cases hg : n.db.gen env (parent env id) with
  | none =>
    have hnk : ¬ Known env n.db (parent env id) := by
      intro hk
      obtain ⟨g, hg'⟩ := known_gen.1 hk
      rw [hg] at hg'; cases hg'
    obtain ⟨p', b, l, e1, r1, m1, pr, hl, hc⟩ := add_spec (fun x hx => (h.ids x hx).2) h.rep h.pos h.len pick id
    have hmem : ∀ x ∈ p'.ids, x ∈ n.pool.ids ∨ x = id := by
      intro x hx
      rcases hc with ⟨-, -, e⟩ | ⟨-, -, e⟩
      · rw [e] at hx
        rcases List.mem_append.1 hx with hx | hx
        · exact .inl (pr.sub x hx)
        · exact .inr (List.mem_singleton.1 hx)
      · rw [e] at hx; exact .inl (pr.sub x hx)
    refine ⟨⟨n.db, p'⟩, .error .prevNotFound, by simp only [e1]; rfl, ⟨h.reach, h.db, r1, by rw [m1]; exact h.pos, ?_, ?_⟩, m1, ?_, fun x hx => .inl hx, fun _ _ => rfl, fun t ht => by cases ht⟩
    · show p'.ids.length ≤ p'.max
      rw [m1]
      rcases hc with ⟨-, -, e⟩ | ⟨-, -, e⟩
      · rw [e, List.length_append]; simp; omega
      · rw [e]; omega
    · intro x hx
      rcases hmem x hx with hx | hx
      · exact h.ids x hx
      · rw [hx]; exact ⟨hid, hr⟩
    · intro x hx
      rcases hmem x hx with hx | hx
      · exact .inl hx
      · exact .inr ⟨hx, hnk, rfl⟩
  | some g =>
    obtain ⟨p', e1, r1, m1, f, hf⟩ := forget_sub h.rep (blamed env now n.db id)
    have hsub : ∀ x ∈ p'.ids, x ∈ n.pool.ids := fun x hx => by rw [hf] at hx; exact (List.mem_filter.1 hx).1
    refine ⟨⟨(n.db.process env now id).1, p'⟩, (n.db.process env now id).2, by simp only [e1]; rfl, ?_⟩
    have hinv : SInv env (n.db.process env now id).1 := step_sinv hu h.db (.process id now) hid
    refine ⟨⟨Later.step (.process id now) h.reach trivial hid, hinv, r1, by rw [m1]; exact h.pos, by rw [m1]; exact filter_len_le hf h.len, fun x hx => h.ids x (hsub x hx)⟩, m1, fun x hx => .inl (hsub x hx), ?_, ?_, ?_⟩
    · rcases process_spec (now := now) hu h.db.i h.db.m hid with ⟨s', t, h1, h2⟩ | ⟨s', e, h1, h2, -⟩
      · rw [h1]
        intro x hx
        rcases (h2.ok x).1 hx with h | h
        · exact .inl h
        · exact .inr ⟨h, t, rfl⟩
      · rw [h1]
        exact fun x hx => .inl (h2.okSub x hx)
    · intro e he
      rcases process_spec (now := now) hu h.db.i h.db.m hid with ⟨s', t, h1, h2⟩ | ⟨s', e, h1, h2, -⟩
      · rw [h1] at he; cases he
      · rw [h1]; exact h2.best
    · intro t ht
      rcases process_spec (now := now) hu h.db.i h.db.m hid with ⟨s', t', h1, h2⟩ | ⟨s', e, h1, h2, -⟩
      · rw [h1] at ht ⊢
        cases ht
        rcases h2.tip with ⟨e, a, b, c, -⟩ | ⟨a, b, -⟩
        · rw [a]
          refine ⟨fun e' he' => ?_, fun hn => by cases hn⟩
          cases he'
          show s'.best = e.idx.id
          rw [c, h2.iinv.tree.id_eq' b]
        · rw [a]
          exact ⟨fun e' he' => by (cases he'), fun _ => b⟩
      · rw [h1] at ht; cases ht

theorem Attempted.waits {r : Nat → Nat} {n n' : Node L} {id : Nat} {res} (h : Attempted env r n n' id res) {queue : List Nat}
    (hw : Waits env n queue) (hq : id ∈ queue) : Waits env n' queue := by
  intro x hx ho
  rcases h.pool x hx with hm | ⟨rfl, hnk, hdb⟩
  · rcases h.ok _ ho with h1 | ⟨h1, -⟩
    · exact hw x hm h1
    · rw [h1]; exact hq
  · rw [hdb] at ho
    exact absurd (genOk_known ho) hnk

theorem Attempted.waits_err {r : Nat → Nat} {n n' : Node L} {id : Nat} {res} {e} (h : Attempted env r n n' id res) (he : res = .error e) {queue : List Nat}
    (hw : Waits env n queue) : Waits env n' queue := by
  intro x hx ho
  rcases h.pool x hx with hm | ⟨rfl, hnk, hdb⟩
  · rcases h.ok _ ho with h1 | ⟨-, t, h1⟩
    · exact hw x hm h1
    · rw [he] at h1; cases h1
  · rw [hdb] at ho
    exact absurd (genOk_known ho) hnk

theorem laterTip_ok {r : Nat → Nat} {n n' : Node L} {id : Nat} {res} (h : Attempted env r n n' id res) {b : Nat} {tip : Option Entry} (ht : TipOk b n tip) :
    TipOk b n' (laterTip tip res) := by
  cases res with
  | error e =>
    show TipOk b n' tip
    have hb := h.bad e rfl
    exact ⟨fun e he => hb.trans (ht.1 e he), fun hn => hb.trans (ht.2 hn)⟩
  | ok t =>
    have h1 := h.tip t rfl
    cases t with
    | none =>
      have hb := h1.2 rfl
      exact ⟨fun e he => hb.trans (ht.1 e he), fun hn => hb.trans (ht.2 hn)⟩
    | some e => exact ⟨h1.1, fun hn => by (cases hn)⟩

/-- the children of a block are processed -/
theorem attempts_spec (hu : Undoes env) {r : Nat → Nat} {now : Nat → Now} {pick : Nat → Nat} {b : Nat} {queue : List Nat} : ∀ (l : List Nat) {st : Node L × Option Entry},
    NInv env r st.1 → (∀ x ∈ l, x ≠ env.tree.genesisId ∧ r (parent env x) < r x ∧ x ∈ queue) → Waits env st.1 queue → TipOk b st.1 st.2 →
    ∃ st', l.foldlM (Node.attemptOrphan env now pick) st = .ok st' ∧ NInv env r st'.1 ∧ st'.1.pool.max = st.1.pool.max ∧ Waits env st'.1 queue ∧ TipOk b st'.1 st'.2 ∧
      ∀ x ∈ st'.1.pool.ids, x ∈ st.1.pool.ids ∨ x ∈ l
  | [], st, h, _, hw, ht => ⟨st, rfl, h, rfl, hw, ht, fun _ h => .inl h⟩
  | x :: l, st, h, hl, hw, ht => by
    obtain ⟨h1, h2, h3⟩ := hl x (List.mem_cons_self ..)
    obtain ⟨n1, res, e1, ha⟩ := attempt_spec hu h h1 h2 (now x) (pick x)
    obtain ⟨st', e2, i2, m2, w2, t2, p2⟩ := attempts_spec hu (st := (n1, laterTip st.2 res)) l ha.inv (fun y hy => hl y (List.mem_cons_of_mem _ hy)) (ha.waits hw h3) (laterTip_ok ha ht)
    refine ⟨st', ?_, i2, m2.trans ha.max, w2, t2, ?_⟩
    · rw [List.foldlM_cons]
      have : Node.attemptOrphan env now pick st x = .ok (n1, laterTip st.2 res) := by
        unfold Node.attemptOrphan
        rw [e1]; rfl
      rw [this]; exact e2
    · intro y hy
      rcases p2 y hy with hy | hy
      · rcases ha.pool y hy with hy | ⟨hy, -⟩
        · exact .inl hy
        · exact .inr (by rw [hy]; exact List.mem_cons_self ..)
      · exact .inr (List.mem_cons_of_mem _ hy)

/-- `process_orphans_of` ends, and afterwards no block waits for an accepted one -/
theorem loop_spec (hu : Undoes env) {r : Nat → Nat} {now : Nat → Now} {pick : Nat → Nat} {b : Nat} : ∀ (k : Nat) (queue rest : List Nat) {st : Node L × Option Entry},
    NInv env r st.1 → (queue ++ rest).Nodup → queue.length + rest.length ≤ k →
    (∀ x ∈ st.1.pool.ids, parent env x ∈ queue ∨ parent env x ∈ rest → x ∈ rest) → Waits env st.1 queue → TipOk b st.1 st.2 →
    ∃ st', Node.orphanLoop env now pick k queue st = .ok st' ∧ NInv env r st'.1 ∧ st'.1.pool.max = st.1.pool.max ∧ Waits env st'.1 [] ∧ TipOk b st'.1 st'.2
  | k, [], rest, st, h, _, _, _, hw, ht => ⟨st, by cases k <;> rfl, h, rfl, hw, ht⟩
  | 0, q :: queue, rest, st, _, _, hk, _, _, _ => by simp at hk
  | k + 1, q :: queue, rest, st, h, hnd, hk, hcl, hw, ht => by
    obtain ⟨p1, e1, r1, i1, m1⟩ := take_spec h.rep q
    have hsub : ∀ x ∈ p1.ids, x ∈ st.1.pool.ids ∧ parent env x ≠ q := by
      intro x hx
      rw [i1] at hx
      exact ⟨(List.mem_filter.1 hx).1, of_decide_eq_true (List.mem_filter.1 hx).2⟩
    have hkr : ∀ x ∈ kids (parent env) st.1.pool.ids q, x ∈ rest := by
      intro x hx
      obtain ⟨a, c⟩ := mem_kids.1 hx
      exact hcl x a (.inl (by rw [c]; exact List.mem_cons_self ..))
    have hkn : (kids (parent env) st.1.pool.ids q).Nodup := h.rep.nodup.filter _
    have h1 : NInv env r (⟨st.1.db, p1⟩ : Node L) :=
      ⟨h.reach, h.db, r1, by show 0 < p1.max; rw [m1]; exact h.pos, by show _ ≤ p1.max; rw [m1]; exact filter_len_le i1 h.len, fun x hx => h.ids x (hsub x hx).1⟩
    obtain ⟨st2, e2, i2, m2, w2, t2, p2⟩ := attempts_spec hu (now := now) (pick := pick) (b := b) (queue := queue ++ kids (parent env) st.1.pool.ids q)
      (st := ((⟨st.1.db, p1⟩ : Node L), st.2)) (kids (parent env) st.1.pool.ids q) h1
      (fun x hx => ⟨(h.ids x (mem_kids.1 hx).1).1, (h.ids x (mem_kids.1 hx).1).2, List.mem_append.2 (.inr hx)⟩)
      (by
        intro x hx ho
        obtain ⟨hx1, hx2⟩ := hsub x hx
        have := hw x hx1 ho
        rcases List.mem_cons.1 this with e | e
        · exact absurd e hx2
        · exact List.mem_append.2 (.inl e))
      ht
    have hnd1 := List.nodup_cons.1 hnd
    have hnd2 := List.nodup_append.1 hnd1.2
    have hqr : q ∉ queue ∧ q ∉ rest := ⟨fun hm => hnd1.1 (List.mem_append.2 (.inl hm)), fun hm => hnd1.1 (List.mem_append.2 (.inr hm))⟩
    have hlen : (kids (parent env) st.1.pool.ids q).length + (rest.filter (fun x => decide (x ∉ kids (parent env) st.1.pool.ids q))).length ≤ rest.length := by
      rw [← List.length_append]
      apply List.Nodup.length_le_of_subset
      · rw [List.nodup_append]
        refine ⟨hkn, hnd2.2.1.filter _, ?_⟩
        intro a ha c hc e
        subst e
        exact of_decide_eq_true (List.mem_filter.1 hc).2 ha
      · intro x hx
        rcases List.mem_append.1 hx with hx | hx
        · exact hkr x hx
        · exact (List.mem_filter.1 hx).1
    obtain ⟨st', e3, i3, m3, w3, t3⟩ := loop_spec hu (b := b) k (queue ++ kids (parent env) st.1.pool.ids q)
      (rest.filter (fun x => decide (x ∉ kids (parent env) st.1.pool.ids q))) i2
      (by
        rw [List.nodup_append, List.nodup_append]
        refine ⟨⟨hnd2.1, hkn, ?_⟩, hnd2.2.1.filter _, ?_⟩
        · intro a ha c hc
          exact hnd2.2.2 a ha c (hkr c hc)
        · intro a ha c hc e
          subst e
          obtain ⟨c1, c2⟩ := List.mem_filter.1 hc
          rcases List.mem_append.1 ha with ha | ha
          · exact hnd2.2.2 a ha a c1 rfl
          · exact of_decide_eq_true c2 ha)
      (by
        rw [List.length_append]
        simp only [List.length_cons] at hk
        omega)
      (by
        intro x hx hp
        have hqk : q ∉ kids (parent env) st.1.pool.ids q := by
          intro hm
          exact hqr.2 (hkr q hm)
        rcases p2 x hx with hx | hx
        · obtain ⟨hx1, hx2⟩ := hsub x hx
          refine List.mem_filter.2 ⟨hcl x hx1 ?_, decide_eq_true (fun hm => hx2 (mem_kids.1 hm).2)⟩
          rcases hp with hp | hp
          · rcases List.mem_append.1 hp with hp | hp
            · exact .inl (List.mem_cons_of_mem _ hp)
            · exact .inr (hkr _ hp)
          · exact .inr (List.mem_filter.1 hp).1
        · exfalso
          rw [(mem_kids.1 hx).2] at hp
          rcases hp with hp | hp
          · rcases List.mem_append.1 hp with hp | hp
            · exact hqr.1 hp
            · exact hqk hp
          · exact hqr.2 (List.mem_filter.1 hp).1)
      w2 t2
    refine ⟨st', ?_, i3, m3.trans (m2.trans m1), w3, t3⟩
    rw [Node.orphanLoop, e1]
    simp only [bind, Except.bind]
    rw [e2]
    exact e3

theorem submit_spec (hu : Undoes env) {r : Nat → Nat} {n : Node L} (h : NInv env r n) (hw : Waits env n []) {id : Nat} (hid : id ≠ env.tree.genesisId)
    (hr : r (parent env id) < r id) (now : Nat → Now) (pick : Nat → Nat) : ∃ n' res, n.submit env now pick id = .ok (n', res) ∧ NInv env r n' ∧ n'.pool.max = n.pool.max ∧ Waits env n' [] ∧
      (∀ e, res = .error e → n'.db.best = n.db.best) ∧ ∀ t, res = .ok t → TipOk n.db.best n' t := by
  obtain ⟨n1, res, e1, ha⟩ := attempt_spec hu h hid hr (now id) (pick id)
  unfold Node.submit
  rw [e1]
  simp only [bind, Except.bind]
  cases res with
  | error e => exact ⟨n1, .error e, rfl, ha.inv, ha.max, ha.waits_err rfl hw, ha.bad, fun t ht => by (cases ht)⟩
  | ok t =>
    obtain ⟨st', e2, i2, m2, w2, t2⟩ := loop_spec hu (now := now) (pick := pick) (b := n.db.best) (n1.pool.len + 1) [id] (n1.pool.ids.filter (fun x => decide (r id < r x)))
      (st := (n1, t)) ha.inv
      (by
        rw [List.singleton_append, List.nodup_cons]
        refine ⟨fun hm => ?_, ha.inv.rep.nodup.filter _⟩
        have := of_decide_eq_true (List.mem_filter.1 hm).2
        omega)
      (by
        have := List.length_filter_le (fun x => decide (r id < r x)) n1.pool.ids
        simp only [List.length_singleton, Pool.len]
        omega)
      (by
        intro x hx hp
        have hrx := (ha.inv.ids x hx).2
        refine List.mem_filter.2 ⟨hx, decide_eq_true ?_⟩
        rcases hp with hp | hp
        · rw [List.mem_singleton.1 hp] at hrx; exact hrx
        · have := of_decide_eq_true (List.mem_filter.1 hp).2
          omega)
      (ha.waits (fun x hx ho => by have := hw x hx ho; cases this) (List.mem_singleton.2 rfl))
      (ha.tip t rfl)
    refine ⟨st'.1, .ok st'.2, ?_, i2, m2.trans ha.max, w2, fun e he => by (cases he), fun t' ht' => by cases ht'; exact t2⟩
    show Node.afterAttempt env now pick id n1 (.ok t) = _
    rw [Node.afterAttempt, e2]; rfl

theorem ninv_new {r : Nat → Nat} {max : Nat} (hm : 0 < max) : NInv env r (Node.new env max) :=
  ⟨.refl, sinv_init, rep_new max, hm, Nat.zero_le _, fun x hx => by cases hx⟩

theorem submitAll_spec (hu : Undoes env) {r : Nat → Nat} : ∀ (cs : List Call) {n : Node L}, NInv env r n → Waits env n [] →
    (∀ c ∈ cs, c.id ≠ env.tree.genesisId ∧ r (parent env c.id) < r c.id) →
    ∃ n', Node.submitAll env cs n = .ok n' ∧ NInv env r n' ∧ n'.pool.max = n.pool.max ∧ Waits env n' []
  | [], n, h, hw, _ => ⟨n, rfl, h, rfl, hw⟩
  | c :: cs, n, h, hw, hc => by
    obtain ⟨h1, h2⟩ := hc c (List.mem_cons_self ..)
    obtain ⟨n1, res, e1, i1, m1, w1, -⟩ := submit_spec hu h hw h1 h2 c.now c.pick
    obtain ⟨n2, e2, i2, m2, w2⟩ := submitAll_spec hu cs i1 w1 (fun d hd => hc d (List.mem_cons_of_mem _ hd))
    refine ⟨n2, ?_, i2, m2.trans m1, w2⟩
    rw [Node.submitAll, e1]; exact e2

end Verif.Orphans
