import Verif.TxPool.Agree
import Verif.TxPool.Room

/-!
# What survives a change of the chain
-/

namespace Verif.TxPool

open Verif.Mempool

/-- No limit binds for the transactions `l`: each meets the policy, none has expired, together they keep within the
limits on clusters, on memory and on fees. -/
structure Roomy (env : Env) (now : Nat) (pays : Tx → Bool) (limit : Nat) (l : List Tx) : Prop where
  policy : ∀ t ∈ l, preliminary env t = true ∧ pays t = true
  young : ∀ t ∈ l, now - t.time ≤ env.maxAge
  count : l.length ≤ env.maxCount
  size : (l.map Tx.size).sum ≤ env.maxSize
  fees : (l.map Tx.fee).sum * 1000 < U128
  mem : ∀ s : Store, List.Sublist (inOrder s) l → env.mem s ≤ limit

/-- A transaction of `l` that cannot stay: the verifier refuses it on the new tip, it clashes with a
transaction of the connected blocks `c` that was not in `l`, or it depends on one that cannot stay. -/
inductive Doomed (ok : Tx → Bool) (l c : List Tx) : Tx → Prop
  | refused {t : Tx} : ok t = false → Doomed ok l c t
  | clash {t u : Tx} : u ∈ c → u.id ∉ l.map Tx.id → Clash t u → Doomed ok l c t
  | parent {a b : Tx} : a ∈ l → a.id ∉ c.map Tx.id → DependsOn a b → Doomed ok l c a → Doomed ok l c b

/-- the same transaction, apart from when it arrived and what is recorded about it -/
def SameBody (t u : Tx) : Prop :=
  t.inputs = u.inputs ∧ t.outputs = u.outputs ∧ t.newDelegation = u.newDelegation ∧ t.newToken = u.newToken ∧
    t.newOrder = u.newOrder

theorem provides_congr {t u : Tx} (h : SameBody t u) (o : Output) : o.provides t = o.provides u := by
  obtain ⟨-, -, h1, h2, h3⟩ := h
  cases o <;> simp [Output.provides, h1, h2, h3]

theorem acts_congr {t u : Tx} (hid : t.id = u.id) (h : SameBody t u) : acts t = acts u := by
  have : outputActs t = outputActs u := by
    funext o; rw [outputActs_eq, outputActs_eq, provides_congr h]
  unfold acts
  rw [hid, h.1, h.2.1, this]

theorem sum_sublist {l1 l2 : List Nat} (h : List.Sublist l1 l2) : l1.sum ≤ l2.sum := by
  induction h with
  | slnil => exact le_refl _
  | cons a _ ih => simp only [List.sum_cons]; omega
  | cons_cons a _ ih => simp only [List.sum_cons]; omega

variable {env : Env} {now : Nat} {pays : Tx → Bool} {tip : Tip} {limit : Nat}
  {l c : List Tx} {S K : Tx → Bool} {B V : Ledger}

theorem keep_run (hk : OutKnown B) (hl : DoesAll l B V) (hc : DoesAll c B tip.ledger) (hS : Survive l c S)
    (hok : ∀ t ∈ l, S t = true → tip.ok t = true) (hK : ∀ t ∈ l, S t = true → K t = true)
    (hr : Roomy env now pays limit l) : ∀ (rest q : List Tx) (p : Pool), l = q ++ rest → Sound p →
      SameFrame (fresh env tip limit) p → List.Sublist (inOrder p.store) q →
      (∀ v ∈ q, S v = true → v ∈ inOrder p.store) →
      ∃ p', submitAll env now pays (rest.filter K) p = .ok p' ∧ ∀ v ∈ l, S v = true → v ∈ inOrder p'.store := by
  have hnd := hl.known.2.1
  intro rest
  induction rest with
  | nil =>
    intro q p he _ _ _ hin
    rw [List.append_nil] at he
    exact ⟨p, rfl, by rw [he]; exact hin⟩
  | cons t rest ih =>
    intro q p he hp hf hsub hin
    have he' : l = (q ++ [t]) ++ rest := by rw [he]; simp
    have htl : t ∈ l := by rw [he]; simp
    by_cases hKt : K t = true
    · rw [List.filter_cons_of_pos hKt]
      have hql : List.Sublist (inOrder p.store ++ [t]) l := by
        rw [he']
        exact (hsub.append (List.Sublist.refl [t])).trans (List.sublist_append_left _ _)
      have hnew : t.id ∉ (inOrder p.store).map Tx.id := by
        have := (hql.map Tx.id).nodup hnd
        rw [List.map_append, List.nodup_append] at this
        intro hm
        exact this.2.2 _ hm _ (by simp) rfl
      have hlen := hql.length_le
      simp only [List.length_append, List.length_singleton] at hlen
      have hsz := sum_sublist (hql.map Tx.size)
      have hfe := sum_sublist (hql.map Tx.fee)
      simp only [List.map_append, List.sum_append, List.map_cons, List.map_nil, List.sum_cons, List.sum_nil] at hsz hfe
      have hmc : p.store.maxCount = env.maxCount := hf.count
      have hms : p.store.maxSize = env.maxSize := hf.size
      have htip : p.tip = tip := hf.tip
      have hlim : p.limit = limit := hf.limit
      have h1 := hr.count
      have h2 := hr.size
      have h3 := hr.fees
      obtain ⟨a, p', hs, hp', hf', hcase⟩ := submit_room (env := env) (now := now) (pays := pays) hp
        (hr.policy t htl).1 (hr.policy t htl).2 hnew (by omega) (by omega)
        (lt_of_le_of_lt (Nat.mul_le_mul_right _ (by omega)) h3)
        (fun x hx => hr.young x (hql.subset hx)) (fun s hs => by rw [hlim]; exact hr.mem s (by rw [hs]; exact hql))
      have hin' : ∀ v ∈ q ++ [t], S v = true → v ∈ inOrder p'.store := by
        intro v hv hSv
        rcases hcase with ⟨hno, rfl⟩ | ⟨-, -, ho⟩
        · rcases List.mem_append.1 hv with hv | hv
          · exact hin v hv hSv
          · exfalso
            rw [List.mem_singleton] at hv
            subst hv
            have hconn := hp.conn
            rw [htip] at hconn
            obtain ⟨v', hd⟩ := survivor_connects hk hl hc hS he hSv hconn hsub hin
            have := connect_eq.2 ⟨(by rw [htip]; exact hok v htl hSv : p'.tip.ok v = true), hd⟩
            rw [this] at hno
            simp at hno
        · rw [ho]
          rcases List.mem_append.1 hv with hv | hv
          · exact List.mem_append_left _ (hin v hv hSv)
          · exact List.mem_append_right _ hv
      have hsub' : List.Sublist (inOrder p'.store) (q ++ [t]) := by
        rcases hcase with ⟨-, rfl⟩ | ⟨-, -, ho⟩
        · exact hsub.trans (List.sublist_append_left _ _)
        · rw [ho]; exact hsub.append (List.Sublist.refl _)
      obtain ⟨p2, g1, g2⟩ := ih (q ++ [t]) p' he' hp' (hf.trans hf') hsub' hin'
      refine ⟨p2, ?_, g2⟩
      simp only [submitAll, hs, bind, Except.bind]
      exact g1
    · rw [List.filter_cons_of_neg hKt]
      refine ih (q ++ [t]) p he' hp hf (hsub.trans (List.sublist_append_left _ _)) (fun v hv hSv => ?_)
      rcases List.mem_append.1 hv with hv | hv
      · exact hin v hv hSv
      · rw [List.mem_singleton] at hv
        subst hv
        exact absurd (hK v htl hSv) hKt

theorem submitAll_append (l1 l2 : List Tx) (p : Pool) :
    submitAll env now pays (l1 ++ l2) p = (submitAll env now pays l1 p).bind (submitAll env now pays l2) := by
  induction l1 generalizing p with
  | nil => rfl
  | cons t l1 ih =>
    simp only [List.cons_append, submitAll, bind, Except.bind]
    cases submit env now pays p t with
    | error e => rfl
    | ok r => exact ih r.2

theorem doesAll_time {ts : List Tx} {L L' : Ledger} (h : DoesAll ts L L') (n : Nat) :
    DoesAll (ts.map (fun t => { t with time := n })) L L' := by
  induction ts generalizing L with
  | nil => exact h
  | cons t ts ih =>
    obtain ⟨M, h1, h2⟩ := h
    refine ⟨M, ⟨h1.nonces, ?_⟩, ih h2⟩
    have : acts { t with time := n } = acts t := acts_congr rfl ⟨rfl, rfl, rfl, rfl, rfl⟩
    rw [this]; exact h1.run

/-- the transactions concerned by a change of the chain: those of the disconnected blocks, oldest first and with
the present time, then those of the pool -/
def concerned (now : Nat) (disconnected : List (List Tx)) (p : Pool) : List Tx :=
  disconnected.reverse.flatten.map (fun t => { t with time := now }) ++ inOrder p.store

theorem newTip_keeps (connected disconnected : List (List Tx)) {p : Pool} (hp : Sound p) (hk : OutKnown B)
    (hd : DoesAll disconnected.reverse.flatten B p.tip.ledger) (hc : DoesAll connected.reverse.flatten B tip.ledger)
    (hbody : ∀ t ∈ concerned now disconnected p, ∀ u ∈ connected.flatten, t.id = u.id → SameBody t u)
    (hr : Roomy env now pays p.limit (concerned now disconnected p)) :
    ∃ p', newTip env now pays tip connected disconnected p = .ok p' ∧
      ∀ t ∈ concerned now disconnected p, t.id ∉ connected.flatten.map Tx.id →
        ¬ Doomed tip.ok (concerned now disconnected p) connected.flatten t → t ∈ inOrder p'.store := by
  classical
  set l := concerned now disconnected p with hldef
  have hl : DoesAll l B p.ver := doesAll_append.2 ⟨_, doesAll_time hd now, hp.conn⟩
  have hmem : ∀ u, u ∈ connected.reverse.flatten ↔ u ∈ connected.flatten := fun u => by simp
  have hmap : ∀ k, k ∈ connected.reverse.flatten.map Tx.id ↔ k ∈ connected.flatten.map Tx.id := fun k => by simp
  let S : Tx → Bool := fun t => decide (t.id ∉ connected.flatten.map Tx.id ∧ ¬ Doomed tip.ok l connected.flatten t)
  let K : Tx → Bool := fun t => decide (t.id ∉ connected.flatten.map Tx.id ∨ t ∈ inOrder p.store)
  have hS : Survive l connected.reverse.flatten S := by
    refine ⟨fun t _ hs => ?_, fun t _ hs u hu hul hcl => ?_, ?_, fun t ht u hu e => ?_⟩
    · rw [hmap]; exact (of_decide_eq_true hs).1
    · exact (of_decide_eq_true hs).2 (.clash ((hmem u).1 hu) hul hcl)
    · refine List.Pairwise.imp_of_mem ?_ (List.pairwise_of_forall (R := fun _ _ => True) (fun _ _ => trivial))
      intro a b ha hb _ hdep hs
      by_cases hac : a.id ∈ connected.reverse.flatten.map Tx.id
      · exact .inr hac
      · left
        have hac' : a.id ∉ connected.flatten.map Tx.id := fun h => hac ((hmap _).2 h)
        exact decide_eq_true ⟨hac', fun hdm => (of_decide_eq_true hs).2 (.parent ha hac' hdep hdm)⟩
    · exact acts_congr e (hbody t ht u ((hmem u).1 hu) e)
  have hcands : l.filter K = disconnectedTxs now connected disconnected ++ inOrder p.store := by
    have hnd := hl.known.2.1
    rw [hldef]
    unfold concerned disconnectedTxs
    rw [List.filter_append]
    congr 1
    · refine List.filter_congr fun t ht => ?_
      have hno : t ∉ inOrder p.store := by
        intro hm
        rw [hldef] at hnd
        unfold concerned at hnd
        rw [List.map_append, List.nodup_append] at hnd
        exact hnd.2.2 _ (List.mem_map_of_mem ht) _ (List.mem_map_of_mem hm) rfl
      simp only [K, hno, or_false]
    · refine List.filter_eq_self.2 fun t ht => ?_
      exact decide_eq_true (.inr ht)
  obtain ⟨p', g1, g2⟩ := keep_run (tip := tip) (S := S) (K := K) hk hl hc hS
    (fun t _ hs => by
      by_contra h
      exact (of_decide_eq_true hs).2 (.refused (by simpa using h)))
    (fun t _ hs => decide_eq_true (.inl (of_decide_eq_true hs).1)) hr l [] (fresh env tip p.limit) rfl
    (sound_fresh (hc.outKnown hk)) (.refl _) (by rw [inOrder_fresh]) (by simp)
  refine ⟨p', ?_, fun t ht h1 h2 => g2 t ht (decide_eq_true ⟨h1, h2⟩)⟩
  rw [hcands, submitAll_append] at g1
  exact g1

end Verif.TxPool
