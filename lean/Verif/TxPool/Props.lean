import Verif.TxPool.Reorg

/-!
# C73: the transactions in the mempool connect, one after the other, on the tip
-/

set_option maxRecDepth 100000

namespace Verif.TxPool

open Verif.Mempool

/-! ## Specification -/

/-- what happens to a pool. The clock, which fees suffice and the state of the chain are whatever they are. -/
inductive Event where
  | submit (now : Nat) (pays : Tx → Bool) (t : Tx)
  | newTip (now : Nat) (pays : Tx → Bool) (tip : Tip) (connected disconnected : List (List Tx))
  | setLimit (limit : Nat)

/-- one event -/
def event (env : Env) (p : Pool) : Event → Except Fail Pool
  | .submit now pays t => (submit env now pays p t).map Prod.snd
  | .newTip now pays tip connected disconnected => newTip env now pays tip connected disconnected p
  | .setLimit limit => setLimit env p limit

/-- the state of a chain: an unspent output belongs to a transaction of the chain -/
def Event.Fine : Event → Prop
  | .newTip _ _ tip _ _ => OutKnown tip.ledger
  | _ => True

/-- the tip after events -/
def tipAfter (tip : Tip) : List Event → Tip
  | [] => tip
  | .newTip _ _ tip' _ _ :: es => tipAfter tip' es
  | _ :: es => tipAfter tip es

/-- the transactions of the list one after the other on the tip -/
def Connects (tip : Tip) (l : List Tx) : Prop := (connectAll tip l tip.ledger).isSome = true

theorem event_spec (env : Env) {p : Pool} (h : Sound p) (e : Event) (he : e.Fine) :
    ∃ p', event env p e = .ok p' ∧ Sound p' ∧ p'.tip = tipAfter p.tip [e] := by
  cases e with
  | submit now pays t =>
    obtain ⟨a, p', h1, h2, h3, -⟩ := submit_spec env now pays h t
    exact ⟨p', by simp [event, h1, Except.map], h2, h3.tip⟩
  | newTip now pays tip c d =>
    obtain ⟨p', h1, h2, h3, -⟩ := newTip_spec env now pays he c d h
    exact ⟨p', h1, h2, h3.tip⟩
  | setLimit n =>
    obtain ⟨p', h1, h2, h3, -⟩ := setLimit_spec env h n
    exact ⟨p', h1, h2, h3.tip⟩

theorem run_spec (env : Env) (es : List Event) (hes : ∀ e ∈ es, e.Fine) : ∀ {p : Pool}, Sound p →
    ∃ p', es.foldlM (event env) p = .ok p' ∧ Sound p' ∧ p'.tip = tipAfter p.tip es := by
  induction es with
  | nil => intro p h; exact ⟨p, rfl, h, rfl⟩
  | cons e es ih =>
    intro p h
    obtain ⟨p1, h1, h2, h3⟩ := event_spec env h e (hes e (by simp))
    obtain ⟨p2, g1, g2, g3⟩ := ih (fun e he => hes e (by simp [he])) h2
    refine ⟨p2, ?_, g2, ?_⟩
    · simp only [List.foldlM_cons, h1, bind, Except.bind]; exact g1
    · rw [g3, h3]
      cases e <;> rfl

/-- pools that exist: from a fresh one by events -/
def Reachable (env : Env) (p : Pool) : Prop :=
  ∃ (tip : Tip) (limit : Nat) (es : List Event), OutKnown tip.ledger ∧ (∀ e ∈ es, Event.Fine e) ∧
    es.foldlM (event env) (fresh env tip limit) = .ok p

theorem Reachable.sound {env : Env} {p : Pool} (h : Reachable env p) : Sound p := by
  obtain ⟨tip, limit, es, h1, h2, h3⟩ := h
  obtain ⟨p', g1, g2, -⟩ := run_spec env es h2 (sound_fresh (env := env) (limit := limit) h1)
  rw [g1] at h3
  cases h3
  exact g2

theorem Sound.connectAll {p : Pool} (h : Sound p) : connectAll p.tip (inOrder p.store) p.tip.ledger = some p.ver :=
  connectAll_eq.2 ⟨h.ok, h.conn⟩

/-! ## Properties -/

/-- No sequence of submissions, changes of the chain and changes of the size limit ends in a failure: no panic, no
failed disconnection, the whole pool never has to be rebuilt because of one. Afterwards the transactions in the
pool, in their order of arrival, connect one after the other on the current tip, and the verifier of the pool holds
exactly the result. -/
theorem C73_connects (env : Env) (tip : Tip) (limit : Nat) (htip : OutKnown tip.ledger) (es : List Event)
    (hes : ∀ e ∈ es, e.Fine) :
    ∃ p, es.foldlM (event env) (fresh env tip limit) = .ok p ∧ p.tip = tipAfter tip es ∧
      connectAll p.tip (inOrder p.store) p.tip.ledger = some p.ver ∧ Connects p.tip (inOrder p.store) := by
  obtain ⟨p, h1, h2, h3⟩ := run_spec env es hes (sound_fresh (env := env) (limit := limit) htip)
  exact ⟨p, h1, h3, h2.connectAll, by unfold Connects; rw [h2.connectAll]; rfl⟩

/-- So does every part of the pool that contains with a transaction the transactions of the pool it depends on: a
block made of such a part is valid as far as its transactions go. -/
theorem C73_closed (env : Env) {p : Pool} (h : Reachable env p) (S : Tx → Bool)
    (hS : ∀ a ∈ inOrder p.store, ∀ b ∈ inOrder p.store, DependsOn a b → S b = true → S a = true) :
    Connects p.tip ((inOrder p.store).filter S) := by
  have hs := h.sound
  obtain ⟨M, hM⟩ := doesAll_filter hs.known hs.conn (S := S) (by
    refine List.Pairwise.imp_of_mem ?_ (List.pairwise_of_forall (R := fun _ _ => True) (fun _ _ => trivial))
    intro a b ha hb _
    exact hS a ha b hb)
  unfold Connects
  rw [connectAll_eq.2 ⟨fun t ht => hs.ok t (List.mem_of_mem_filter ht), hM⟩]
  rfl

/-- What a submission does. It is answered without failure. Refused – a duplicate, not connectable on top of the
pool, against the policy or the cluster limits –, it leaves the pool as it is. Taken, it comes last, is really in
the pool, and all others that remain were there before in the same order. Taken and thrown out again, nothing new
remains. A transaction that connects is never refused because of a conflict with one in the pool. -/
theorem C73_submit (env : Env) {p : Pool} (h : Reachable env p) (now : Nat) (pays : Tx → Bool) (t : Tx) :
    ∃ a p', submit env now pays p t = .ok (a, p') ∧
      (a = .added → t ∈ inOrder p'.store ∧ List.Sublist (inOrder p'.store) (inOrder p.store ++ [t]) ∧
        env.mem p'.store ≤ p.limit) ∧
      (a = .expired ∨ a = .full → List.Sublist (inOrder p'.store) (inOrder p.store)) ∧
      (a = .duplicate ∨ a = .invalid ∨ a = .policy ∨ a = .cluster → p' = p) ∧
      (a = .added ∨ a = .expired ∨ a = .full → Connects p.tip (inOrder p.store ++ [t])) ∧
      a ≠ .conflict := by
  have hs := h.sound
  obtain ⟨a, p', h1, -, -, h4⟩ := submit_spec env now pays hs t
  have hcon : (connect p.tip p.ver t).isSome = true → Connects p.tip (inOrder p.store ++ [t]) := by
    intro hc
    obtain ⟨v', hv⟩ := Option.isSome_iff_exists.1 hc
    obtain ⟨g1, g2⟩ := connect_eq.1 hv
    unfold Connects
    rw [connectAll_eq.2 ⟨?_, doesAll_append.2 ⟨p.ver, hs.conn, doesAll_single.2 g2⟩⟩]
    · rfl
    · intro x hx
      rcases List.mem_append.1 hx with hx | hx
      · exact hs.ok x hx
      · rw [List.mem_singleton.1 hx]; exact g1
  refine ⟨a, p', h1, ?_⟩
  cases h4 with
  | refused ha => rcases ha with rfl | rfl | rfl | rfl <;> simp
  | added hc hn hsub hin hm => simp only [reduceCtorEq, false_or, or_false, IsEmpty.forall_iff, forall_const,
      true_and, ne_eq, not_false_eq_true, and_true]; exact ⟨⟨hin, hsub, hm⟩, hcon hc⟩
  | gone hc hn ha hsub => rcases ha with rfl | rfl <;> simp [hsub, hcon hc]

/-- After a change of the chain the pool contains only transactions of the disconnected blocks and transactions it
contained before, those of the blocks first, each group in its order, and none that is in the new chain. -/
theorem C73_reorg (env : Env) {p : Pool} (h : Reachable env p) (now : Nat) (pays : Tx → Bool) (tip : Tip)
    (htip : OutKnown tip.ledger) (connected disconnected : List (List Tx)) :
    ∃ p', newTip env now pays tip connected disconnected p = .ok p' ∧ p'.tip = tip ∧
      List.Sublist (inOrder p'.store) (concerned now disconnected p) ∧
      ∀ t ∈ inOrder p'.store, tip.ledger (.known t.id) = 0 := by
  obtain ⟨p', h1, h2, h3, h4⟩ := newTip_spec env now pays htip connected disconnected h.sound
  refine ⟨p', h1, h3.tip, ?_, fun t ht => ?_⟩
  · refine h4.trans ?_
    unfold disconnectedTxs concerned
    exact List.Sublist.append List.filter_sublist (List.Sublist.refl _)
  · have htip' : p'.tip = tip := h3.tip
    have := (h2.conn.known.1 t ht).1
    rw [htip'] at this
    exact this

/-- Nothing valid is lost by a change of the chain. The blocks lead from a common ledger `B` to the old and to the
new tip. If no limit binds, every transaction of the disconnected blocks and of the pool is in the new chain, in
the new pool, or it had to go: the verifier refuses it on the new tip, it clashes with a transaction of the
connected blocks that is new to the pool, or it depends on one that had to go. -/
theorem C73_reorg_keeps (env : Env) {p : Pool} (h : Reachable env p) (now : Nat) (pays : Tx → Bool) (tip : Tip)
    (connected disconnected : List (List Tx)) {B : Ledger} (hB : OutKnown B)
    (hd : ∃ ok, connectAll ⟨B, ok⟩ disconnected.reverse.flatten B = some p.tip.ledger)
    (hc : ∃ ok, connectAll ⟨B, ok⟩ connected.reverse.flatten B = some tip.ledger)
    (hbody : ∀ t ∈ concerned now disconnected p, ∀ u ∈ connected.flatten, t.id = u.id → SameBody t u)
    (hr : Roomy env now pays p.limit (concerned now disconnected p)) :
    ∃ p', newTip env now pays tip connected disconnected p = .ok p' ∧
      ∀ t ∈ concerned now disconnected p, t.id ∈ connected.flatten.map Tx.id ∨ t ∈ inOrder p'.store ∨
        Doomed tip.ok (concerned now disconnected p) connected.flatten t := by
  obtain ⟨_, hd⟩ := hd
  obtain ⟨_, hc⟩ := hc
  obtain ⟨p', h1, h2⟩ := newTip_keeps (env := env) (now := now) (pays := pays) (tip := tip) connected disconnected
    h.sound hB (connectAll_eq.1 hd).2 (connectAll_eq.1 hc).2 hbody hr
  refine ⟨p', h1, fun t ht => ?_⟩
  by_cases g1 : t.id ∈ connected.flatten.map Tx.id
  · exact .inl g1
  · by_cases g2 : Doomed tip.ok (concerned now disconnected p) connected.flatten t
    · exact .inr (.inr g2)
    · exact .inr (.inl (h2 t ht g1 g2))

/-- In particular a new block on top of the tip that clashes with nothing in the pool removes exactly its own
transactions from it. -/
theorem C73_block (env : Env) {p : Pool} (h : Reachable env p) (now : Nat) (pays : Tx → Bool) (tip : Tip)
    (block : List Tx)
    (hc : ∃ ok, connectAll ⟨p.tip.ledger, ok⟩ block p.tip.ledger = some tip.ledger)
    (hbody : ∀ t ∈ inOrder p.store, ∀ u ∈ block, t.id = u.id → SameBody t u)
    (hok : ∀ t ∈ inOrder p.store, tip.ok t = true)
    (hfree : ∀ t ∈ inOrder p.store, ∀ u ∈ block, u.id ∉ (inOrder p.store).map Tx.id → ¬ Clash t u)
    (hr : Roomy env now pays p.limit (inOrder p.store)) :
    ∃ p', newTip env now pays tip [block] [] p = .ok p' ∧
      inOrder p'.store = (inOrder p.store).filter (fun t => t.id ∉ block.map Tx.id) := by
  have hs := h.sound
  have e0 : concerned now [] p = inOrder p.store := rfl
  obtain ⟨_, hc⟩ := hc
  obtain ⟨-, hc'⟩ := connectAll_eq.1 hc
  obtain ⟨p', h1, h2⟩ := newTip_keeps (env := env) (now := now) (pays := pays) (tip := tip) [block] []
    hs hs.known (by exact rfl) (by simpa using hc') (by simpa [e0] using hbody) (by rw [e0]; exact hr)
  have hdoom : ∀ t, Doomed tip.ok (inOrder p.store) block t → t ∈ inOrder p.store → False := by
    intro t hd
    induction hd with
    | refused h => intro ht; rw [hok _ ht] at h; cases h
    | clash hu hul hcl => intro ht; exact hfree _ ht _ hu hul hcl
    | parent ha _ _ _ ih => intro _; exact ih ha
  obtain ⟨p2, g1, g2, g3, g4⟩ := newTip_spec env now pays (hc'.outKnown hs.known) [block] [] hs
  rw [h1] at g1
  cases g1
  refine ⟨p', h1, ?_⟩
  have hsub : List.Sublist (inOrder p'.store) (inOrder p.store) := by simpa [disconnectedTxs] using g4
  have hnd : (inOrder p.store).Nodup := List.Nodup.of_map _ hs.conn.known.2.1
  rw [← filter_mem_sublist hsub hnd]
  refine List.filter_congr fun t ht => ?_
  rw [decide_eq_decide]
  constructor
  · intro hin hb
    obtain ⟨u, hu, e⟩ := List.mem_map.1 hb
    have e1 := (g2.conn.known.1 t hin).1
    have htip : p'.tip = tip := g3.tip
    rw [htip, ← e] at e1
    exact (hc'.known.1 u hu).2 e1
  · intro hb
    rw [e0] at h2
    exact h2 t ht (by simpa using hb) (fun hd => hdoom t (by simpa using hd) ht)

end Verif.TxPool
