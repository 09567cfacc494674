import Verif.Relay.Model
import Verif.Rolling.Lemmas

namespace Verif.Relay
open Verif

theorem size_insert_le {V : Type} (m : BMap Nat V) (k : Nat) (v : V) : (m.insert k v).size ≤ m.size + 1 := by
  have : ∀ l : List (Nat × V), (BMap.insertL k v l).length ≤ l.length + 1 := by
    intro l
    induction l with
    | nil => simp [BMap.insertL]
    | cons x t ih =>
      obtain ⟨a, b⟩ := x
      unfold BMap.insertL
      split
      · simp
      · split
        · simp
        · simpa using ih
  exact this m.entries

theorem size_erase_le {V : Type} (m : BMap Nat V) (k : Nat) : (m.erase k).size ≤ m.size := by
  have : ∀ l : List (Nat × V), (BMap.eraseL k l).length ≤ l.length := by
    intro l
    induction l with
    | nil => simp [BMap.eraseL]
    | cons x t ih =>
      obtain ⟨a, b⟩ := x
      unfold BMap.eraseL
      split
      · simp
      · simpa using ih
  exact this m.entries

theorem size_filter_le {V : Type} (m : BMap Nat V) (p : Nat → V → Bool) : (m.filter p).size ≤ m.size := by
  simp only [BMap.filter, BMap.size]
  exact List.length_filter_le _ _

theorem get_empty {V : Type} (k : Nat) : (BMap.empty : BMap Nat V).get k = none := rfl

/-! ### The parts of a turn -/

theorem foldl_known (l : List Nat) (p : Peer) :
    (l.foldl Peer.addKnown p).service = p.service ∧ (l.foldl Peer.addKnown p).requested = p.requested ∧
    (l.foldl Peer.addKnown p).nextPurge = p.nextPurge ∧ (l.foldl Peer.addKnown p).toAnnounce = p.toAnnounce ∧
    (l.foldl Peer.addKnown p).nextAnnounce = p.nextAnnounce ∧
    (l.foldl Peer.addKnown p).known = l.foldl Rolling.Filter.insert p.known := by
  induction l generalizing p with
  | nil => exact ⟨rfl, rfl, rfl, rfl, rfl, rfl⟩
  | cons x t ih =>
    obtain ⟨h1, h2, h3, h4, h5, h6⟩ := ih (p.addKnown x)
    exact ⟨h1, h2, h3, h4, h5, h6⟩

/-- What a task announces in a turn that ends with announcing. -/
def Peer.batch (p : Peer) (e : Env) : List Nat :=
  if e.mono ≥ p.nextAnnounce then
    e.best ((p.toAnnounce.filter (fun id _ => (e.tx id).isSome)).entries.map Prod.fst)
  else []

theorem finish_out (p : Peer) (e : Env) : (p.finish e).2 = (p.batch e).map (fun id => .send (.new id)) := by
  unfold Peer.finish Peer.batch
  split <;> rfl

theorem finish_state (p : Peer) (e : Env) :
    (p.finish e).1.service = p.service ∧ (p.finish e).1.requested = p.requested ∧
    (p.finish e).1.nextPurge = p.nextPurge ∧
    (p.finish e).1.known = (p.batch e).foldl Rolling.Filter.insert p.known := by
  unfold Peer.finish Peer.batch
  split
  · obtain ⟨h1, h2, h3, _, _, h6⟩ := foldl_known
      (e.best ((p.toAnnounce.filter (fun id _ => (e.tx id).isSome)).entries.map Prod.fst))
      { p with toAnnounce := BMap.empty }
    exact ⟨h1, h2, h3, h6⟩
  · exact ⟨rfl, rfl, rfl, rfl⟩

theorem finish_queue (p : Peer) (e : Env) :
    (p.finish e).1.toAnnounce = if e.mono ≥ p.nextAnnounce then BMap.empty else p.toAnnounce := by
  unfold Peer.finish
  split
  · rename_i h
    obtain ⟨_, _, _, h4, _, _⟩ := foldl_known
      (e.best ((p.toAnnounce.filter (fun id _ => (e.tx id).isSome)).entries.map Prod.fst))
      { p with toAnnounce := BMap.empty }
    exact h4
  · rfl

theorem purge_ok {p q : Peer} {now : Nat} (h : p.purge now = .ok q) :
    q.service = p.service ∧ q.known = p.known ∧ q.toAnnounce = p.toAnnounce ∧ q.nextAnnounce = p.nextAnnounce ∧
    ((now < p.nextPurge ∧ q.requested = p.requested ∧ q.nextPurge = p.nextPurge) ∨
     (p.nextPurge ≤ now ∧ expiry ≤ now ∧ q.requested = p.requested.filter (fun _ t => decide (now - expiry ≤ t)) ∧
      q.nextPurge = now + purgeInterval)) := by
  unfold Peer.purge at h
  split at h
  · split at h
    · cases h
    · cases h
      exact ⟨rfl, rfl, rfl, rfl, Or.inr ⟨by assumption, by omega, rfl, rfl⟩⟩
  · cases h
    exact ⟨rfl, rfl, rfl, rfl, Or.inl ⟨by omega, rfl, rfl⟩⟩

theorem turn_ok {c : Cfg} {p q : Peer} {i : Input} {e : Env} {out : List Effect}
    (h : p.turn c i e = .ok (q, out)) :
    ∃ p1 o1 p2, p.handle c i e = .ok (p1, o1) ∧ p1.purge e.purgeNow = .ok p2 ∧ q = (p2.finish e).1 ∧
      out = o1 ++ (p2.batch e).map (fun id => .send (.new id)) := by
  unfold Peer.turn at h
  cases hh : p.handle c i e with
  | error x => rw [hh] at h; cases h
  | ok r =>
    rw [hh] at h
    simp only [show ∀ (x : Peer × List Effect) (f : Peer × List Effect → Except Panic (Peer × List Effect)),
      (Except.ok x >>= f) = f x from fun _ _ => rfl] at h
    cases hp : r.1.purge e.purgeNow with
    | error x => rw [hp] at h; cases h
    | ok q' =>
      rw [hp] at h
      have h := Except.ok.inj h
      refine ⟨r.1, r.2, q', rfl, hp, (congrArg Prod.fst h).symm, ?_⟩
      rw [← finish_out]
      exact (congrArg Prod.snd h).symm

theorem enqueue_state (c : Cfg) (ids : List Nat) (p : Peer) :
    (p.enqueue c ids).service = p.service ∧ (p.enqueue c ids).known = p.known ∧
    (p.enqueue c ids).requested = p.requested ∧ (p.enqueue c ids).nextPurge = p.nextPurge ∧
    (p.enqueue c ids).nextAnnounce = p.nextAnnounce ∧
    ∀ id, (p.enqueue c ids).toAnnounce.get id = some () ↔
      p.toAnnounce.get id = some () ∨ (p.service = true ∧ id ∈ ids ∧ p.known.contains c.fp id = false) := by
  unfold Peer.enqueue
  split
  · rename_i hs
    induction ids generalizing p with
    | nil => simp
    | cons x t ih =>
      have hone : (Peer.enqueueOne c p x).service = p.service ∧ (Peer.enqueueOne c p x).known = p.known ∧
          (Peer.enqueueOne c p x).requested = p.requested ∧ (Peer.enqueueOne c p x).nextPurge = p.nextPurge ∧
          (Peer.enqueueOne c p x).nextAnnounce = p.nextAnnounce ∧
          ∀ id, (Peer.enqueueOne c p x).toAnnounce.get id = some () ↔
            p.toAnnounce.get id = some () ∨ (id = x ∧ p.known.contains c.fp id = false) := by
        unfold Peer.enqueueOne
        split
        · rename_i hk
          refine ⟨rfl, rfl, rfl, rfl, rfl, fun id => ⟨Or.inl, ?_⟩⟩
          rintro (h | ⟨rfl, h⟩)
          · exact h
          · rw [hk] at h; cases h
        · rename_i hk
          refine ⟨rfl, rfl, rfl, rfl, rfl, fun id => ?_⟩
          rw [BMap.get_insert]
          by_cases e : id = x
          · subst e; simp [hk]
          · simp [e]
      obtain ⟨a1, a2, a3, a4, a5, a6⟩ := hone
      obtain ⟨b1, b2, b3, b4, b5, b6⟩ := ih (Peer.enqueueOne c p x) (by rw [a1]; exact hs)
      rw [List.foldl_cons]
      refine ⟨b1.trans a1, b2.trans a2, b3.trans a3, b4.trans a4, b5.trans a5, fun id => ?_⟩
      rw [b6, a6, a1, a2, List.mem_cons]
      simp only [hs, true_and]
      tauto
  · rename_i hs
    refine ⟨rfl, rfl, rfl, rfl, rfl, fun id => ⟨Or.inl, ?_⟩⟩
    rintro (h | ⟨h, _⟩)
    · exact h
    · exact absurd h hs

/-! ### Handling one input -/

/-- What handling one input can do. -/
inductive Did (c : Cfg) (p : Peer) (e : Env) : Input → Peer → List Effect → Prop
  /-- an announcement that is not followed by a request -/
  | heard (id : Nat) (out : List Effect) (ho : out = [] ∨ (out = [.score unexpectedScore] ∧ p.service = false))
      (hn : ¬ (e.ibd = false ∧ p.service = true ∧ p.requested.get id = none ∧ p.requested.size < c.maxRequests ∧
        e.tx id = none)) :
      Did c p e (.msg (.new id)) (p.addKnown id) out
  /-- an announcement that is followed by a request -/
  | asked (id : Nat) (h1 : e.ibd = false) (h2 : p.service = true) (h3 : p.requested.get id = none)
      (h4 : p.requested.size < c.maxRequests) (h5 : e.tx id = none) :
      Did c p e (.msg (.new id)) { p.addKnown id with requested := p.requested.insert id e.now } [.send (.request id)]
  | refused (id : Nat) (h : p.service = false) : Did c p e (.msg (.request id)) p [.score unexpectedScore]
  | gave (id : Nat) (tx : Tx) (h : p.service = true) (ht : e.tx id = some tx) :
      Did c p e (.msg (.request id)) p [.send (.found tx), .sent id]
  | lacked (id : Nat) (h : p.service = true) (ht : e.tx id = none) :
      Did c p e (.msg (.request id)) p [.send (.notFound id)]
  | ignored (tx : Tx) (h : p.requested.get tx.id = none) : Did c p e (.msg (.found tx)) p []
  | got (tx : Tx) (t : Nat) (rest : List Effect) (h : p.requested.get tx.id = some t)
      (hr : (rest = [.valid tx.id] ∧ e.add tx = .ok .inMempool) ∨ rest = [] ∨
        ∃ s, rest = [.score s] ∧ 0 < s ∧ e.add tx = .error (.other s)) :
      Did c p e (.msg (.found tx)) { p with requested := p.requested.erase tx.id } (.submit tx :: rest)
  | missing (id : Nat) : Did c p e (.msg (.notFound id)) { p with requested := p.requested.erase id } []
  | told (ids : List Nat) : Did c p e (.event ids) (p.enqueue c ids) []
  | tick : Did c p e .tick p []

theorem handle_ok {c : Cfg} {p q : Peer} {i : Input} {e : Env} {out : List Effect}
    (h : p.handle c i e = .ok (q, out)) : Did c p e i q out := by
  unfold Peer.handle at h
  split at h
  · rename_i id
    unfold Peer.handleNew at h
    simp only at h
    have hs : (p.addKnown id).service = p.service := rfl
    have hr : (p.addKnown id).requested = p.requested := rfl
    rw [hs, hr] at h
    split at h
    · rename_i h1
      cases h
      exact .heard id [] (Or.inl rfl) (fun x => by rw [h1] at x; cases x.1)
    · rename_i h1
      split at h
      · rename_i h2
        cases h
        exact .heard id _ (Or.inr ⟨rfl, by simpa using h2⟩) (fun x => h2 x.2.1)
      · rename_i h2
        split at h
        · rename_i h3
          cases h
          exact .heard id [] (Or.inl rfl) (fun x => by simp [BMap.contains, x.2.2.1] at h3)
        · rename_i h3
          split at h
          · rename_i h4
            cases h
            exact .heard id [] (Or.inl rfl) (fun x => by have := x.2.2.2.1; omega)
          · rename_i h4
            split at h
            · rename_i h5
              cases h
              exact .heard id [] (Or.inl rfl) (fun x => by rw [x.2.2.2.2] at h5; cases h5)
            · rename_i h5
              cases h
              exact .asked id (by simpa using h1) (by simpa using h2) (by simpa [BMap.contains] using h3) (by omega)
                (by simpa using h5)
  · rename_i id
    have h := Except.ok.inj h
    unfold Peer.handleRequest at h
    split at h
    · rename_i h1
      cases h
      exact .refused id (by simpa using h1)
    · rename_i h1
      split at h
      · rename_i tx ht
        cases h
        exact .gave id tx (by simpa using h1) ht
      · rename_i ht
        cases h
        exact .lacked id (by simpa using h1) ht
  · rename_i tx
    have h := Except.ok.inj h
    unfold Peer.handleResponse at h
    split at h
    · rename_i h1
      cases h
      exact .ignored tx h1
    · rename_i t h1
      simp only at h
      split at h
      · rename_i ha
        cases h
        exact .got tx t _ h1 (Or.inl ⟨rfl, ha⟩)
      · cases h
        exact .got tx t _ h1 (Or.inr (Or.inl rfl))
      · rename_i err ha
        cases err with
        | full =>
          cases h
          exact .got tx t _ h1 (Or.inr (Or.inl rfl))
        | other s =>
          simp only [PoolErr.effects] at h
          split at h
          · rename_i hs
            cases h
            exact .got tx t _ h1 (Or.inr (Or.inr ⟨s, rfl, hs, ha⟩))
          · cases h
            exact .got tx t _ h1 (Or.inr (Or.inl rfl))
  · rename_i id
    have h := Except.ok.inj h
    unfold Peer.handleResponse at h
    split at h
    · rename_i h1
      cases h
      have := Did.missing (c := c) (p := p) (e := e) id
      rwa [BMap.erase_of_none h1] at this
    · cases h
      exact .missing id
  · cases h
    exact .told _
  · cases h
    exact .tick

/-- Handling never panics. -/
theorem handle_isOk (c : Cfg) (p : Peer) (i : Input) (e : Env) : ∃ r, p.handle c i e = .ok r := by
  unfold Peer.handle
  split
  · unfold Peer.handleNew
    simp only
    repeat' split
    all_goals first | exact ⟨_, rfl⟩ | (exfalso; contradiction)
  all_goals exact ⟨_, rfl⟩

theorem Did.service {c : Cfg} {p q : Peer} {e : Env} {i : Input} {out : List Effect} (d : Did c p e i q out) :
    q.service = p.service ∧ q.nextPurge = p.nextPurge ∧ q.nextAnnounce = p.nextAnnounce := by
  cases d with
  | told ids =>
    obtain ⟨h1, _, _, h4, h5, _⟩ := enqueue_state c ids p
    exact ⟨h1, h4, h5⟩
  | _ => exact ⟨rfl, rfl, rfl⟩

/-- Handling an input announces nothing. -/
theorem Did.no_new {c : Cfg} {p q : Peer} {e : Env} {i : Input} {out : List Effect} (d : Did c p e i q out)
    (id : Nat) : .send (.new id) ∉ out := by
  cases d with
  | heard _ _ ho _ => rcases ho with rfl | ⟨rfl, _⟩ <;> simp
  | got _ _ _ _ hr => rcases hr with ⟨rfl, _⟩ | rfl | ⟨_, rfl, _⟩ <;> simp
  | _ => simp

end Verif.Relay
