import Verif.Cache.Desc

/-!
# Running histories

The conditions of `Run` and `Calm` as computations, so that concrete histories can be run.
-/

namespace Verif.Cache
open Verif

/-- a condition for all transactions the cache has -/
def Cache.allTxs (c : Cache) (p : WTx → Bool) : Bool := c.txs.entries.all fun e => p e.2

theorem allTxs_spec {c : Cache} {p : WTx → Bool} (h : c.allTxs p = true) {t : WTx} (ht : c.Knows t) : p t = true :=
  List.all_eq_true.1 h (t.id, t) (BMap.mem_entries.2 ht)

/-- two transactions spend no common output -/
def disjointB (a b : WTx) : Bool := a.inputs.all fun i => match i with
  | .utxo o => !decide (Inp.utxo o ∈ b.inputs)
  | _ => true

theorem disjointB_spec {a b : WTx} (h : disjointB a b = true) (o : OutPoint) (ho : a.Spends o) : ¬ b.Spends o := by
  have := List.all_eq_true.1 h _ ho
  intro hb
  have h2 : Inp.utxo o ∈ b.inputs := hb
  simp [h2] at this

def undisputedB (c : Cache) (t : WTx) : Bool := c.allTxs fun e => !decide e.state.IsConfirmed || decide (e.id = t.id) || disjointB t e

theorem undisputedB_spec {c : Cache} {t : WTx} (h : undisputedB c t = true) : Undisputed c t := by
  intro e he hc hne o ho
  have := allTxs_spec h he
  simp only [hc, hne, decide_true, decide_false, Bool.not_true, Bool.false_or] at this
  exact disjointB_spec this o ho

def sameB (c : Cache) (t : WTx) : Bool := c.allTxs fun e => !decide (e.id = t.id) || (decide (e.inputs = t.inputs) && decide (e.outputs = t.outputs))

theorem sameB_spec {c : Cache} {t : WTx} (h : sameB c t = true) : SameContents c t := by
  intro e he heq
  have := allTxs_spec h he
  simpa [heq] using this

def marksB (c c' : Cache) : Bool := c.allTxs fun e => c'.allTxs fun e' => !decide (e.id = e'.id) || !decide e.state.IsLive || !decide e'.state.IsDead || undisputedB c e

theorem marksB_spec {c c' : Cache} (h : marksB c c' = true) : MarksUndisputed c c' := by
  intro e e' he he' heq hl hd
  have := allTxs_spec (allTxs_spec h he) he'
  simp only [heq, hl, hd, decide_true, Bool.not_true, Bool.false_or] at this
  exact undisputedB_spec this

def noDoubleB (c : Cache) : Bool := c.allTxs fun a => c.allTxs fun b => decide (a.id = b.id) || disjointB a b

theorem noDoubleB_spec {c : Cache} (h : noDoubleB c = true) : NoDoubleSpend c := by
  intro a b ha hb hne o ho
  have := allTxs_spec (allTxs_spec h ha) hb
  simp only [hne, decide_false, Bool.false_or] at this
  exact disjointB_spec this o ho

/-- no input of the transaction is an output of the other -/
def notFromB (a b : WTx) : Bool := a.inputs.all fun i => match i with
  | .utxo o => !decide ((ofLex o).1 = b.id)
  | _ => true

theorem notFromB_spec {a b : WTx} (h : notFromB a b = true) (o : OutPoint) (ho : a.Spends o) : (ofLex o).1 ≠ b.id := by
  have := List.all_eq_true.1 h _ ho
  simpa using this

def orderB : List WTx → Bool
  | [] => true
  | a :: l => (l.all fun b => !decide (a.id = b.id) && disjointB a b && notFromB a b) && orderB l

theorem orderB_spec : ∀ {l : List WTx}, orderB l = true → l.Pairwise fun a b => a.id ≠ b.id ∧ (∀ o, a.Spends o → ¬ b.Spends o) ∧ ∀ o, a.Spends o → (ofLex o).1 ≠ b.id
  | [], _ => List.Pairwise.nil
  | a :: l, h => by
    rw [orderB, Bool.and_eq_true] at h
    refine List.pairwise_cons.2 ⟨?_, orderB_spec h.2⟩
    intro b hb
    have := List.all_eq_true.1 h.1 b hb
    simp only [Bool.and_eq_true, Bool.not_eq_true', decide_eq_false_iff_not] at this
    exact ⟨this.1.1, disjointB_spec this.1.2, notFromB_spec this.2⟩

def validB (l : List WTx) : Bool := (l.all fun t => decide t.state.IsConfirmed) && orderB l

theorem validB_spec {l : List WTx} (h : validB l = true) : ValidChain l := by
  rw [validB, Bool.and_eq_true] at h
  exact ⟨fun t ht => by simpa using List.all_eq_true.1 h.1 t ht, orderB_spec h.2⟩

/-- the steps of a history -/
inductive Op
  | connect (t : WTx) (block : Nat)
  | cut (h : Nat)
  | unconfirmed (t : WTx)
  | offline
  | abandon (id : Nat)
  | restart

/-- the transactions the database has, in the order of their ids -/
def Cache.stored (c : Cache) : List WTx := c.txs.entries.map (·.2)

/-- the step is one that `Run` allows (the heights of the best block play no role here) -/
def allowed (s : List WTx × Cache) (c' : Cache) : Op → Bool
  | .connect t _ => validB (s.1 ++ [t]) && sameB s.2 t && marksB s.2 c'
  | .cut _ => true
  | .unconfirmed t => decide t.state.IsPending && sameB s.2 t && undisputedB s.2 t
  | .offline => true
  | .abandon _ => marksB s.2 c'
  | .restart => s.2.allTxs (undisputedB s.2)

/-- the cache after a step -/
def next (cfg : Cfg) (c : Cache) : Op → Except Err Cache
  | .connect t b => connect cfg 0 c t b
  | .cut h => resetTo cfg c h
  | .unconfirmed t => addIfRelevant cfg 0 c t
  | .offline => .ok (resetMempool c)
  | .abandon id => abandon cfg c id
  | .restart => reload cfg 0 (sortTxs c.stored)

/-- the chain after a step -/
def chainAfter (chain : List WTx) : Op → List WTx
  | .connect t _ => chain ++ [t]
  | .cut h => chain.filter fun t => t.heightLe h
  | _ => chain

/-- one step of a history that `Run` allows; `strict`: without double spending -/
def exec (cfg : Cfg) (strict : Bool) (s : List WTx × Cache) (op : Op) : Option (List WTx × Cache) :=
  match next cfg s.2 op with
  | .error _ => none
  | .ok c' => if allowed s c' op && (!strict || noDoubleB c') then some (chainAfter s.1 op, c') else none

/-- a whole history -/
def execAll (cfg : Cfg) (strict : Bool) (ops : List Op) : Option (List WTx × Cache) := ops.foldlM (exec cfg strict) ([], {})

/-- the steps, whether they are allowed or not -/
def runAll (cfg : Cfg) (ops : List Op) : Except Err Cache := ops.foldlM (next cfg) {}

theorem stored_perm {c : Cache} (hk : Keyed c) : Stored c (sortTxs c.stored) := by
  have hperm : (sortTxs c.stored).Perm c.stored := List.perm_insertionSort _ _
  refine ⟨hperm.nodup_iff.2 ?_, ?_⟩
  · unfold Cache.stored
    refine List.pairwise_map.2 (List.Pairwise.imp_of_mem ?_ c.txs.sorted)
    intro a b ha hb hlt heq
    have h1 := hk _ _ (BMap.mem_entries.1 ha)
    have h2 := hk _ _ (BMap.mem_entries.1 hb)
    rw [heq, h2] at h1
    exact absurd h1.symm (ne_of_lt hlt)
  · intro t
    rw [hperm.mem_iff, Cache.stored, List.mem_map]
    constructor
    · rintro ⟨⟨k, e⟩, h1, rfl⟩
      have h2 := BMap.mem_entries.1 h1
      have h3 := hk _ _ h2
      unfold Cache.Knows
      rw [h3]
      exact h2
    · intro h1
      exact ⟨(t.id, t), BMap.mem_entries.2 h1, rfl⟩

/-- what the caches of a run satisfy -/
def Guard (strict : Bool) (c : Cache) : Prop := strict = true → NoDoubleSpend c

theorem exec_sound {cfg : Cfg} {strict : Bool} {s s' : List WTx × Cache} {op : Op} (hr : Run cfg (Guard strict) s.1 s.2) (h : exec cfg strict s op = some s') :
    Run cfg (Guard strict) s'.1 s'.2 := by
  unfold exec at h
  cases hn : next cfg s.2 op with
  | error e => rw [hn] at h; cases h
  | ok c' =>
    rw [hn] at h
    dsimp only at h
    split at h
    · rename_i hc
      cases h
      rw [Bool.and_eq_true] at hc
      obtain ⟨ha, hg⟩ := hc
      have hG : Guard strict c' := by
        intro hs
        subst hs
        exact noDoubleB_spec (by simpa using hg)
      cases op with
      | connect t b =>
        simp only [allowed, Bool.and_eq_true] at ha
        exact Run.connect 0 b t hr (validB_spec ha.1.1) (sameB_spec ha.1.2) hn (marksB_spec ha.2) hG
      | cut h => exact Run.cut h hr hn hG
      | unconfirmed t =>
        simp only [allowed, Bool.and_eq_true, decide_eq_true_eq] at ha
        exact Run.unconfirmed 0 t hr ha.1.1 (sameB_spec ha.1.2) (undisputedB_spec ha.2) hn hG
      | offline =>
        cases hn
        exact Run.offline hr hG
      | abandon id => exact Run.abandon id hr hn (marksB_spec ha) hG
      | restart =>
        exact Run.restart 0 _ hr (stored_perm hr.inv.keyed) (fun t ht => undisputedB_spec (allTxs_spec ha ht)) hn hG
    · cases h

theorem execAll_sound' {cfg : Cfg} {strict : Bool} : ∀ {ops : List Op} {s s' : List WTx × Cache}, Run cfg (Guard strict) s.1 s.2 → ops.foldlM (exec cfg strict) s = some s' →
    Run cfg (Guard strict) s'.1 s'.2
  | [], s, s', hr, h => by
    cases h
    exact hr
  | op :: ops, s, s', hr, h => by
    rw [List.foldlM_cons, Option.bind_eq_bind, Option.bind_eq_some_iff] at h
    obtain ⟨s1, h1, h2⟩ := h
    exact execAll_sound' (exec_sound hr h1) h2

theorem execAll_sound {cfg : Cfg} {strict : Bool} {ops : List Op} {chain : List WTx} {c : Cache} (h : execAll cfg strict ops = some (chain, c)) :
    Run cfg (Guard strict) chain c :=
  execAll_sound' (s := ([], {})) Run.start h

theorem Run.mono {cfg : Cfg} {G G' : Cache → Prop} (hG : ∀ c, G c → G' c) {chain : List WTx} {c : Cache} (h : Run cfg G chain c) : Run cfg G' chain c := by
  induction h with
  | start => exact .start
  | connect best block t _ hv hs hc hm hg ih => exact .connect best block t ih hv hs hc hm (hG _ hg)
  | cut h _ hc hg ih => exact .cut h ih hc (hG _ hg)
  | unconfirmed best t _ hp hs hu ha hg ih => exact .unconfirmed best t ih hp hs hu ha (hG _ hg)
  | offline _ hg ih => exact .offline ih (hG _ hg)
  | abandon id _ ha hm hg ih => exact .abandon id ih ha hm (hG _ hg)
  | restart best l _ hl hu hr hg ih => exact .restart best l ih hl hu hr (hG _ hg)

theorem execAll_strict {cfg : Cfg} {ops : List Op} {chain : List WTx} {c : Cache} (h : execAll cfg true ops = some (chain, c)) : Run cfg NoDoubleSpend chain c :=
  (execAll_sound h).mono fun _ hg => hg rfl

/-- one step of a calm history -/
def calmB (c : Cache) : Op → Bool
  | .connect t _ => decide t.state.IsConfirmed
  | .unconfirmed t => decide t.state.IsPending && (c.allTxs fun p => !decide p.state.IsDead || notFromB t p) &&
      ((c.txs.get t.id).isSome || c.allTxs fun e => !decide e.state.IsPending || notFromB e t)
  | .offline => true
  | .abandon _ => true
  | _ => false

def execCalm (cfg : Cfg) (c : Cache) (op : Op) : Option Cache :=
  match next cfg c op with
  | .error _ => none
  | .ok c' => if calmB c op then some c' else none

theorem execCalm_sound {cfg : Cfg} {c c' : Cache} {op : Op} (hr : Calm cfg c) (h : execCalm cfg c op = some c') : Calm cfg c' := by
  unfold execCalm at h
  cases hn : next cfg c op with
  | error e => rw [hn] at h; cases h
  | ok c1 =>
    rw [hn] at h
    dsimp only at h
    split at h
    · rename_i hc
      cases h
      cases op with
      | connect t b => exact .connect 0 b t hr (by simpa [calmB] using hc) hn
      | cut h => cases hc
      | unconfirmed t =>
        simp only [calmB, Bool.and_eq_true, decide_eq_true_eq] at hc
        refine .unconfirmed 0 t hr hc.1.1 ?_ ?_ hn
        · intro p hp o ho hop hd
          have := allTxs_spec hc.1.2 hp
          simp only [hd, decide_true, Bool.not_true, Bool.false_or] at this
          exact notFromB_spec this o ho hop
        · intro hnone e he hpend o ho
          have h1 := hc.2
          simp only [hnone, Option.isSome_none, Bool.false_or] at h1
          have := allTxs_spec h1 he
          simp only [hpend, decide_true, Bool.not_true, Bool.false_or] at this
          exact notFromB_spec this o ho
      | offline =>
        cases hn
        exact .offline hr
      | abandon id => exact .abandon id hr hn
      | restart => cases hc
    · cases h

theorem execCalm_all {cfg : Cfg} : ∀ {ops : List Op} {c c' : Cache}, Calm cfg c → ops.foldlM (execCalm cfg) c = some c' → Calm cfg c'
  | [], s, s', hr, h => by
    cases h
    exact hr
  | op :: ops, s, s', hr, h => by
    rw [List.foldlM_cons, Option.bind_eq_bind, Option.bind_eq_some_iff] at h
    obtain ⟨s1, h1, h2⟩ := h
    exact execCalm_all (execCalm_sound hr h1) h2

end Verif.Cache
