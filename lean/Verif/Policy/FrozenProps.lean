import Verif.Policy.FrozenChain

/-!
# C56: frozen tokens do not move
-/

namespace Verif.Policy
open Verif
open Verif.Verifier (Ledger Block Env NewChain ChainInRange connect_step connects_append)
open Verif.Utxo (OutPoint Coin)

/-- what is left of an order to be paid, and to be given -/
def orderLeft (l : Ledger) (i : Nat) : Nat × Nat := ((l.orders.ask.get i).getD 0, (l.orders.give.get i).getD 0)

namespace Node
variable {N : Node} {env : Env}

theorem rest_of_chain : ∀ {bs cs : List Block} {l l1 : Ledger}, l.WF → NewChain l (bs ++ cs) → ChainInRange env l (bs ++ cs) →
    l.connects env bs = .ok l1 → l1.WF ∧ NewChain l1 cs ∧ ChainInRange env l1 cs
  | [], cs, l, l1, hw, hn, hr, h => by cases h; exact ⟨hw, hn, hr⟩
  | b :: bs, cs, l, l1, hw, hn, hr, h => by
    simp only [Ledger.connects, bind_eq_ok] at h
    obtain ⟨l2, h1, h2⟩ := h
    obtain ⟨w1, n1, -⟩ := connect_step hw hn hr.1 h1
    exact rest_of_chain w1 n1 (hr.2 l2 h1) h2

/-- A chain, and a token that is frozen after its first part: the rest of the chain does not unfreeze it (unless it can not be unfrozen
anyway). -/
structure Frozen (N : Node) (env : Env) (l0 l l' : Ledger) (bs cs : List Block) (id : Nat) (d : Tokens.TokenData) : Prop where
  wf : l0.WF
  origin : Origin l0
  fine : ∃ txs, Fine N l0 (bs ++ cs) txs
  first : l0.connects env bs = .ok l
  rest : l.connects env cs = .ok l'
  data : l.tokens.data.get id = some d
  frozen : d.isFrozen = true
  noUnfreeze : (∃ b ∈ cs, Unfreezes id b) → d.frozen = .yes false

theorem Frozen.untouched (he : N.Enforces env) {l0 l l' : Ledger} {bs cs : List Block} {id : Nat} {d : Tokens.TokenData}
    (h : Frozen N env l0 l l' bs cs id d) : Untouched N.read (∀ b ∈ cs, N.frozenV1 b.src = true) id l.st l'.st := by
  obtain ⟨txs, hf⟩ := h.fine
  have hc : l0.connects env (bs ++ cs) = .ok l' := by rw [connects_append, h.first]; exact h.rest
  obtain ⟨w1, n1, r1⟩ := rest_of_chain h.wf (hf.sound he h.origin hc).new (C57_node_in_range he h.wf h.origin hf hc).1 h.first
  exact chain_untouched he h.frozen cs w1 n1 (described he h.rest) r1 (fun h => h) h.data h.noUnfreeze h.rest

/-- **C56**.  As long as a token is frozen, what is recorded about it does not change – its supply, its authority, whether its supply is
locked, where its metadata are – and it remains frozen. -/
theorem C56_record (he : N.Enforces env) {l0 l l' : Ledger} {bs cs : List Block} {id : Nat} {d : Tokens.TokenData}
    (h : Frozen N env l0 l l' bs cs id d) : l'.tokens.data.get id = some d ∧ l'.supply id = l.supply id :=
  ⟨(h.untouched he).data.trans h.data, (h.untouched he).supply⟩

/-- **C56**.  As long as a token is frozen, the unspent outputs that hold units of it are the same: none is spent, none is made. -/
theorem C56_outputs (he : N.Enforces env) {l0 l l' : Ledger} {bs cs : List Block} {id : Nat} {d : Tokens.TokenData}
    (h : Frozen N env l0 l l' bs cs id d) (hv : ∀ b ∈ cs, N.frozenV1 b.src = true) (o : OutPoint) (x : Coin)
    (hx : 0 < units id (N.read x.output.content)) : l'.utxo.utxos.get o = some x ↔ l.utxo.utxos.get o = some x :=
  ⟨(h.untouched he).noOutput o x hx, (h.untouched he).output hv o x hx⟩

/-- **C56**.  As long as a token is frozen, no order can be made that trades it; the orders that do keep their balances, and nobody can fill or
conclude them.  (They can be frozen themselves.) -/
theorem C56_orders (he : N.Enforces env) {l0 l l' : Ledger} {bs cs : List Block} {id : Nat} {d : Tokens.TokenData}
    (h : Frozen N env l0 l l' bs cs id d) (i : Nat) :
    (∀ x, l.orders.data.get i = some x → Trades id x →
      (∃ f, l'.orders.data.get i = some { x with isFrozen := f }) ∧ orderLeft l' i = orderLeft l i) ∧
    ∀ x, l'.orders.data.get i = some x → Trades id x → ∃ y, l.orders.data.get i = some y ∧ Trades id y := by
  refine ⟨fun x h1 h2 => ?_, (h.untouched he).noOrder i⟩
  obtain ⟨a, b, c⟩ := (h.untouched he).order i x h1 h2
  exact ⟨a, Prod.ext b c⟩

/-- **C56**.  With the first version of the check (on mainnet below height 254,740, builder.rs 95-101), units of a frozen token can still not get anywhere: outputs
holding some may only disappear. -/
theorem C56_outputs_v0 (he : N.Enforces env) {l0 l l' : Ledger} {bs cs : List Block} {id : Nat} {d : Tokens.TokenData}
    (h : Frozen N env l0 l l' bs cs id d) (o : OutPoint) (x : Coin) (hx : 0 < units id (N.read x.output.content))
    (ho : l'.utxo.utxos.get o = some x) : l.utxo.utxos.get o = some x :=
  (h.untouched he).noOutput o x hx ho

end Node
end Verif.Policy
