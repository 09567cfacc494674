import Verif.Policy.Node
import Verif.Policy.PolicyProps
import Verif.Verifier.ValueProps
import Verif.Verifier.ReplayProps
import Verif.Ids.Props
import Verif.Codec.Fits

/-!
# Lemmas for C55
-/

namespace Verif.Policy
open Verif
open Verif.Codec
open Verif.Verifier (Src Effect Out Tx Block Views Env)

theorem num_pos : ∀ b : Bytes, 1 ≤ num b
  | [] => le_refl _
  | b :: bs => by have := num_pos bs; simp only [num]; omega

theorem unnumUpTo_num : ∀ (b : Bytes) (f : Nat), num b ≤ f → unnumUpTo f (num b) = b
  | [], 0, _ => rfl
  | [], f + 1, _ => rfl
  | b :: bs, f, hf => by
    have h1 := num_pos bs
    have h2 : b.toNat < 256 := b.toNat_lt
    have h3 : ¬ num (b :: bs) < 256 := by simp only [num]; omega
    have h4 : num (b :: bs) % 256 = b.toNat := by simp only [num]; omega
    have h5 : num (b :: bs) / 256 = num bs := by simp only [num]; omega
    cases f with
    | zero => omega
    | succ f =>
      rw [unnumUpTo, if_neg h3, h4, h5, unnumUpTo_num bs f (by simp only [num] at hf; omega)]
      simp

theorem unnum_num (b : Bytes) : unnum (num b) = b := unnumUpTo_num b _ (le_refl _)

theorem num_inj {a b : Bytes} (h : num a = num b) : a = b := by rw [← unnum_num a, h, unnum_num]

theorem outpoint_inj {a b : UtxoOutPoint} (h : outpoint a = outpoint b) : a = b := by
  obtain ⟨⟨a⟩, i⟩ := a <;> obtain ⟨⟨b⟩, j⟩ := b <;>
    simp only [outpoint, Utxo.txOut, Utxo.rewardOut, EmbeddingLike.apply_eq_iff_eq, Prod.mk.injEq] at h
  · obtain ⟨⟨-, h⟩, rfl⟩ := h; rw [num_inj h]
  · exact absurd h.1.1 (by decide)
  · exact absurd h.1.1 (by decide)
  · obtain ⟨⟨-, h⟩, rfl⟩ := h; rw [num_inj h]

theorem exists_left {α β : Type} {R : α → β → Prop} {l : List α} {m : List β} (h : List.Forall₂ R l m) {b : β} (hb : b ∈ m) :
    ∃ a ∈ l, R a b := by
  induction h with
  | nil => cases hb
  | cons hx _ ih =>
    rcases List.mem_cons.1 hb with rfl | hb
    · exact ⟨_, by simp, hx⟩
    · obtain ⟨a, ha, hr⟩ := ih hb
      exact ⟨a, by simp [ha], hr⟩

namespace Node
variable {N : Node}

theorem output_content {o : TxOutput} (h : (TxOutput.codec N.k).ok o) : N.output (N.content o) = some o := by
  unfold output content
  rw [unnum_num]
  have := (TxOutput.lawful N.k).round o [] h
  rw [List.append_nil] at this
  unfold Codec.decodeAll
  rw [this]

theorem read_content {o : TxOutput} (h : (TxOutput.codec N.k).ok o) : N.read (N.content o) = accOut N.k o := by
  unfold read; rw [output_content h]

theorem read_of {n : Nat} {o : TxOutput} (h : N.output n = some o) : N.read n = accOut N.k o := by unfold read; rw [h]

theorem outpoint_input {i : TxInput} : (input N.k i).outpoint = (Ids.utxoOutpoint i).map outpoint := by
  cases i with
  | utxo o => rfl
  | account a => obtain ⟨n, ⟨d, a⟩⟩ := a; rfl
  | accountCommand n c => cases c <;> rfl
  | orderAccountCommand c => cases c <;> rfl

theorem isCommand_input {i : TxInput} : (input N.k i).isCommand = isCommand i := by
  cases i with
  | utxo o => rfl
  | account a => obtain ⟨n, ⟨d, a⟩⟩ := a; rfl
  | accountCommand n c => cases c <;> rfl
  | orderAccountCommand c => cases c <;> rfl

theorem accepted_of_lock {o : TxOutput} {v d l} (h : o = .lockThenTransfer v d l) : accOut N.k o = .lockThenTransfer (value v) (timeLock l) := by
  subst h; rfl

/-- the outputs of a described transaction, one by one -/
theorem tx_some {s : Src} {c : TransactionV1} {t : Tx} (h : N.tx s c = some t) :
    t.id = num (Ids.transactionId N.k N.H c) ∧ t.inputs = c.inputs.map (input N.k) ∧
    List.Forall₂ (fun o x => N.out s c.inputs o = some x) c.outputs t.outputs := by
  unfold tx at h
  rw [Option.map_eq_some_iff] at h
  obtain ⟨os, ho, rfl⟩ := h
  refine ⟨rfl, rfl, ?_⟩
  generalize c.outputs = l at ho
  induction l generalizing os with
  | nil => simp only [List.mapM_nil, Option.pure_def, Option.some.injEq] at ho; subst ho; exact .nil
  | cons o l ih =>
    simp only [List.mapM_cons, Option.bind_eq_bind, Option.bind_eq_some_iff, Option.pure_def, Option.some.injEq] at ho
    obtain ⟨x, hx, xs, hxs, rfl⟩ := ho
    exact .cons hx (ih xs hxs)

theorem out_some {s : Src} {is : List TxInput} {o : TxOutput} {x : Out} (h : N.out s is o = some x) :
    x.out = N.coin o ∧ N.effect s is o = some x.effect := by
  unfold out at h
  rw [Option.map_eq_some_iff] at h
  obtain ⟨e, he, rfl⟩ := h
  exact ⟨rfl, he⟩

theorem fits_output {s : Src} {is : List TxInput} {o : TxOutput} {x : Out} (hok : (TxOutput.codec N.k).ok o)
    (h : N.out s is o = some x) : Verifier.Fits x.effect (N.read x.out.content) x.out.inUtxoSet := by
  obtain ⟨h1, h2⟩ := out_some h
  rw [h1]
  show Verifier.Fits x.effect (N.read (N.content o)) (inUtxoSet o)
  rw [read_content hok]
  clear h1 h hok
  obtain ⟨y, e⟩ := x
  simp only at h2 ⊢
  cases o with
  | burn v =>
    cases v <;> simp only [effect, Option.some.injEq] at h2 <;> subst h2 <;> simp [Verifier.Fits, accOut, inUtxoSet, value]
  | createStakePool p d =>
    simp only [effect, Option.some.injEq] at h2; subst h2
    exact ⟨d.pledge, rfl, rfl, rfl, rfl⟩
  | createDelegationId d p =>
    simp only [effect, Option.map_eq_some_iff] at h2
    obtain ⟨id, -, rfl⟩ := h2
    exact ⟨rfl, rfl⟩
  | issueFungibleToken t =>
    simp only [effect, Option.map_eq_some_iff] at h2
    obtain ⟨id, -, rfl⟩ := h2
    exact ⟨rfl, rfl⟩
  | createOrder d =>
    simp only [effect, Option.map_eq_some_iff] at h2
    obtain ⟨id, -, rfl⟩ := h2
    exact ⟨rfl, rfl⟩
  | _ => simp only [effect, Option.some.injEq] at h2; subst h2; simp [Verifier.Fits, accOut, inUtxoSet]

theorem tx_fits {c : TransactionV1} (h : (TransactionV1.codec N.k).ok c) : (∀ i ∈ c.inputs, i.Fits N.k) ∧
    ∀ o ∈ c.outputs, (TxOutput.codec N.k).ok o := by
  have := (TransactionV1.ok_iff N.k c).1 h
  simp only [TransactionV1.Fits] at this
  refine ⟨?_, ?_⟩
  · grind
  · intro o ho
    rw [TxOutput.ok_iff]
    grind

theorem signed_ok {c : SignedTransaction} (h : (SignedTransaction.codec N.k).ok c) : (TransactionV1.codec N.k).ok c.transaction := by
  have := (SignedTransaction.ok_iff N.k c).1 h
  rw [TransactionV1.ok_iff]
  exact this.1

theorem reads {s : Src} {c : TransactionV1} {t : Tx} (hok : (TransactionV1.codec N.k).ok c) (h : N.tx s c = some t) :
    (t.outputs.map fun o => N.read o.out.content) = c.outputs.map (accOut N.k) := by
  obtain ⟨-, -, h⟩ := tx_some h
  have := (tx_fits hok).2
  revert this
  generalize c.outputs = l at h
  generalize t.outputs = m at h
  intro hl
  induction h with
  | nil => rfl
  | cons hx _ ih =>
    simp only [List.map_cons]
    rw [ih fun o ho => hl o (by simp [ho])]
    rw [(out_some hx).1]
    exact congrArg (· :: _) (read_content (hl _ (by simp)))

end Node
end Verif.Policy
