import Verif.Policy.CheckTxSpec
import Mathlib.Data.List.Nodup

/-!
# C53: which transactions `check_transaction` accepts, and what its errors mean
-/

set_option maxRecDepth 100000

namespace Verif.Policy
open Verif
open Verif.Codec

theorem bind_eq_error {E A B : Type} {x : Except E A} {f : A → Except E B} {e : E} :
    (x >>= f) = .error e ↔ x = .error e ∨ ∃ a, x = .ok a ∧ f a = .error e := by
  cases x <;> simp [bind, Except.bind]

theorem ensure_eq_error {E : Type} {c : Prop} [Decidable c] {e e' : E} : ensure c e = .error e' ↔ ¬ c ∧ e = e' := by
  unfold ensure; split <;> simp_all

theorem mapError_eq_error {E E' A : Type} {x : Except E A} {f : E → E'} {e : E'} :
    x.mapError f = .error e ↔ ∃ e0, x = .error e0 ∧ f e0 = e := by
  cases x <;> simp [Except.mapError]

theorem mapError_eq_ok' {E E' A : Type} {x : Except E A} {f : E → E'} {a : A} :
    x.mapError f = .ok a ↔ x = .ok a := by
  cases x <;> simp [Except.mapError]

theorem forEach_ok {α ε : Type} {f : α → Except ε Unit} {a : Unit} : ∀ {l : List α}, forEach f l = .ok a ↔ ∀ x ∈ l, f x = .ok ()
  | [] => by simp [forEach]
  | x :: l => by
    simp only [forEach, bind_eq_ok, forEach_ok (l := l), List.mem_cons, forall_eq_or_imp]
    exact ⟨fun ⟨_, h⟩ => h, fun h => ⟨(), h⟩⟩

theorem forEach_error {α ε : Type} {f : α → Except ε Unit} {e : ε} : ∀ {l : List α}, forEach f l = .error e →
    ∃ x ∈ l, f x = .error e
  | [], h => by cases h
  | x :: l, h => by
    simp only [forEach, bind_eq_error] at h
    rcases h with h | ⟨_, _, h⟩
    · exact ⟨x, by simp, h⟩
    · obtain ⟨y, hy, h⟩ := forEach_error h
      exact ⟨y, by simp [hy], h⟩

/-! ### Words of the specification and of the code -/

theorem ascii_iff (b : Bytes) : b.all asciiAlphanumeric = true ↔ AlphanumericText b := by
  simp only [List.all_eq_true, AlphanumericText]
  refine forall₂_congr fun c _ => ?_
  simp only [asciiAlphanumeric, Bool.or_eq_true, Bool.and_eq_true, decide_eq_true_eq, UInt8.le_iff_toNat_le, or_assoc]
  rfl

theorem symbol_iff (c : Nat) : uriSymbol c = true ↔ c ∈ "%:/?#[]@!$&'()*+,;=-._~".toList.map Char.toNat := by
  have : "%:/?#[]@!$&'()*+,;=-._~".toList.map Char.toNat =
      [37, 58, 47, 63, 35, 91, 93, 64, 33, 36, 38, 39, 40, 41, 42, 43, 44, 59, 61, 45, 46, 95, 126] := by decide
  rw [this]
  simp only [uriSymbol, decide_eq_true_eq]

theorem uri_iff (x : Text) (u : Bytes) : isUriValid x u = true ↔ UriOk x u := by
  unfold isUriValid UriOk
  cases x.decode u with
  | none => simp
  | some cs =>
    simp only [List.all_eq_true, Bool.or_eq_true, symbol_iff, Option.some.injEq, exists_eq_left']

theorem length_iff (b : Bytes) (n : Nat) : ¬ (b.length ≤ n ∧ b ≠ []) ↔ BadLength b n := by
  unfold BadLength
  rw [List.length_eq_zero_iff]
  by_cases h : b = [] <;> simp [h]

theorem issues_iff (o : TxOutput) : isIssuance o = true ↔ Issues o := by
  constructor
  · intro h
    cases o with
    | transfer v d => cases v with
      | tokenV0 t => cases t with
        | issuance t => exact .transferToken t d
        | nft t => exact .transferNft t d
        | transfer t => simp [isIssuance, issuesV0] at h
      | coin _ => simp [isIssuance, issuesV0] at h
      | tokenV1 _ _ => simp [isIssuance, issuesV0] at h
    | lockThenTransfer v d l => cases v with
      | tokenV0 t => cases t with
        | issuance t => exact .lockToken t d l
        | nft t => exact .lockNft t d l
        | transfer t => simp [isIssuance, issuesV0] at h
      | coin _ => simp [isIssuance, issuesV0] at h
      | tokenV1 _ _ => simp [isIssuance, issuesV0] at h
    | burn v => cases v with
      | tokenV0 t => cases t with
        | issuance t => exact .burnToken t
        | nft t => exact .burnNft t
        | transfer t => simp [isIssuance, issuesV0] at h
      | coin _ => simp [isIssuance, issuesV0] at h
      | tokenV1 _ _ => simp [isIssuance, issuesV0] at h
    | issueFungibleToken t => exact .token t
    | issueNft a b c => exact .nft a b c
    | _ => simp [isIssuance] at h
  · intro h
    cases h <;> rfl

theorem v0_iff (o : TxOutput) : usesTokensV0 o = true ↔ ∃ d, OutputValue.tokenV0 d ∈ valuesOf o := by
  have hv : ∀ v : OutputValue, isTokenV0 v = true ↔ ∃ d, v = .tokenV0 d := by
    intro v; cases v <;> simp [isTokenV0]
  cases o <;> simp only [usesTokensV0, valuesOf, hv, Bool.or_eq_true, List.mem_cons, List.not_mem_nil, or_false, exists_or,
    Bool.false_eq_true, exists_false, eq_comm (a := OutputValue.tokenV0 _)]

theorem currency_iff (d : OrderData) : ¬ currency d.ask ≠ currency d.give ↔
    ((∃ a b, d.ask = .coin a ∧ d.give = .coin b) ∨ (∃ a b, d.ask = .tokenV0 a ∧ d.give = .tokenV0 b) ∨
      ∃ id a b, d.ask = .tokenV1 id a ∧ d.give = .tokenV1 id b) := by
  rw [not_not]
  cases d.ask <;> cases d.give <;> simp [currency, eq_comm]

theorem noDuplicates_ok {a : Unit} : ∀ {l seen : List TxInput}, noDuplicates seen l = .ok a ↔ l.Nodup ∧ ∀ i ∈ l, i ∉ seen
  | [], seen => by simp [noDuplicates]
  | i :: is, seen => by
    simp only [noDuplicates, bind_eq_ok, ensure_eq_ok, exists_const, noDuplicates_ok (l := is), List.nodup_cons,
      List.mem_cons, forall_eq_or_imp, not_or]
    constructor
    · rintro ⟨h1, h2, h3⟩
      exact ⟨⟨fun h => (h3 i h).1 rfl, h2⟩, h1, fun a ha => (h3 a ha).2⟩
    · rintro ⟨⟨h1, h2⟩, h3, h4⟩
      exact ⟨h3, h2, fun a ha => ⟨fun e => h1 (e ▸ ha), h4 a ha⟩⟩

theorem noDuplicates_error : ∀ {l seen : List TxInput} {e}, noDuplicates seen l = .error e → e = .duplicateInput
  | [], seen, e, h => by cases h
  | i :: is, seen, e, h => by
    simp only [noDuplicates, bind_eq_error, ensure_eq_error] at h
    rcases h with h | ⟨_, _, h⟩
    · exact h.2.symm
    · exact noDuplicates_error h

theorem nodup_iff {α : Type} (l : List α) : ¬ l.Nodup ↔ ∃ i j : Nat, i < j ∧ j < l.length ∧ l[i]? = l[j]? := by
  rw [List.nodup_iff_getElem?_ne_getElem?]
  simp only [not_forall, not_not]
  constructor
  · rintro ⟨i, j, h1, h2, h3⟩; exact ⟨i, j, h1, h2, h3⟩
  · rintro ⟨i, j, h1, h2, h3⟩; exact ⟨i, j, h1, h2, h3⟩

theorem two_iff {α : Type} (p : α → Bool) : ∀ (l : List α), ¬ (l.filter p).length ≤ 1 ↔
    ∃ (i j : Nat) (a b : α), i < j ∧ l[i]? = some a ∧ l[j]? = some b ∧ p a = true ∧ p b = true
  | [] => by simp
  | x :: l => by
    have ih := two_iff p l
    constructor
    · intro h
      by_cases hx : p x = true
      · rw [List.filter_cons_of_pos hx, List.length_cons] at h
        have : l.filter p ≠ [] := by
          intro e; rw [e] at h; simp at h
        obtain ⟨b, hb⟩ := List.exists_mem_of_ne_nil _ this
        rw [List.mem_filter] at hb
        obtain ⟨j, hj⟩ := List.mem_iff_getElem?.1 hb.1
        exact ⟨0, j + 1, x, b, by omega, by simp, by simpa using hj, hx, hb.2⟩
      · rw [List.filter_cons_of_neg hx] at h
        obtain ⟨i, j, a, b, h1, h2, h3, h4⟩ := ih.1 h
        exact ⟨i + 1, j + 1, a, b, by omega, by simpa using h2, by simpa using h3, h4⟩
    · rintro ⟨i, j, a, b, h1, h2, h3, h4, h5⟩ h
      obtain ⟨j, rfl⟩ : ∃ j', j = j' + 1 := ⟨j - 1, by omega⟩
      rw [List.getElem?_cons_succ] at h3
      cases i with
      | zero =>
        simp only [List.getElem?_cons_zero, Option.some.injEq] at h2
        subst h2
        rw [List.filter_cons_of_pos h4, List.length_cons] at h
        have : b ∈ l.filter p := List.mem_filter.2 ⟨List.mem_of_getElem? h3, h5⟩
        have := List.length_pos_of_mem this
        omega
      | succ i =>
        rw [List.getElem?_cons_succ] at h2
        refine ih.2 ⟨i, j, a, b, by omega, h2, h3, h4, h5⟩ ?_
        refine le_trans ?_ h
        rw [List.filter_cons]
        split
        · simp
        · exact le_refl _

/-! ### The parts -/

section
variable (l : Limits) (x : Text)

theorem nftUri_ok {u : Option Bytes} {e : IssueErr} {a : Unit} : checkNftUri l x u e = .ok a ↔ ¬ BadUri l x u := by
  unfold checkNftUri BadUri
  split
  · rename_i h
    simp only [true_iff]
    rintro ⟨b, rfl, hb, -⟩
    exact hb h
  · rename_i h
    simp only [bind_eq_ok, ensure_eq_ok, exists_const, uri_iff]
    cases u with
    | none => exact absurd rfl h
    | some b =>
      simp only [Option.getD_some, Option.some.injEq] at h ⊢
      constructor
      · rintro ⟨h1, h2⟩ ⟨b', rfl, -, h3⟩
        rcases h3 with h3 | h3
        · omega
        · exact h3 h2
      · intro h3
        by_contra h4
        refine h3 ⟨b, rfl, h, ?_⟩
        by_cases h5 : l.maxUriLen < b.length
        · exact .inl h5
        · exact .inr fun h6 => h4 ⟨by omega, h6⟩

theorem nftUri_error {u : Option Bytes} {e e' : IssueErr} (h : checkNftUri l x u e = .error e') : e' = e ∧ BadUri l x u := by
  constructor
  · unfold checkNftUri at h
    split at h
    · cases h
    · simp only [bind_eq_error, ensure_eq_error] at h
      rcases h with h | ⟨_, _, h⟩ <;> exact h.2.symm
  · by_contra hb
    rw [(nftUri_ok l x (e := e) (a := ())).2 hb] at h
    cases h

theorem nft_ok {m : Metadata} : checkNft l x m = .ok () ↔ ∀ e, ¬ BadNft l x m e := by
  simp only [checkNft, checkTicker, checkName, checkDescription, checkMediaHash, bind_eq_ok, ensure_eq_ok, nftUri_ok, ascii_iff]
  constructor
  · intro h e
    cases e <;> simp only [BadNft, ← length_iff, not_not, not_lt, not_false_eq_true] <;> grind
  · intro h
    have h1 := h .tickerLength
    have h2 := h .tickerChars
    have h3 := h .nameLength
    have h4 := h .nameChars
    have h5 := h .descriptionLength
    have h6 := h .descriptionChars
    have h7 := h .iconUri
    have h8 := h .metadataUri
    have h9 := h .mediaUri
    have h10 := h .mediaHashShort
    have h11 := h .mediaHashLong
    simp only [BadNft, ← length_iff, not_not, not_lt] at h1 h2 h3 h4 h5 h6 h7 h8 h9 h10 h11
    exact ⟨(), ⟨(), h1, h2⟩, (), ⟨(), h3, h4⟩, (), ⟨(), h5, h6⟩, (), h7, (), h8, (), h9, (), h10, h11⟩

theorem nft_error {m : Metadata} {e : IssueErr} (h : checkNft l x m = .error e) : BadNft l x m e := by
  simp only [checkNft, checkTicker, checkName, checkDescription, checkMediaHash, bind_eq_error, ensure_eq_error, ascii_iff,
    length_iff] at h
  rcases h with (⟨h, rfl⟩ | ⟨_, _, h, rfl⟩) | ⟨_, _, (⟨h, rfl⟩ | ⟨_, _, h, rfl⟩) | ⟨_, _, (⟨h, rfl⟩ | ⟨_, _, h, rfl⟩) |
    ⟨_, _, h | ⟨_, _, h | ⟨_, _, h | ⟨_, _, ⟨h, rfl⟩ | ⟨_, _, h, rfl⟩⟩⟩⟩⟩⟩⟩
  any_goals exact h
  · replace h := nftUri_error l x h
    obtain ⟨rfl, h⟩ := h
    exact h
  · replace h := nftUri_error l x h
    obtain ⟨rfl, h⟩ := h
    exact h
  · replace h := nftUri_error l x h
    obtain ⟨rfl, h⟩ := h
    exact h
  · exact Nat.lt_of_not_le h
  · exact Nat.lt_of_not_le h

theorem token_ok {t : TokenIssuanceV1} : checkIssuance l x t = .ok () ↔ ∀ e, ¬ BadToken l x t e := by
  simp only [checkIssuance, checkTicker, bind_eq_ok, ensure_eq_ok, ascii_iff, uri_iff]
  constructor
  · intro h e
    cases e <;> simp only [BadToken, ← length_iff, not_not, not_lt, not_false_eq_true, not_or] <;> grind
  · intro h
    have h1 := h .tickerLength
    have h2 := h .tickerChars
    have h3 := h .decimals
    have h4 := h .metadataUri
    simp only [BadToken, ← length_iff, not_not, not_lt, not_or] at h1 h2 h3 h4
    exact ⟨(), ⟨(), h1, h2⟩, (), h3, (), h4.2, h4.1⟩

theorem token_error {t : TokenIssuanceV1} {e : IssueErr} (h : checkIssuance l x t = .error e) : BadToken l x t e := by
  simp only [checkIssuance, checkTicker, bind_eq_error, ensure_eq_error, ascii_iff, length_iff, uri_iff] at h
  rcases h with (⟨h, rfl⟩ | ⟨_, _, h, rfl⟩) | ⟨_, _, ⟨h, rfl⟩ | ⟨_, _, ⟨h, rfl⟩ | ⟨_, _, h, rfl⟩⟩⟩
  · exact h
  · exact h
  · exact Nat.lt_of_not_le h
  · exact .inr h
  · exact .inl (Nat.lt_of_not_le h)

end

section
variable {k : Crypto} {l : Limits} {r : Rules} {x : Text} {tx : SignedTransaction}

/-- **C53.** When a transaction is refused with an error, it breaks the rule that the error stands for. -/
theorem C53_error_meaning {e : CheckErr} (h : checkTransaction k l r x tx = .error e) : Broken k l r x tx e := by
  simp only [checkTransaction, bind_eq_error] at h
  rcases h with h | ⟨_, -, h | ⟨_, -, h | ⟨_, -, h | ⟨_, -, h | ⟨_, -, h | ⟨_, -, h | ⟨_, -, h | ⟨_, -, h⟩⟩⟩⟩⟩⟩⟩⟩
  · simp only [checkSize, ensure_eq_error] at h
    obtain ⟨h, rfl⟩ := h
    exact Nat.lt_of_not_le h
  · simp only [checkDuplicateInputs, bind_eq_error, ensure_eq_error] at h
    rcases h with ⟨h, rfl⟩ | ⟨_, -, h⟩
    · simpa [Broken] using h
    · cases noDuplicates_error h
      refine (nodup_iff _).1 fun hn => ?_
      rw [(noDuplicates_ok (a := ())).2 ⟨hn, by simp⟩] at h
      cases h
  · simp only [checkWitnessCount, ensure_eq_error] at h
    obtain ⟨h, rfl⟩ := h
    exact h
  · simp only [checkTokens, bind_eq_error, ensure_eq_error] at h
    rcases h with ⟨h, rfl⟩ | ⟨_, -, ⟨h, rfl⟩ | ⟨_, -, h | ⟨_, -, h⟩⟩⟩
    · simp only [not_or, Bool.not_eq_false, List.any_eq_true, v0_iff] at h
      exact h
    · rw [two_iff] at h
      simp only [issues_iff] at h
      exact h
    · replace h := forEach_error h
      obtain ⟨i, hi, h⟩ := h
      unfold checkUriChange at h
      split at h
      · simp only [bind_eq_error, ensure_eq_error] at h
        rcases h with ⟨h, rfl⟩ | ⟨_, -, ⟨h, rfl⟩ | ⟨_, -, h, rfl⟩⟩
        · exact ⟨by simpa using h, _, _, _, hi⟩
        · exact ⟨_, _, hi, Nat.lt_of_not_le h⟩
        · rw [uri_iff, not_or, Bool.not_eq_false] at h
          exact ⟨h.1, _, _, hi, h.2⟩
      · cases h
    · replace h := forEach_error h
      obtain ⟨o, ho, h⟩ := h
      unfold checkIssuanceOutput at h
      split at h
      · rw [mapError_eq_error] at h
        obtain ⟨e, h, rfl⟩ := h
        exact .inl ⟨_, ho, token_error l x h⟩
      · rw [mapError_eq_error] at h
        obtain ⟨e, h, rfl⟩ := h
        exact .inr ⟨_, _, _, ho, nft_error l x h⟩
      · cases h
  · replace h := forEach_error h
    obtain ⟨w, hw, h⟩ := h
    unfold checkNoSignature at h
    split at h
    · simp only [bind_eq_error, ensure_eq_error] at h
      rcases h with ⟨h, rfl⟩ | ⟨_, -, h, rfl⟩
      · exact ⟨by simpa using h, _, hw⟩
      · exact ⟨rfl, Nat.lt_of_not_le h, _, hw, rfl⟩
    · cases h
  · replace h := forEach_error h
    obtain ⟨o, ho, h⟩ := h
    unfold checkDataDeposit at h
    split at h
    · rw [ensure_eq_error] at h
      obtain ⟨h, rfl⟩ := h
      exact ⟨rfl, Nat.lt_of_not_le h, _, ho, rfl⟩
    · cases h
  · simp only [checkHtlc, ensure_eq_error, not_or, Bool.not_eq_true, Bool.not_eq_false, List.any_eq_true] at h
    obtain ⟨⟨h1, o, ho, h2⟩, rfl⟩ := h
    cases o <;> simp only [isHtlc, Bool.false_eq_true] at h2
    exact ⟨h1, _, _, ho⟩
  · replace h := forEach_error h
    obtain ⟨i, hi, h⟩ := h
    have hv : ∀ v : OrdersVersion, (v ≠ .v0 ↔ v = .v1) ∧ (v ≠ .v1 ↔ v = .v0) := by intro v; cases v <;> simp
    unfold checkOrderInput at h
    split at h
    · rw [ensure_eq_error] at h
      obtain ⟨h, rfl⟩ := h
      exact ⟨(hv _).1.1 h, .inl ⟨_, _, _, _, hi⟩⟩
    · rw [ensure_eq_error] at h
      obtain ⟨h, rfl⟩ := h
      exact ⟨(hv _).1.1 h, .inr ⟨_, _, hi⟩⟩
    · simp only [bind_eq_error, ensure_eq_error] at h
      rcases h with ⟨h, rfl⟩ | ⟨_, -, h, rfl⟩
      · exact ⟨(hv _).2.1 h, _, hi⟩
      · rw [Nat.eq_zero_of_not_pos h] at hi
        exact hi
    · rw [ensure_eq_error] at h
      obtain ⟨h, rfl⟩ := h
      exact ⟨(hv _).2.1 h, _, hi⟩
    · cases h
  · replace h := forEach_error h
    obtain ⟨o, ho, h⟩ := h
    unfold checkOrderOutput at h
    split at h
    · simp only [bind_eq_error, ensure_eq_error] at h
      rcases h with ⟨h, rfl⟩ | ⟨_, -, h, rfl⟩
      · exact ⟨by simpa using h, _, ho⟩
      · exact ⟨_, ho, (currency_iff _).1 h⟩
    · cases h

/-- **C53.** A transaction is accepted exactly if it breaks none of the rules. -/
theorem C53_accepted_iff : checkTransaction k l r x tx = .ok () ↔ ∀ e, ¬ Broken k l r x tx e := by
  constructor
  · intro h e hb
    simp only [checkTransaction, bind_eq_ok, forEach_ok, checkSize, checkDuplicateInputs, checkWitnessCount, checkTokens,
      checkHtlc, ensure_eq_ok, exists_const, noDuplicates_ok] at h
    obtain ⟨h1, ⟨h2, h3, -⟩, h4, ⟨h5, h6, h7, h8⟩, h9, h10, h11, h12, h13⟩ := h
    cases e with
    | sizeTooLarge => exact absurd h1 (Nat.not_le_of_lt hb)
    | emptyInputs => exact h2 (List.length_eq_zero_iff.1 hb)
    | duplicateInput => exact (nodup_iff _).2 hb h3
    | witnessCount => exact hb h4
    | deprecatedTokens =>
      obtain ⟨h, o, ho, hd⟩ := hb
      rcases h5 with h5 | h5
      · rw [h] at h5; cases h5
      · rw [List.any_eq_false] at h5
        exact h5 o ho ((v0_iff o).2 hd)
    | multipleIssuance =>
      simp only [Broken, ← issues_iff] at hb
      exact (two_iff isIssuance _).2 hb h6
    | changeUriNotActivated =>
      obtain ⟨h, n, id, uri, hi⟩ := hb
      have := h7 _ hi
      simp only [checkUriChange, bind_eq_ok, ensure_eq_ok, h] at this
      simp at this
    | uriTooLarge id =>
      obtain ⟨n, uri, hi, h⟩ := hb
      have := h7 _ hi
      simp only [checkUriChange, bind_eq_ok, ensure_eq_ok, exists_const] at this
      omega
    | uriInvalid id =>
      obtain ⟨h, n, uri, hi, hu⟩ := hb
      have := h7 _ hi
      simp only [checkUriChange, bind_eq_ok, ensure_eq_ok, exists_const, uri_iff, h] at this
      rcases this.2.2 with h | h
      · cases h
      · exact hu h
    | issue e =>
      rcases hb with ⟨t, ht, hb⟩ | ⟨id, n, d, ht, hb⟩
      · have := h8 _ ht
        simp only [checkIssuanceOutput, mapError_eq_ok'] at this
        exact (token_ok l x).1 this e hb
      · have := h8 _ ht
        simp only [checkIssuanceOutput, mapError_eq_ok'] at this
        exact (nft_ok l x).1 this e hb
    | noSigDataNotAllowed =>
      obtain ⟨h, d, hw⟩ := hb
      have := h9 _ hw
      simp only [checkNoSignature, bind_eq_ok, ensure_eq_ok, exists_const, h] at this
      simp at this
    | noSigDataTooLarge n m =>
      obtain ⟨rfl, h, d, hw, rfl⟩ := hb
      have := h9 _ hw
      simp only [checkNoSignature, bind_eq_ok, ensure_eq_ok, exists_const] at this
      omega
    | dataDepositTooLarge n m =>
      obtain ⟨rfl, h, d, hw, rfl⟩ := hb
      have := h10 _ hw
      simp only [checkDataDeposit, ensure_eq_ok] at this
      omega
    | htlcNotActivated =>
      obtain ⟨h, v, c, ho⟩ := hb
      rcases h11 with h11 | h11
      · rw [h] at h11; cases h11
      · rw [List.any_eq_false] at h11
        exact h11 _ ho rfl
    | deprecatedOrders =>
      obtain ⟨h, ⟨n, id, a, d, hi⟩ | ⟨n, id, hi⟩⟩ := hb <;>
      · have := h12 _ hi
        simp only [checkOrderInput, ensure_eq_ok, h] at this
        cases this
    | ordersV1NotActivated =>
      obtain ⟨h, c, hi⟩ := hb
      have := h12 _ hi
      cases c <;>
      · simp only [checkOrderInput, bind_eq_ok, ensure_eq_ok, exists_const, h] at this
        simp at this
    | fillWithZero id =>
      have := h12 _ hb
      simp only [checkOrderInput, bind_eq_ok, ensure_eq_ok, exists_const] at this
      omega
    | ordersNotActivated =>
      obtain ⟨h, d, ho⟩ := hb
      have := h13 _ ho
      simp only [checkOrderOutput, bind_eq_ok, ensure_eq_ok, exists_const, h] at this
      simp at this
    | sameCurrencies =>
      obtain ⟨d, ho, h⟩ := hb
      have := h13 _ ho
      simp only [checkOrderOutput, bind_eq_ok, ensure_eq_ok, exists_const] at this
      exact (currency_iff d).2 h this.2
  · intro h
    cases hc : checkTransaction k l r x tx with
    | ok u => rfl
    | error e => exact absurd (C53_error_meaning hc) (h e)

end

/-! ### Concrete cases: an accepted transaction, and for every error one that has it -/

section Example

def exText : Text where
  decode b := if b.all (· < 128) then some (b.map UInt8.toNat) else none
  alphanumeric c := (48 ≤ c && c ≤ 57) || (65 ≤ c && c ≤ 90) || (97 ≤ c && c ≤ 122)

/-- the limits of mainnet – common/src/chain/config/mod.rs 746-777 -/
def exLimits : Limits := ⟨1048576, 1048576, 1024, 18, 12, 10, 100, 4, 32, false, 128, 384⟩
def exRules : Rules := ⟨true, true, true, true, true, .v1, true, true⟩
def exCrypto : Crypto := ⟨fun _ => true, fun _ => true, fun _ => true, fun _ => true, fun _ => true⟩

def h32 : Bytes := List.replicate 32 7
def inA : TxInput := .utxo ⟨.transaction h32, 3⟩
def inB : TxInput := .utxo ⟨.blockReward h32, 0⟩
def dest : Destination := .anyoneCanSpend
def text (s : String) : Bytes := s.toList.map fun c => UInt8.ofNat c.toNat
def ftok : TokenIssuanceV1 := ⟨text "TKN1", 18, text "https://a.bc/d?e=1", .unlimited, dest, .yes⟩
def nft : Metadata := ⟨none, text "Name", text "Description", text "XYZ", none, some [], some (text "ipfs://a"), text "hash"⟩
def order (a b : OutputValue) : OrderData := ⟨dest, a, b⟩

def tx (ins : List TxInput) (outs : List TxOutput) (ws : List InputWitness) : SignedTransaction := ⟨⟨0, ins, outs⟩, ws⟩
def w0 : InputWitness := .noSignature none
def w1 : InputWitness := .standard ⟨1, []⟩

def check (t : SignedTransaction) (r : Rules := exRules) (l : Limits := exLimits) : Option CheckErr :=
  match checkTransaction exCrypto l r exText t with
  | .ok _ => none
  | .error e => some e

-- an accepted transaction
def good : SignedTransaction :=
  tx [inA, inB, .accountCommand 4 (.changeTokenMetadataUri h32 (text "ipfs://x")), .orderAccountCommand (.fillOrder h32 1)]
    [.issueNft h32 (.v0 ⟨nft⟩) dest, .transfer (.coin 5) dest, .createOrder (order (.coin 5) (.tokenV1 h32 6)),
      .dataDeposit [1, 2], .htlc (.coin 3) ⟨List.replicate 20 1, dest, .forSeconds 5, dest⟩] [w0, w1, w1, w0]
example : check good = none := by decide +kernel
example : ∀ e, ¬ Broken exCrypto exLimits exRules exText good e := C53_accepted_iff.1 (by
  have : check good = none := by decide +kernel
  unfold check at this
  cases h : checkTransaction exCrypto exLimits exRules exText good with
  | ok u => rfl
  | error e => rw [h] at this; cases this)

-- every error occurs
example : check good exRules { exLimits with maxSizeScripts := 50 } = some .sizeTooLarge := by decide +kernel
example : check (tx [] [] []) = some .emptyInputs := by decide +kernel
example : check (tx [inA, inB, inA] [] [w1, w1, w1]) = some .duplicateInput := by decide +kernel
example : check (tx [inA, inB] [] [w1]) = some .witnessCount := by decide +kernel
example : check (tx [inA] [.createOrder (order (.coin 1) (.tokenV0 (.transfer ⟨h32, 1⟩)))] [w1]) = some .deprecatedTokens := by
  decide +kernel
example : check (tx [inA] [.issueFungibleToken (.v1 ftok), .transfer (.coin 1) dest, .issueNft h32 (.v0 ⟨nft⟩) dest] [w1]) =
    some .multipleIssuance := by decide +kernel
example : check good { exRules with changeUriActivated := false } = some .changeUriNotActivated := by decide +kernel
example : check good exRules { exLimits with maxUriLen := 7 } = some (.uriTooLarge h32) := by decide +kernel
example : check (tx [.accountCommand 0 (.changeTokenMetadataUri h32 (text "a b"))] [] [w1]) = some (.uriInvalid h32) := by
  decide +kernel
example : [{ ftok with ticker := [] }, { ftok with ticker := text "T-1" }, { ftok with decimals := 19 },
      { ftok with uri := [200] }].map (fun t => check (tx [inA] [.issueFungibleToken (.v1 t)] [w1])) =
    [some (.issue .tickerLength), some (.issue .tickerChars), some (.issue .decimals), some (.issue .metadataUri)] := by
  decide +kernel
example : [{ nft with name := [] }, { nft with name := text "A B" }, { nft with description := [] },
      { nft with description := text "A, B" }, { nft with iconUri := some (text " ") },
      { nft with additionalMetadataUri := some (text "<") }, { nft with mediaUri := some [255] },
      { nft with mediaHash := [1, 2, 3] }, { nft with mediaHash := List.replicate 33 1 }].map (fun t =>
        check (tx [inA] [.issueNft h32 (.v0 ⟨t⟩) dest] [w1])) =
    [some (.issue .nameLength), some (.issue .nameChars), some (.issue .descriptionLength), some (.issue .descriptionChars),
      some (.issue .iconUri), some (.issue .metadataUri), some (.issue .mediaUri), some (.issue .mediaHashShort),
      some (.issue .mediaHashLong)] := by decide +kernel
example : check (tx [inA] [] [.noSignature (some [])]) = some .noSigDataNotAllowed := by decide +kernel
example : check (tx [inA] [] [.noSignature (some (List.replicate 129 0))]) exRules { exLimits with noSigDataAllowed := true } =
    some (.noSigDataTooLarge 129 128) := by decide +kernel
example : check (tx [inA] [.dataDeposit (List.replicate 385 0)] [w1]) = some (.dataDepositTooLarge 385 384) := by decide +kernel
example : check good { exRules with htlcActivated := false } = some .htlcNotActivated := by decide +kernel
example : check (tx [.accountCommand 0 (.concludeOrder h32)] [] [w1]) = some .deprecatedOrders := by decide +kernel
example : check good { exRules with ordersVersion := .v0 } = some .ordersV1NotActivated := by decide +kernel
example : check (tx [.orderAccountCommand (.fillOrder h32 0)] [] [w0]) = some (.fillWithZero h32) := by decide +kernel
example : check good { exRules with ordersActivated := false } = some .ordersNotActivated := by decide +kernel
example : check (tx [inA] [.createOrder (order (.tokenV1 h32 1) (.tokenV1 h32 2))] [w1]) = some .sameCurrencies := by
  decide +kernel

/-- **C53** (finding).  The limit of one issuance per transaction does not see tokens of the first version that are issued
in the value of a hash time lock contract: under the rules for those tokens a transaction with two of them is accepted. -/
theorem C53_htlc_issuance_finding :
    let t := tx [inA] [.htlc (.tokenV0 (.issuance ⟨text "A", 1, 2, []⟩)) ⟨List.replicate 20 1, dest, .forSeconds 5, dest⟩,
      .htlc (.tokenV0 (.issuance ⟨text "B", 1, 2, []⟩)) ⟨List.replicate 20 1, dest, .forSeconds 5, dest⟩] [w1]
    check t { exRules with tokensV1 := false } = none ∧ check t = some .deprecatedTokens := by decide +kernel

end Example

end Verif.Policy
