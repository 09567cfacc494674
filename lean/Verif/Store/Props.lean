import Verif.Store.TxLemmas

/-!
# C85: storage transactions behave as private copies that replace the contents on commit
-/

set_option maxRecDepth 100000

namespace Verif.Store
open Verif Verif.Codec

/-- **C85 (transactions).**  Whatever is called, storage accepts exactly what plain maps with a lock accept, and all that
can be read – single keys, keys with a prefix, keys from a key on, through a reader or through the writer – is what plain
maps hold: the committed contents for readers, and for the writer a private copy with its own writes and deletions, which
replaces the committed contents on commit and is forgotten on abort.  Iteration is in ascending order without
repetitions. -/
theorem C85_transactions (n : Nat) (cs : List Call) :
    match Shared.new.run n cs, Ideal.new.run cs with
    | some s, some p => Agree n s p
    | none, none => True
    | _, _ => False :=
  run_agree cs ⟨rfl, showsRo_of fun _ _ _ => rfl, trivial⟩

/-- **C85 (snapshot).**  As long as a reader stays open, what it sees does not change, whatever else is called. -/
theorem C85_snapshot (n : Nat) (cs cs' : List Call) (s s' : Shared) (h : Shared.new.run n cs = some s)
    (h' : s.run n cs' = some s')
    (hopen : ∀ m < cs'.length, ∀ s'', s.run n (cs'.take m) = some s'' → 0 < s''.readers) : s'.db = s.db := by
  have he : Excl s := run_excl cs (.inl rfl) h
  clear h
  induction cs' generalizing s with
  | nil => cases h'; rfl
  | cons c cs' ih =>
    simp only [Shared.run, Option.bind_eq_some_iff] at h'
    obtain ⟨s1, h1, h2⟩ := h'
    have hr : 0 < s.readers := hopen 0 (by simp) s rfl
    have hw : s.writer = none := he.resolve_right (by omega)
    have hd : s1.db = s.db := by
      obtain ⟨db, rd, w⟩ := s
      simp only at hw
      subst hw
      cases c <;> simp [Shared.call] at h1
      · subst h1; rfl
      · obtain ⟨-, rfl⟩ := h1; rfl
      · obtain ⟨-, rfl⟩ := h1; rfl
    rw [ih s1 h2 ?_ (call_excl he h1), hd]
    intro m hm s'' hs''
    refine hopen (m + 1) (by simpa using hm) s'' ?_
    rw [List.take_succ_cons]
    simp only [Shared.run, h1, Option.bind_some]
    exact hs''

/-- **C85 (end of iteration).**  An iteration over a prefix that has once reported its end reports nothing afterwards. -/
theorem C85_end_is_final {V : Type} (m : BMap Data V) (pre : Data) (i j : Nat) (hij : i ≤ j)
    (h : (prefixPolls m pre)[i]? = some none) : (prefixPolls m pre)[j]? = some none ∨ (prefixPolls m pre)[j]? = none := by
  obtain ⟨hs, hm⟩ := rangeFrom_lists m pre
  unfold prefixPolls at *
  rw [List.getElem?_map] at *
  cases hj : (rangeFrom m pre)[j]? with
  | none => exact .inr rfl
  | some e' =>
    left
    obtain ⟨e, hi, he⟩ := Option.map_eq_some_iff.1 h
    rcases Nat.eq_or_lt_of_le hij with rfl | hlt
    · rw [hj] at hi; cases hi; rw [Option.map_some, he]
    · obtain ⟨hi1, hi2⟩ := List.getElem?_eq_some_iff.1 hi
      obtain ⟨hj1, hj2⟩ := List.getElem?_eq_some_iff.1 hj
      have hlt' := List.pairwise_iff_getElem.1 hs i j hi1 hj1 hlt
      rw [hi2, hj2] at hlt'
      rw [Option.map_some, if_neg]
      intro hc
      have hp : pre ≤ e.1 := ((hm e.1 e.2).1 (hi2 ▸ List.getElem_mem hi1)).2
      have := prefix_between hp hlt'.le (List.isPrefixOf_iff_prefix.1 hc)
      rw [if_pos (List.isPrefixOf_iff_prefix.2 this)] at he
      cases he

/-- **C85 (typed values).**  A value that was put is read back, a deleted one is absent, and neither affects what is read
under any other key. -/
theorem C85_typed {K A : Type} (ck : Codec K) (cv : Codec A) [Lawful ck] [Lawful cv] (t : TxRw) (i : Nat) (k : K) (v : A)
    (hk : ck.ok k) (hv : cv.ok v) :
    typedGet ck cv ((t.put i (ck.enc k) (cv.enc v)).get i) k = some (some v) ∧
    typedGet ck cv ((t.del i (ck.enc k)).get i) k = some none ∧
    ∀ j k', ck.ok k' → (j ≠ i ∨ k' ≠ k) →
      typedGet ck cv ((t.put i (ck.enc k) (cv.enc v)).get j) k' = typedGet ck cv (t.get j) k' ∧
      typedGet ck cv ((t.del i (ck.enc k)).get j) k' = typedGet ck cv (t.get j) k' := by
  refine ⟨?_, ?_, fun j k' hk' hne => ?_⟩
  · simp only [typedGet, TxRw.put, tx_get_update, and_self, if_true, decodeAll_enc hv, Option.map_some]
  · simp only [typedGet, TxRw.del, tx_get_update, and_self, if_true]
  · have hn : ¬ (j = i ∧ ck.enc k' = ck.enc k) := by
      rintro ⟨hj, he⟩
      rcases hne with h | h
      · exact h hj
      · exact h (enc_inj hk' hk he)
    simp only [typedGet, TxRw.put, TxRw.del, tx_get_update, if_neg hn, and_self]

/-- **C85 (typed prefix).**  In a map that holds encoded entries with keys of two parts, iterating with an encoded first
part never fails, and gives exactly the entries with this first part, each once. -/
theorem C85_typed_prefix {A B V : Type} (ca : Codec A) (cb : Codec B) (cv : Codec V) [Lawful ca] [Lawful cb] [Lawful cv]
    (t : TxRw) (i : Nat) (a : A) (ha : ca.ok a)
    (hall : ∀ kb vb, t.get i kb = some vb → ∃ k v, (pair ca cb).ok k ∧ cv.ok v ∧ kb = (pair ca cb).enc k ∧
      vb = cv.enc v) :
    ∃ l, typedIter (pair ca cb) cv (t.prefixIter i (ca.enc a)) = some l ∧ (l.map (·.1)).Nodup ∧
      ∀ k v, (k, v) ∈ l ↔
        k.1 = a ∧ (pair ca cb).ok k ∧ cv.ok v ∧ t.get i ((pair ca cb).enc k) = some (cv.enc v) := by
  obtain ⟨l, h1, h2, h3⟩ := typedIter_lists (tx_prefixIter_lists t i (ca.enc a)) hall
  refine ⟨l, h1, ?_, fun k v => ?_⟩
  · rw [List.nodup_iff_pairwise_ne, List.pairwise_map]
    exact h2.imp fun h he => by rw [he] at h; exact lt_irrefl _ h
  · rw [h3]
    constructor
    · rintro ⟨hk, hv, hg, hp⟩
      exact ⟨(enc_prefix (r := cb.enc k.2) ha hk.1 hp).symm, hk, hv, hg⟩
    · rintro ⟨rfl, hk, hv, hg⟩
      exact ⟨hk, hv, hg, List.prefix_append _ _⟩

/-- **C85 (typed order).**  In a map that holds encoded entries whose keys begin with an order-preserving number,
iterating from a key on never fails, and gives exactly the entries with a greater number, or the same number and a second
part not before the given one, in ascending order of numbers. -/
theorem C85_typed_order {B V : Type} (n : Nat) (cb : Codec B) (cv : Codec V) [Lawful cb] [Lawful cv] (t : TxRw) (i : Nat)
    (x : Nat) (b : B) (hx : x < 256 ^ n)
    (hall : ∀ kb vb, t.get i kb = some vb → ∃ k v, (pair (orderPreserving n) cb).ok k ∧ cv.ok v ∧
      kb = (pair (orderPreserving n) cb).enc k ∧ vb = cv.enc v) :
    ∃ l, typedIter (pair (orderPreserving n) cb) cv (t.geIter i ((pair (orderPreserving n) cb).enc (x, b))) = some l ∧
      l.Pairwise (fun p q => p.1.1 < q.1.1 ∨ p.1.1 = q.1.1 ∧ cb.enc p.1.2 < cb.enc q.1.2) ∧
      ∀ k v, (k, v) ∈ l ↔ (x < k.1 ∨ x = k.1 ∧ cb.enc b ≤ cb.enc k.2) ∧ k.1 < 256 ^ n ∧ cb.ok k.2 ∧ cv.ok v ∧
        t.get i ((pair (orderPreserving n) cb).enc k) = some (cv.enc v) := by
  have hle : ∀ (y z : Nat) (c d : B), y < 256 ^ n → z < 256 ^ n →
      ((pair (orderPreserving n) cb).enc (y, c) ≤ (pair (orderPreserving n) cb).enc (z, d) ↔
        (y < z ∨ y = z ∧ cb.enc c ≤ cb.enc d)) := by
    intro y z c d hy hz
    have : beBytes n y = beBytes n z ↔ y = z :=
      ⟨fun h => enc_inj (c := orderPreserving n) hy hz h, fun h => by rw [h]⟩
    simp only [pair, orderPreserving]
    rw [append_le (by rw [beBytes_length, beBytes_length]), beBytes_lt n y z hy hz, this]
  obtain ⟨l, h1, h2, h3⟩ := typedIter_lists (tx_geIter_lists t i ((pair (orderPreserving n) cb).enc (x, b))) hall
  refine ⟨l, h1, ?_, fun k v => ?_⟩
  · refine List.Pairwise.imp_of_mem ?_ h2
    rintro ⟨⟨y, c⟩, v⟩ ⟨⟨z, d⟩, w⟩ hp hq h
    have hy : y < 256 ^ n := ((h3 _ _).1 hp).1.1
    have hz : z < 256 ^ n := ((h3 _ _).1 hq).1.1
    have hnot := (hle z y d c hz hy).not.1 (not_le.2 h)
    simp only at hnot ⊢
    rcases Nat.lt_trichotomy y z with h' | h' | h'
    · exact .inl h'
    · refine .inr ⟨h', ?_⟩
      rw [← not_le]
      exact fun hc => hnot (.inr ⟨h'.symm, hc⟩)
    · exact absurd (Or.inl h') hnot
  · rw [h3]
    constructor
    · rintro ⟨hk, hv, hg, hp⟩
      exact ⟨(hle x k.1 b k.2 hx hk.1).1 hp, hk.1, hk.2, hv, hg⟩
    · rintro ⟨hp, hk1, hk2, hv, hg⟩
      exact ⟨⟨hk1, hk2⟩, hv, hg, (hle x k.1 b k.2 hx hk1).2 hp⟩

/-- **C85 (dump).**  Storage made from the dump of another holds the same contents in all maps. -/
theorem C85_dump (n : Nat) (db : Maps) (i : Nat) (hi : i < n) : fromDump n (dump n db) i = db i := by
  apply BMap.ext_get
  intro k
  have h := commit_get n ((dump n db).foldl (fun t p => p.2.foldl (fun t e => t.put p.1 e.1 e.2) t)
    (TxRw.start fun _ => BMap.empty)) i k
  rw [if_pos hi, dump_get n db _ i k (fun _ _ => rfl), if_pos hi] at h
  exact h

/-! ### Concrete cases -/

/-- one map with keys `1 1`, `1 3`, `2`; the writer deletes `1 1`, overwrites `1 3`, adds `1 2` and `0` -/
def exCalls : List Call :=
  [.openRw, .put 0 [1, 1] [10], .put 0 [1, 3] [30], .put 0 [2] [40], .commit,
   .openRw, .del 0 [1, 1], .put 0 [1, 3] [31], .put 0 [1, 2] [20], .put 0 [0] [5]]

/-- the writer sees its changes, the committed contents do not -/
example : ((Shared.new.run 1 exCalls).map fun s => s.db.prefixIter 0 [1]) = some [([1, 1], [10]), ([1, 3], [30])] ∧
    ((Shared.new.run 1 exCalls).bind fun s => s.writer.map (·.prefixIter 0 [1])) =
      some [([1, 2], [20]), ([1, 3], [31])] ∧
    ((Shared.new.run 1 exCalls).bind fun s => s.writer.map (·.geIter 0 [1, 3])) =
      some [([1, 3], [31]), ([2], [40])] := by
  decide +kernel

/-- commit and abort -/
example : ((Shared.new.run 1 (exCalls ++ [.commit])).map fun s => s.db.prefixIter 0 []) =
    some [([0], [5]), ([1, 2], [20]), ([1, 3], [31]), ([2], [40])] ∧
  ((Shared.new.run 1 (exCalls ++ [.abort])).map fun s => s.db.prefixIter 0 []) =
    some [([1, 1], [10]), ([1, 3], [30]), ([2], [40])] := by
  decide +kernel

/-- no reader enters while there is a writer, and no writer while there is a reader -/
example : (Shared.new.run 1 (exCalls ++ [.openRo])).isNone = true ∧
    (Shared.new.run 1 [.openRo, .openRo, .closeRo, .openRw]).isNone = true ∧
    (Shared.new.run 1 [.openRo, .closeRo, .openRw]).isSome = true := by
  decide +kernel

/-- the polls of an iteration: an end is followed by ends -/
example : ((Shared.new.run 1 (exCalls ++ [.commit])).map fun s => (prefixPolls (s.db 0) [1]).map Option.isSome) =
    some [true, true, false] := by decide +kernel

/-- numbers are ordered in their big-endian form and not in the little-endian one -/
example : beBytes 2 255 < beBytes 2 256 ∧ ¬ leBytes 2 255 < leBytes 2 256 := by decide +kernel

/-- a writer with two entries whose keys are pairs of numbers -/
def exTyped : TxRw :=
  ((TxRw.start fun _ => BMap.empty).put 0 ((pair (orderPreserving 2) (uint 1)).enc (255, 7)) [1]).put 0
    ((pair (orderPreserving 2) (uint 1)).enc (256, 3)) [2]

/-- typed iteration -/
example : typedIter (pair (orderPreserving 2) (uint 1)) (uint 1)
      (exTyped.geIter 0 ((pair (orderPreserving 2) (uint 1)).enc (255, 8))) = some [((256, 3), 2)] ∧
    typedIter (pair (orderPreserving 2) (uint 1)) (uint 1)
      (exTyped.prefixIter 0 ((orderPreserving 2).enc 255)) = some [((255, 7), 1)] := by
  decide +kernel

end Verif.Store
