import Verif.Bootstrap.Stream

/-!
# Writing bootstrap files to a disk of limited size
-/

namespace Verif.Bootstrap
open Verif Codec Bootstrap.Spec

/-- what was handed to the writer and not lost -/
def Writer.said (w : Writer) : Bytes := w.disk ++ w.buf

/-- the size of the disk -/
def Writer.total (w : Writer) : Nat := w.disk.length + w.room

theorem Writer.file_eq (w : Writer) : w.file = w.said.take w.total := by
  simp only [Writer.file, Writer.flush, Writer.said, Writer.total]
  rw [List.take_append, List.take_of_length_le (l := w.disk) (by omega), Nat.add_sub_cancel_left]

/-- what writing does -/
structure Wrote (w w' : Writer) (bs : Bytes) (ok : Bool) : Prop where
  sane : w'.buf.length ≤ w'.cap
  cap : w'.cap = w.cap
  total : w'.total = w.total
  file : w'.file = (w.said ++ bs).take w.total
  said : ok = true → w'.said = w.said ++ bs
  full : ok = false → w.total < (w.said ++ bs).length

theorem put_wrote {w : Writer} (hb : w.buf = []) (bs : Bytes) : Wrote w (w.put bs).1 bs (w.put bs).2 := by
  have ht : (w.put bs).1.total = w.total := by
    simp only [Writer.put, Writer.total, List.length_append, List.length_take]
    omega
  have hs : (w.put bs).1.said = w.disk ++ bs.take w.room := by simp [Writer.put, Writer.said, hb]
  refine ⟨by simp [Writer.put, hb], rfl, ht, ?_, ?_, ?_⟩
  · rw [Writer.file_eq, ht, hs]
    simp only [Writer.said, Writer.total, hb, List.append_nil]
    rw [List.take_append, List.take_append, List.take_of_length_le (l := w.disk) (by omega), Nat.add_sub_cancel_left, List.take_take, Nat.min_self]
  · intro ho
    have ho : bs.length ≤ w.room := of_decide_eq_true ho
    rw [hs, List.take_of_length_le ho, Writer.said, hb, List.append_nil]
  · intro ho
    have ho : ¬ bs.length ≤ w.room := of_decide_eq_false ho
    simp only [Writer.total, Writer.said, hb, List.append_nil, List.length_append]
    omega

theorem flush_wrote {w : Writer} (hb : w.buf.length ≤ w.cap) : Wrote w w.flush.1 [] w.flush.2 ∧ (w.flush.2 = true → w.flush.1.buf = []) := by
  have ht : w.flush.1.total = w.total := by
    simp only [Writer.flush, Writer.total, List.length_append, List.length_take]
    omega
  have hs : w.flush.1.said = w.said := by simp [Writer.flush, Writer.said]
  refine ⟨⟨?_, rfl, ht, ?_, ?_, ?_⟩, ?_⟩
  · simp only [Writer.flush, List.length_drop]; omega
  · rw [Writer.file_eq, ht, hs, List.append_nil]
  · intro _; rw [hs, List.append_nil]
  · intro ho
    have ho : ¬ w.buf.length ≤ w.room := of_decide_eq_false ho
    simp only [Writer.total, Writer.said, List.append_nil, List.length_append]
    omega
  · intro ho
    exact List.drop_eq_nil_of_le (of_decide_eq_true ho)

theorem push_wrote {w : Writer} {bs : Bytes} (h : w.buf.length + bs.length ≤ w.cap) : Wrote w { w with buf := w.buf ++ bs } bs true := by
  have hs : ({ w with buf := w.buf ++ bs } : Writer).said = w.said ++ bs := by simp [Writer.said]
  refine ⟨by simpa using h, rfl, rfl, ?_, fun _ => hs, fun h => by cases h⟩
  rw [Writer.file_eq, hs]; rfl

theorem Wrote.trans {w w1 w2 : Writer} {a b : Bytes} {ok : Bool} (h1 : Wrote w w1 a true) (h2 : Wrote w1 w2 b ok) : Wrote w w2 (a ++ b) ok := by
  have hs := h1.said rfl
  refine ⟨h2.sane, h2.cap.trans h1.cap, h2.total.trans h1.total, ?_, ?_, ?_⟩
  · rw [h2.file, hs, h1.total, List.append_assoc]
  · intro ho; rw [h2.said ho, hs, List.append_assoc]
  · intro ho
    have := h2.full ho
    rwa [hs, h1.total, List.append_assoc] at this

theorem Wrote.fail {w w1 : Writer} {a : Bytes} (h : Wrote w w1 a false) (b : Bytes) : Wrote w w1 (a ++ b) false := by
  have hf := h.full rfl
  refine ⟨h.sane, h.cap, h.total, ?_, nofun, ?_⟩
  · rw [h.file, ← List.append_assoc, List.take_append_of_le_length (Nat.le_of_lt hf)]
  · intro _
    rw [← List.append_assoc, List.length_append]
    omega

theorem write_wrote {w : Writer} (hb : w.buf.length ≤ w.cap) (bs : Bytes) : Wrote w (w.write bs).1 bs (w.write bs).2 := by
  unfold Writer.write
  split
  · exact push_wrote (by omega)
  · rename_i h1
    by_cases h2 : w.cap - w.buf.length < bs.length
    · obtain ⟨hf, hfb⟩ := flush_wrote hb
      rw [if_pos h2]
      cases hx : w.flush with
      | mk w1 ok =>
        rw [hx] at hf hfb
        cases ok with
        | false => exact hf.fail bs
        | true =>
          have hb1 : w1.buf = [] := hfb rfl
          have hc1 : w1.cap = w.cap := hf.cap
          simp only [if_true]
          have e : bs = [] ++ bs := rfl
          split
          · have := hf.trans (put_wrote hb1 bs)
            exact this
          · rename_i h3
            have := hf.trans (push_wrote (w := w1) (bs := bs) (by rw [hb1, List.length_nil]; omega))
            exact this
    · rw [if_neg h2]
      simp only [if_true]
      split
      · rename_i h3
        have hbe : w.buf = [] := List.length_eq_zero_iff.1 (by omega)
        exact put_wrote hbe bs
      · exact push_wrote (by omega)

theorem writeAll_wrote : ∀ (ps : List Bytes) {w : Writer}, w.buf.length ≤ w.cap → Wrote w (w.writeAll ps).1 ps.flatten (w.writeAll ps).2
  | [], w, hb => by
    refine ⟨hb, rfl, rfl, ?_, fun _ => by simp [Writer.writeAll], fun h => by cases h⟩
    rw [Writer.file_eq]; simp [Writer.writeAll]
  | p :: ps, w, hb => by
    have hw := write_wrote hb p
    rw [Writer.writeAll, List.flatten_cons]
    cases hx : w.write p with
    | mk w1 ok =>
      rw [hx] at hw
      cases ok with
      | false => exact hw.fail _
      | true => exact hw.trans (writeAll_wrote ps hw.sane)

/-- what an export does, if all the blocks are there -/
structure Exported (w w' : Writer) (bs : Bytes) (res : Except Err Unit) : Prop where
  sane : w'.buf.length ≤ w'.cap
  cap : w'.cap = w.cap
  total : w'.total = w.total
  file : w'.file = (w.said ++ bs).take w.total
  said : res = .ok () → w'.said = w.said ++ bs
  full : res ≠ .ok () → res = .error .io ∧ w.total < (w.said ++ bs).length

theorem exportBlocks_spec : ∀ (bl : List Bytes) {w : Writer}, w.buf.length ≤ w.cap → (∀ b ∈ bl, b.length < 2 ^ 32) →
    Exported w (exportBlocks (bl.map some) w).1 (frames bl) (exportBlocks (bl.map some) w).2
  | [], w, hb, _ => by
    refine ⟨hb, rfl, rfl, ?_, fun _ => by simp [exportBlocks, frames], fun h => absurd rfl h⟩
    rw [Writer.file_eq]; simp [exportBlocks, frames]
  | b :: bl, w, hb, hl => by
    have hw := writeAll_wrote [leBytes 4 b.length, b] hb
    have hfl : [leBytes 4 b.length, b].flatten = frames [b] := by simp [frames]
    rw [hfl] at hw
    rw [List.map_cons, exportBlocks, if_pos (hl b (List.mem_cons_self ..)), frames_cons]
    cases hx : w.writeAll [leBytes 4 b.length, b] with
    | mk w1 ok =>
      rw [hx] at hw
      cases ok with
      | false =>
        have hf := hw.fail (frames bl)
        exact ⟨hf.sane, hf.cap, hf.total, hf.file, nofun, fun _ => ⟨rfl, hf.full rfl⟩⟩
      | true =>
        have ih := exportBlocks_spec bl hw.sane (fun x hx => hl x (List.mem_cons_of_mem _ hx))
        have hs := hw.said rfl
        refine ⟨ih.sane, ih.cap.trans hw.cap, ih.total.trans hw.total, ?_, ?_, ?_⟩
        · rw [ih.file, hs, hw.total, List.append_assoc]
        · intro ho; rw [ih.said ho, hs, List.append_assoc]
        · intro ho
          obtain ⟨g1, g2⟩ := ih.full ho
          refine ⟨g1, ?_⟩
          rwa [hs, hw.total, List.append_assoc] at g2

theorem header_written {w : Writer} {chain : Bytes} {n : Nat} (hb : w.buf = []) (hc : chain.length = 4) (hw : 24 ≤ w.cap) :
    (w.writeAll [fileMagic, chain, leBytes 4 0, leBytes 8 n]).2 = true := by
  have push : ∀ (w : Writer) (bs : Bytes), w.buf.length + bs.length ≤ w.cap → bs.length < w.cap → w.write bs = ({ w with buf := w.buf ++ bs }, true) := by
    intro w bs h1 h2
    unfold Writer.write
    split
    · rfl
    · rw [if_neg (by omega)]
      simp only [if_true]
      rw [if_neg (by omega)]
  simp only [Writer.writeAll]
  have hf : fileMagic.length = 8 := rfl
  rw [push w fileMagic (by rw [hb, hf]; simp only [List.length_nil]; omega) (by rw [hf]; omega)]
  simp only
  rw [push _ chain (by simp only [hb, List.nil_append, hf, hc]; omega) (by simp only [hc]; omega)]
  simp only
  rw [push _ (leBytes 4 0) (by simp only [hb, List.nil_append, List.length_append, leBytes_length, hf, hc]; omega) (by simp only [leBytes_length]; omega)]
  simp only
  rw [push _ (leBytes 8 n) (by simp only [hb, List.nil_append, List.length_append, leBytes_length, hf, hc]; omega) (by simp only [leBytes_length]; omega)]

theorem exportStream_spec {chain : Bytes} {bl : List Bytes} {cap room : Nat} (hc : chain.length = 4) (hw : 24 ≤ cap) (hl : ∀ b ∈ bl, b.length < 2 ^ 32) :
    Exported { cap, room } (exportStream chain (bl.map some) { cap, room }).1 (file chain bl) (exportStream chain (bl.map some) { cap, room }).2 := by
  unfold exportStream
  rw [List.length_map]
  have hwr := writeAll_wrote [fileMagic, chain, leBytes 4 0, leBytes 8 bl.length] (w := { cap, room }) (Nat.zero_le _)
  have hok := header_written (w := { cap, room }) (n := bl.length) rfl hc hw
  have hfl : [fileMagic, chain, leBytes 4 0, leBytes 8 bl.length].flatten = start chain bl.length := by
    simp only [List.flatten_cons, List.flatten_nil, List.append_nil, start, List.append_assoc]; rfl
  rw [hfl] at hwr
  cases hx : ({ cap, room } : Writer).writeAll [fileMagic, chain, leBytes 4 0, leBytes 8 bl.length] with
  | mk w1 ok =>
    rw [hx] at hwr hok
    simp only at hok
    subst hok
    have ih := exportBlocks_spec bl hwr.sane hl
    have hs := hwr.said rfl
    refine ⟨ih.sane, ih.cap.trans hwr.cap, ih.total.trans hwr.total, ?_, ?_, ?_⟩
    · rw [ih.file, hs, hwr.total, List.append_assoc]; rfl
    · intro ho; rw [ih.said ho, hs, List.append_assoc]; rfl
    · intro ho
      obtain ⟨g1, g2⟩ := ih.full ho
      refine ⟨g1, ?_⟩
      rwa [hs, hwr.total, List.append_assoc] at g2

/-- a listed block that is not there ends the export with an error -/
theorem exportBlocks_missing : ∀ (l : List (Option Bytes)) (w : Writer), none ∈ l → ∃ e, (exportBlocks l w).2 = .error e
  | [], _, h => by cases h
  | none :: _, w, _ => ⟨_, rfl⟩
  | some b :: l, w, h => by
    rw [exportBlocks]
    split
    · cases hx : w.writeAll [leBytes 4 b.length, b] with
      | mk w1 ok =>
        cases ok with
        | false => exact ⟨_, rfl⟩
        | true => exact exportBlocks_missing l w1 (by simpa using h)
    · exact ⟨_, rfl⟩

theorem exportStream_missing {chain : Bytes} {l : List (Option Bytes)} (w : Writer) (h : none ∈ l) : ∃ e, (exportStream chain l w).2 = .error e := by
  unfold exportStream
  cases hx : w.writeAll [fileMagic, chain, leBytes 4 0, leBytes 8 l.length] with
  | mk w1 ok =>
    cases ok with
    | false => exact ⟨_, rfl⟩
    | true => exact exportBlocks_missing l w1 h

end Verif.Bootstrap
