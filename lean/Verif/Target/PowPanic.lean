import Verif.Target.Props
import Verif.BlockTree.Props
set_option maxRecDepth 100000

/-!
# C41: an acceptable chain of proof of work blocks on which the node panics

A proof of work network with the main network's limit.  All blocks are dated 1000 except block 2016, which is dated 2000.  All 4031 blocks are
accepted, and checking any block on top of the last one panics in the computation of the timespan.
-/

namespace Verif.Target
open Verif Spec
open Verif.BlockTree (getGen getGen_block getGen_genesis)
open Verif.BlockTree.Spec (Up)

def wTime (n : Nat) : Nat := if n = 2016 then 2000 else 1000

def wP : Params where
  tree := { genesisId := 0, genesisTime := 1000, body := fun n => ⟨n - 1, wTime n, 0, 1⟩ }
  upgrades := [(0, .ignore), (1, .pow 0x1d00ffff)]
  cons := fun n => .pow (if n < 2016 then 0x1d00ffff else 0x1c3fffc0)
  hash := fun _ => 0
  spacing := 120
  pow := ⟨false, false, 2 ^ 224 - 1⟩

theorem w_up {s x k a} (h : Up wP.tree s x k a) : a + k = x := by
  induction h with
  | here _ => rfl
  | @step x a k b h1 _ _ ih =>
    have h2 : (wP.tree.body x).prev = x - 1 := rfl
    have h3 : x ≠ 0 := h1
    omega

/-- timestamps of the past in a linear store -/
theorem w_history {s} (hi : BlockTree.Inv wP.tree s) : ∀ (k n : Nat), (∀ j, 1 ≤ j → j ≤ n → ∃ b, s.get j = some b) →
    ((BlockTree.history wP.tree s k n).map (BlockTree.Gen.timestamp wP.tree)) = (List.range (min k (n+1))).map (fun i => wTime (n - i)) := by
  intro k
  induction k with
  | zero => intro n _; simp [BlockTree.history]
  | succ k ih =>
    intro n hn
    cases n with
    | zero =>
      have : getGen wP.tree s 0 = some .genesis := getGen_genesis wP.tree s
      have e : min (k+1) (0+1) = 1 := by omega
      rw [e]
      simp only [BlockTree.history, this]
      rfl
    | succ n =>
      obtain ⟨b, hb⟩ := hn (n+1) (by omega) (le_refl _)
      have hg := hi _ _ hb
      have hprev : b.prev = n := hg.prev_eq
      simp only [BlockTree.history, getGen_block hg.not_genesis hb, List.map_cons, hprev]
      rw [ih n (fun j h1 h2 => hn j h1 (by omega))]
      have e : min (k+1) (n+1+1) = min k (n+1) + 1 := by omega
      rw [e, List.range_succ_eq_map, List.map_cons, List.map_map]
      refine congrArg₂ List.cons hg.time_eq ?_
      apply List.map_congr_left
      intro i _
      simp only [Function.comp]
      congr 1
      omega

theorem count_range_le_one (n : Nat) : ∀ k, (List.range k).countP (fun i => decide (1001 ≤ wTime (n - i))) ≤ (List.range k).countP (fun i => decide (i = n - 2016)) := by
  intro k
  apply List.countP_mono_left
  intro i _ h
  simp only [decide_eq_true_eq] at h ⊢
  by_cases hc : n - i = 2016
  · omega
  · rw [wTime, if_neg hc] at h; omega

theorem count_eq_le_one (m : Nat) : ∀ k, (List.range k).countP (fun i => decide (i = m)) ≤ 1 := by
  intro k
  have : (List.range k).countP (fun i => decide (i = m)) = (List.range k).count m := by
    simp only [List.count]; congr 1
  rw [this]
  exact List.nodup_iff_count_le_one.1 List.nodup_range m

theorem w_median {s} (hi : BlockTree.Inv wP.tree s) {n m} (hn : ∀ j, 1 ≤ j → j ≤ n → ∃ b, s.get j = some b)
    (hm : BlockTree.medianTimePast wP.tree s n = .ok m) : m ≤ 1000 := by
  by_contra hgt
  have hm2 : BlockTree.medianOf ((BlockTree.history wP.tree s 11 n).map (BlockTree.Gen.timestamp wP.tree)) = .ok m := hm
  obtain ⟨hmem, h1, -, -⟩ := BlockTree.medianOf_facts hm2
  rw [w_history hi 11 n hn] at h1 hmem
  obtain ⟨i, hi1, hi2⟩ := List.mem_map.1 hmem
  have h3 : 2016 ≤ n := by
    simp only [wTime] at hi2
    split at hi2 <;> omega
  have h2 : BlockTree.geCount m ((List.range (min 11 (n+1))).map (fun i => wTime (n - i))) ≤ 1 := by
    simp only [BlockTree.geCount, List.countP_map]
    refine le_trans (le_trans ?_ (count_range_le_one n _)) (count_eq_le_one (n - 2016) (min 11 (n+1)))
    apply List.countP_mono_left
    intro i _ h
    simp only [Function.comp, decide_eq_true_eq] at h ⊢
    omega
  rw [List.length_map, List.length_range] at h1
  omega

theorem w_status (n : Nat) (hn : n ≠ 0) : status wP.upgrades n = .ok (if 1 < n then .powOngoing else .powThreshold 0x1d00ffff) := by
  have h1 : 1 ≤ n := by omega
  simp only [status, versionAt, wP, List.reverse_cons, List.reverse_nil, List.nil_append, List.cons_append, List.find?_cons, h1, decide_true]

theorem w_cons_decode (n : Nat) : ∃ t, Compact.decode (if n < 2016 then 0x1d00ffff else 0x1c3fffc0) = .ok t := by
  split
  · exact ⟨0xffff * 256 ^ 26, by decide +kernel⟩
  · exact ⟨0x3fffc0 * 256 ^ 25, by decide +kernel⟩

/-- the first retarget: a quarter -/
theorem w_retarget_value : Compact.encode (powValue wP.pow.limit (0xffff * 256 ^ 26) (max (1209600 / 4) (min (1209600 * 4) 0))) = 0x1c3fffc0 := by
  decide +kernel

/-- the chain up to block `n` is acceptable -/
theorem w_accepted : ∀ n, n ≤ 4031 → ∃ s, Accepted wP s ∧ (∀ j, n < j → s.get j = none) ∧
    ∀ j, 1 ≤ j → j ≤ n → ∃ b, s.get j = some b ∧ b.height = j := by
  intro n
  induction n with
  | zero => intro _; exact ⟨BMap.empty, .init, fun j _ => by simp, fun j h1 h2 => by omega⟩
  | succ n ih =>
    intro hn
    obtain ⟨s, hacc, hnone, hsome⟩ := ih (by omega)
    obtain ⟨ck, hr, -⟩ := accepted_reachable hacc
    have hi := accepted_tree hacc
    have hsome' : ∀ j, 1 ≤ j → j ≤ n → ∃ b, s.get j = some b := fun j h1 h2 => by
      obtain ⟨b, hb, -⟩ := hsome j h1 h2; exact ⟨b, hb⟩
    have hprev : (wP.tree.body (n+1)).prev = n := rfl
    -- the parent
    have hpar : ∃ x, getGen wP.tree s n = some x ∧ x.height = n := by
      by_cases h0 : n = 0
      · subst h0; exact ⟨.genesis, getGen_genesis wP.tree s, rfl⟩
      · obtain ⟨b, hb, hh⟩ := hsome n (by omega) (le_refl _)
        exact ⟨.block b, getGen_block h0 hb, hh⟩
    obtain ⟨x, hx, hxh⟩ := hpar
    -- the consensus check passes
    have hv : validateConsensus wP s (n+1) = .ok () := by
      have hcons : wP.cons (n+1) = .pow (if n + 1 < 2016 then 0x1d00ffff else 0x1c3fffc0) := rfl
      obtain ⟨t, ht⟩ := w_cons_decode (n+1)
      have hck : ∀ i, powTarget wP s i (n+1) = .ok (if n + 1 < 2016 then 0x1d00ffff else 0x1c3fffc0) →
          checkPow wP s i (n+1) (if n + 1 < 2016 then 0x1d00ffff else 0x1c3fffc0) = .ok () :=
        fun i h => C41_accept.2 ⟨h, t, ht, Nat.zero_le _⟩
      simp only [validateConsensus, hprev, hx, okOr, bind, Except.bind, hxh, w_status (n+1) (by omega), hcons]
      by_cases h0 : n = 0
      · subst h0
        exact hck (some 0x1d00ffff) rfl
      · rw [if_pos (by omega)]
        refine hck none ?_
        obtain ⟨b, hb, hh⟩ := hsome n (by omega) (le_refl _)
        have hid := (hi _ _ hb).id_eq
        have hne : ¬ n = wP.tree.genesisId := h0
        simp only [powTarget, hprev, if_neg hne, hb]
        have hcb : wP.cons n = .pow (if n < 2016 then 0x1d00ffff else 0x1c3fffc0) := rfl
        by_cases hdue : n + 1 = 2016
        · have hn' : n < 2016 := by omega
          rw [if_pos hn'] at hcb
          obtain ⟨a, y, hup, hy, -, hok⟩ := C41_retarget hr hb hcb (old := 0xffff * 256 ^ 26) (by decide +kernel) rfl (by omega) (wP.tree.body (n+1)).timestamp
          have ha := w_up hup
          have ha0 : a = 0 := by omega
          subst ha0
          have : getGen wP.tree s 0 = some .genesis := getGen_genesis wP.tree s
          rw [this] at hy; cases hy
          have ht1 : b.timestamp = 1000 := by
            rw [(hi _ _ hb).time_eq]
            show wTime n = 1000
            rw [wTime, if_neg (by omega)]
          have ht2 : BlockTree.Gen.timestamp wP.tree .genesis = 1000 := rfl
          rw [hok (by omega), ht1, ht2, if_neg (by omega)]
          exact congrArg Except.ok w_retarget_value
        · have hts : b.timestamp + 1200 < 2 ^ 64 := by
            rw [(hi _ _ hb).time_eq]
            have : (wP.tree.body n).timestamp = wTime n := rfl
            rw [this, wTime]; split <;> omega
          rw [C41_between (bits := if n < 2016 then 0x1d00ffff else 0x1c3fffc0) (by rw [hid]; exact hcb) _ (Or.inr (by omega)) hts]
          have hf : ¬ (wP.pow.noRetargeting = false ∧ wP.pow.allowMinDifficulty = true ∧ b.timestamp + 1200 < (wP.tree.body (n+1)).timestamp) := by
            rintro ⟨-, h, -⟩; cases h
          rw [if_neg hf]
          congr 1
          split <;> split <;> first | rfl | omega
    -- the index check passes
    have hadd : ∃ s', BlockTree.addBlock wP.tree s (n+1) = .ok s' := by
      cases ha : BlockTree.addBlock wP.tree s (n+1) with
      | ok s' => exact ⟨s', rfl⟩
      | error e =>
        exfalso
        rcases BlockTree.C28_add_errors hr ha with ⟨-, h⟩ | ⟨-, m, h1, h2⟩
        · exact h (BlockTree.known_iff.2 ⟨x, hx⟩)
        · rw [hprev] at h1
          have := w_median hi hsome' h1
          have h3 : (wP.tree.body (n+1)).timestamp = wTime (n+1) := rfl
          rw [h3, wTime] at h2
          split at h2 <;> omega
    obtain ⟨s', hs'⟩ := hadd
    refine ⟨s', .add hacc (by show n + 1 ≠ 0; omega) (hnone _ (by omega)) hv hs', ?_⟩
    obtain ⟨y, a, -, -, h7⟩ := BlockTree.createIndex_ok hi (id := n+1) (p := x) (by rw [hprev]; exact hx)
    have hs2 := hs'
    unfold BlockTree.addBlock at hs2
    simp only [h7, bind_eq_ok, ensure_eq_ok, pure_eq_ok, Except.ok.injEq] at hs2
    obtain ⟨idx, rfl, m, -, -, -, h6⟩ := hs2
    rw [← h6]
    refine ⟨fun j hj => ?_, fun j h1 h2 => ?_⟩
    · rw [BMap.get_insert_ne _ _ (by omega)]; exact hnone j (by omega)
    · by_cases hj : j = n + 1
      · subst hj
        refine ⟨_, BMap.get_insert_self _ _ _, ?_⟩
        simp only [BlockTree.newIdx, hxh]
      · rw [BMap.get_insert_ne _ _ hj]
        exact hsome j h1 (by omega)

/-- **C41.** There are chains of 4031 acceptable proof of work blocks, dated at most 1000 seconds apart and obeying all time rules, after which the
check of every further block panics. -/
theorem C41_panic_reachable : ∃ p s, Accepted p s ∧ ∃ b, s.get 4031 = some b ∧ b.height = 4031 ∧
    ∀ newTime, workRequired p s b newTime = .error .panicTimespan := by
  obtain ⟨s, hacc, -, hsome⟩ := w_accepted 4031 (le_refl _)
  obtain ⟨b, hb, hh⟩ := hsome 4031 (by omega) (le_refl _)
  refine ⟨wP, s, hacc, b, hb, hh, ?_⟩
  intro newTime
  have hi := accepted_tree hacc
  have hcb : wP.cons 4031 = .pow 0x1c3fffc0 := rfl
  obtain ⟨a, y, hup, hy, hpanic, -⟩ := C41_retarget (accepted_reachable hacc).choose_spec.1 hb hcb (old := 0x3fffc0 * 256 ^ 25) (by decide +kernel) rfl (by omega) newTime
  apply hpanic
  have ha := w_up hup
  have ha0 : a = 2016 := by omega
  subst ha0
  rw [timestamp_eq hi hy, (hi _ _ hb).time_eq]
  decide

end Verif.Target
