import Verif.Slots.Spec

namespace Verif.Slots
open Verif

theorem collect_get (c : Chain) (h : Nat) (ps : List Nat) (p : Nat) :
    (collectBalances c h ps).get p = if p ∈ ps then c.bal h p else none := by
  induction ps with
  | nil => rfl
  | cons q ps ih =>
    unfold collectBalances
    by_cases hq : p = q
    · subst hq
      cases hb : c.bal h p with
      | none => simp only [ih, hb]; split <;> simp
      | some b => simp [BMap.get_insert]
    · cases hb : c.bal h q with
      | none => simp [ih, hq]
      | some b => simp [BMap.get_insert, ih, hq]

theorem entries_nil_iff {K V : Type} [LinearOrder K] (m : BMap K V) : m.entries = [] ↔ ∀ k, m.get k = none := by
  constructor
  · intro h k; simp [BMap.get, h, BMap.lookupL]
  · intro h
    match he : m.entries with
    | [] => rfl
    | (k, v) :: t =>
      have : m.get k = some v := BMap.mem_entries.1 (by simp [he])
      rw [h k] at this; cases this

theorem mem_keys {K V : Type} [LinearOrder K] (m : BMap K V) (k : K) :
    k ∈ m.entries.map (·.1) ↔ (m.get k).isSome := by
  constructor
  · intro h
    obtain ⟨⟨k', v⟩, hm, rfl⟩ := List.mem_map.1 h
    rw [BMap.mem_entries.1 hm]; rfl
  · intro h
    obtain ⟨v, hv⟩ := Option.isSome_iff_exists.1 h
    exact List.mem_map.2 ⟨(k, v), BMap.mem_entries.2 hv, rfl⟩

/-- two-level lookup -/
def look (m : BMap Nat (BMap Nat Bal)) (h p : Nat) : Option Bal := (m.get h).bind fun b => b.get p

theorem loop_look {c : Chain} (hl : Lifetimes c) (P : List Nat) (lo hi : Nat) :
    ∀ (n : Nat) (pools had : List Nat) (acc : BMap Nat (BMap Nat Bal)), lo + n ≤ c.best →
      (∀ p ∈ P, p ∉ pools → ∀ h < lo + n, c.bal h p = none) → (∀ p ∈ pools, p ∈ P) →
      (∀ p ∈ had, ∃ h, lo + n ≤ h ∧ h ≤ c.best ∧ (c.bal h p).isSome) →
      (∀ h < lo + n, acc.get h = none) →
      ∀ h p, look (balanceLoop c lo hi n pools had acc) h p =
        if lo ≤ h ∧ h < lo + n ∧ h ≤ hi then (if p ∈ P then c.bal h p else none) else look acc h p := by
  intro n
  induction n with
  | zero => intro pools had acc _ _ _ _ _ h p; rw [if_neg (by omega)]; rfl
  | succ n ih =>
    intro pools had acc hn h1 h2 h3 h4 h p
    have key : ∀ p, (collectBalances c (lo + n) pools).get p = if p ∈ P then c.bal (lo + n) p else none := by
      intro p
      rw [collect_get]
      by_cases hp : p ∈ pools
      · simp [hp, h2 p hp]
      · by_cases hP : p ∈ P
        · simp [hp, hP, h1 p hP hp (lo + n) (by omega)]
        · simp [hp, hP]
    generalize hb : collectBalances c (lo + n) pools = bs at key
    generalize hp' : (pools.filter fun p => !had.contains p || (bs.get p).isSome) = pools'
    generalize ha' : (if lo + n ≤ hi ∧ bs.entries ≠ [] then acc.insert (lo + n) bs else acc) = acc'
    have hmem : ∀ p, p ∈ pools' ↔ p ∈ pools ∧ (p ∉ had ∨ (bs.get p).isSome) := by
      intro p; rw [← hp']; simp [List.mem_filter]
    have hlook : ∀ h p, look acc' h p = if h = lo + n ∧ h ≤ hi then (if p ∈ P then c.bal h p else none) else look acc h p := by
      intro h p
      rw [← ha']
      by_cases hh : h = lo + n
      · subst hh
        by_cases hle : lo + n ≤ hi
        · by_cases he : bs.entries = []
          · have hz := (entries_nil_iff bs).1 he p
            rw [key p] at hz
            simp [he, hle, hz, look, h4 (lo + n) (by omega)]
          · simp [he, hle, look, BMap.get_insert, key p]
        · simp [hle]
      · by_cases hc : lo + n ≤ hi ∧ bs.entries ≠ []
        · simp [hc, hh, look, BMap.get_insert]
        · simp only [hc, hh, if_false, false_and]
    have g1 : ∀ p ∈ P, p ∉ pools' → ∀ h < lo + n, c.bal h p = none := by
      intro p hP hnp h hh
      by_cases hp : p ∈ pools
      · have : p ∈ had ∧ ¬ (bs.get p).isSome := by
          constructor
          · by_contra hc; exact hnp ((hmem p).2 ⟨hp, Or.inl hc⟩)
          · intro hc; exact hnp ((hmem p).2 ⟨hp, Or.inr hc⟩)
        obtain ⟨h', q1, q2, q3⟩ := h3 p this.1
        rw [key p, if_pos hP] at this
        by_contra hc
        exact this.2 (hl p h (lo + n) h' (by omega) (by omega) q2 (Option.isSome_iff_ne_none.2 hc) q3)
      · exact h1 p hP hp h (by omega)
    have goal : look (if pools' = [] then acc' else balanceLoop c lo hi n pools' (had ++ bs.entries.map (·.1)) acc') h p =
        if lo ≤ h ∧ h < lo + (n + 1) ∧ h ≤ hi then (if p ∈ P then c.bal h p else none) else look acc h p := by
      by_cases he : pools' = []
      · rw [if_pos he, hlook]
        by_cases hh : h = lo + n
        · subst hh; by_cases hle : lo + n ≤ hi <;> simp [hle]
        · by_cases hr : lo ≤ h ∧ h < lo + (n + 1) ∧ h ≤ hi
          · have hlt : h < lo + n := by omega
            rw [if_neg (by omega), if_pos hr, look, h4 h (by omega)]
            split
            · rename_i hP; rw [g1 p hP (by simp [he]) h hlt]; rfl
            · rfl
          · rw [if_neg (by omega), if_neg hr]
      · rw [if_neg he, ih pools' _ acc' (by omega) g1 (fun p hp => h2 p ((hmem p).1 hp).1) ?_ ?_ h p, hlook]
        · by_cases hh : h = lo + n
          · subst hh; by_cases hle : lo + n ≤ hi <;> simp [hle]
          · by_cases hr : lo ≤ h ∧ h < lo + (n + 1) ∧ h ≤ hi
            · rw [if_pos (by omega), if_pos hr]
            · rw [if_neg (by omega), if_neg (by omega), if_neg hr]
        · intro p hp
          rcases List.mem_append.1 hp with hp | hp
          · obtain ⟨h', q1, q2, q3⟩ := h3 p hp; exact ⟨h', by omega, q2, q3⟩
          · have := (mem_keys bs p).1 hp
            rw [key p] at this
            split at this
            · exact ⟨lo + n, le_refl _, by omega, this⟩
            · cases this
        · intro h hh
          rw [← ha']; split
          · rw [BMap.get_insert, if_neg (by omega)]; exact h4 h (by omega)
          · exact h4 h (by omega)
    rw [← goal, balanceLoop]
    simp only [hb, hp', ha']

theorem loop_nonempty (c : Chain) (lo hi : Nat) :
    ∀ (n : Nat) (pools had : List Nat) (acc : BMap Nat (BMap Nat Bal)), (∀ h m, acc.get h = some m → m.entries ≠ []) →
      ∀ h m, (balanceLoop c lo hi n pools had acc).get h = some m → m.entries ≠ [] := by
  intro n
  induction n with
  | zero => intro _ _ acc ha; exact ha
  | succ n ih =>
    intro pools had acc ha
    have ha' : ∀ h m, (if lo + n ≤ hi ∧ (collectBalances c (lo + n) pools).entries ≠ [] then
        acc.insert (lo + n) (collectBalances c (lo + n) pools) else acc).get h = some m → m.entries ≠ [] := by
      intro h m hm
      split at hm
      · rename_i hc
        rw [BMap.get_insert] at hm
        split at hm
        · cases hm; exact hc.2
        · exact ha h m hm
      · exact ha h m hm
    rw [balanceLoop]
    split
    · exact ha'
    · exact ih _ _ _ ha'

theorem balances_ok {c : Chain} (hl : Lifetimes c) {P : List Nat} {lo hi : Nat} {m : BMap Nat (BMap Nat Bal)}
    (hm : balancesAtHeights c P lo hi = .ok m) :
    (lo ≤ hi ∧ hi ≤ c.best) ∧ (∀ h p, look m h p = if lo ≤ h ∧ h ≤ hi then (if p ∈ P then c.bal h p else none) else none) ∧
      ∀ h b, m.get h = some b → b.entries ≠ [] := by
  unfold balancesAtHeights at hm
  obtain ⟨_, he, hm⟩ := bind_eq_ok.1 hm
  have he := ensure_eq_ok.1 he
  have nil : ∀ h p, look (BMap.empty : BMap Nat (BMap Nat Bal)) h p = none := fun _ _ => rfl
  refine ⟨he, ?_⟩
  by_cases hb : hi = c.best
  · rw [if_pos hb] at hm
    simp only [] at hm
    generalize ha : (if (collectBalances c c.best P).entries ≠ [] then
        (BMap.empty : BMap Nat (BMap Nat Bal)).insert c.best (collectBalances c c.best P) else BMap.empty) = acc at hm
    have hacc : ∀ h p, look acc h p = if h = c.best then (if p ∈ P then c.bal h p else none) else none := by
      intro h p
      rw [← ha]
      by_cases hh : h = c.best
      · subst hh
        by_cases hz : (collectBalances c c.best P).entries = []
        · have := (entries_nil_iff _).1 hz p
          rw [collect_get] at this
          simp [hz, nil, this]
        · simp [hz, look, BMap.get_insert, collect_get]
      · rw [if_neg hh]; split
        · rw [look, BMap.get_insert, if_neg hh]; rfl
        · rfl
    have hne : ∀ h b, acc.get h = some b → b.entries ≠ [] := by
      intro h b hg; rw [← ha] at hg
      split at hg
      · rename_i hz
        rw [BMap.get_insert] at hg
        split at hg
        · cases hg; exact hz
        · cases hg
      · cases hg
    by_cases hlo : hi = lo
    · rw [if_pos hlo] at hm
      have := pure_eq_ok.1 hm; subst this
      refine ⟨fun h p => ?_, hne⟩
      rw [hacc]
      by_cases hh : h = c.best
      · rw [if_pos hh, if_pos (show lo ≤ h ∧ h ≤ hi by omega)]
      · rw [if_neg hh, if_neg (by omega)]
    · rw [if_neg hlo] at hm
      have := pure_eq_ok.1 hm; subst this
      refine ⟨fun h p => ?_, loop_nonempty c lo _ _ _ _ _ hne⟩
      rw [loop_look hl P lo (hi - 1) (c.best - lo) P [] acc (by omega) (fun p hp hn => absurd hp hn) (fun _ h => h)
        (by simp) ?_ h p, hacc]
      · by_cases hh : h = c.best
        · rw [if_neg (by omega), if_pos hh, if_pos (show lo ≤ h ∧ h ≤ hi by omega)]
        · by_cases hr : lo ≤ h ∧ h ≤ hi
          · rw [if_pos (by omega), if_pos hr]
          · rw [if_neg (by omega), if_neg hh, if_neg hr]
      · intro h hh
        rw [← ha]; split
        · rw [BMap.get_insert, if_neg (by omega)]; rfl
        · rfl
  · rw [if_neg hb] at hm
    have := pure_eq_ok.1 hm; subst this
    refine ⟨fun h p => ?_, loop_nonempty c lo _ _ _ _ _ (by intro h b hg; cases hg)⟩
    rw [loop_look hl P lo hi (c.best - lo) P [] _ (by omega) (fun p hp hn => absurd hp hn) (fun _ h => h)
      (by simp) (fun _ _ => rfl) h p, nil]
    by_cases hr : lo ≤ h ∧ h ≤ hi
    · rw [if_pos (by omega), if_pos hr]
    · rw [if_neg (by omega), if_neg hr]

/-! ### Search data -/

theorem mem_poolBalances (m : BMap Nat (BMap Nat Bal)) (pool h : Nat) (b : Bal) :
    (h, b) ∈ poolBalances m pool ↔ look m h pool = some b := by
  unfold poolBalances look
  rw [List.mem_filterMap]
  constructor
  · rintro ⟨⟨k, v⟩, hm, he⟩
    rw [BMap.mem_entries] at hm
    cases hg : v.get pool with
    | none => simp [hg] at he
    | some b' =>
      simp only [hg, Option.map_some, Option.some.injEq, Prod.mk.injEq] at he
      obtain ⟨rfl, rfl⟩ := he
      simp [hm, hg]
  · intro hb
    cases hg : m.get h with
    | none => simp [hg] at hb
    | some v =>
      simp only [hg, Option.bind_some] at hb
      exact ⟨(h, v), BMap.mem_entries.2 hg, by simp [hb]⟩

theorem expect_eq (m : BMap Nat (BMap Nat Bal)) (pool h : Nat) :
    expectBal ((poolBalances m pool).find? fun e => e.1 = h) =
      match look m h pool with
      | some b => .ok b
      | none => .error .panic := by
  cases hf : (poolBalances m pool).find? fun e => e.1 = h with
  | none =>
    cases hl : look m h pool with
    | none => rfl
    | some b =>
      have := List.find?_eq_none.1 hf _ ((mem_poolBalances m pool h b).2 hl)
      simp at this
  | some e =>
    obtain ⟨k, b⟩ := e
    have h1 := List.find?_some hf
    have h2 := List.mem_of_find?_eq_some hf
    simp only [decide_eq_true_eq] at h1
    subst h1
    rw [(mem_poolBalances m pool k b).1 h2]; rfl

theorem poolBalances_head {m : BMap Nat (BMap Nat Bal)} {pool first : Nat} {b : Bal} {t : List (Nat × Bal)}
    (h : poolBalances m pool = (first, b) :: t) :
    look m first pool = some b ∧ ∀ k, (look m k pool).isSome → first ≤ k := by
  refine ⟨(mem_poolBalances m pool first b).1 (by rw [h]; simp), fun k hk => ?_⟩
  obtain ⟨b', hb'⟩ := Option.isSome_iff_exists.1 hk
  have hs : (poolBalances m pool).Pairwise fun a b => a.1 < b.1 := by
    unfold poolBalances
    refine List.Pairwise.filterMap _ ?_ m.sorted
    intro a a' hlt x hx y hy
    simp only [Option.map_eq_some_iff] at hx hy
    obtain ⟨_, _, rfl⟩ := hx
    obtain ⟨_, _, rfl⟩ := hy
    exact hlt
  have hmem := (mem_poolBalances m pool k b').2 hb'
  rw [h] at hmem hs
  rcases List.mem_cons.1 hmem with he | he
  · cases he; exact le_refl _
  · exact le_of_lt ((List.pairwise_cons.1 hs).1 _ he)

/-- the data of a height are those of the chain -/
def GoodItem (c : Chain) (pool hi secs : Nat) (all : Bool) (h : Nat) (i : Item) : Prop :=
  i.rnd = c.rnd h ∧ i.epoch = c.epoch h ∧ targetAt c h = .ok i.target ∧ c.bal (h - 1) pool = some i.bal ∧
    c.version h = .ok i.version ∧ i.minTs = c.time (h - 1) + 1 ∧
    i.maxTs = if all = true ∧ h < hi then c.time h else c.time (h - 1) + 1 + secs

def AllGood (c : Chain) (pool hi secs : Nat) (all : Bool) : Nat → List Item → Prop
  | h, [] => h = hi + 1
  | h, i :: is => GoodItem c pool hi secs all h i ∧ AllGood c pool hi secs all (h + 1) is

theorem addSecs_ok {t s r : Nat} (h : addSecs t s = .ok r) : r = t + s := by
  unfold addSecs at h; split at h
  · cases h; rfl
  · cases h

theorem obtainLoop_good {c : Chain} {m : BMap Nat (BMap Nat Bal)} {pool hi secs : Nat} {all : Bool}
    (hhi : hi ≤ c.best + 1) :
    ∀ (n s : Nat) (prev : Option Nat) (items : List Item), 1 ≤ s → s + n = hi + 1 →
      (∀ h, s ≤ h → h ≤ hi → look m (h - 1) pool = c.bal (h - 1) pool) → prev.getD (c.time (s - 1)) = c.time (s - 1) →
      obtainLoop c (poolBalances m pool) hi secs all prev (List.range' s n) = .ok items →
      AllGood c pool hi secs all s items := by
  intro n
  induction n with
  | zero =>
    intro s prev items _ hs _ _ h
    simp only [List.range'_zero, obtainLoop] at h
    cases h; simpa [AllGood] using hs
  | succ n ih =>
    intro s prev items h1 hs hb hp h
    rw [List.range'_succ, obtainLoop] at h
    obtain ⟨b, e1, h⟩ := bind_eq_ok.1 h
    rw [expect_eq, hb s (le_refl _) (by omega)] at e1
    have e1 : c.bal (s - 1) pool = some b := by
      cases hx : c.bal (s - 1) pool with
      | none => rw [hx] at e1; cases e1
      | some b' => rw [hx] at e1; cases e1; rfl
    obtain ⟨v, e2, h⟩ := bind_eq_ok.1 h
    by_cases hbest : s = c.best + 1
    · rw [if_pos hbest] at h
      obtain ⟨tg, e3, h⟩ := bind_eq_ok.1 h
      obtain ⟨mn, e4, h⟩ := bind_eq_ok.1 h
      obtain ⟨mx, e5, h⟩ := bind_eq_ok.1 h
      obtain ⟨rest, e6, h⟩ := bind_eq_ok.1 h
      have := pure_eq_ok.1 h; subst this
      have hn : n = 0 := by omega
      subst hn
      simp only [List.range'_zero, obtainLoop] at e6
      cases e6
      have e4 := addSecs_ok e4
      have e5 := addSecs_ok e5
      subst e4 e5
      have hs1 : s - 1 = c.best := by omega
      refine ⟨⟨rfl, rfl, ?_, e1, e2, ?_, ?_⟩, ?_⟩
      · unfold targetAt; rw [if_neg (by omega)]; exact e3
      · rw [hs1]
      · rw [if_neg (by omega), hs1]
      · show s + 1 = hi + 1; omega
    · rw [if_neg hbest] at h
      obtain ⟨tg, e3, h⟩ := bind_eq_ok.1 h
      rw [hp] at h
      obtain ⟨sc, e4, h⟩ := bind_eq_ok.1 h
      obtain ⟨mn, e5, h⟩ := bind_eq_ok.1 h
      obtain ⟨mx, e6, h⟩ := bind_eq_ok.1 h
      obtain ⟨rest, e7, h⟩ := bind_eq_ok.1 h
      have := pure_eq_ok.1 h; subst this
      have e5 := addSecs_ok e5
      have e6 := addSecs_ok e6
      subst e5 e6
      refine ⟨⟨rfl, rfl, ?_, e1, e2, rfl, ?_⟩, ?_⟩
      · unfold targetAt; rw [if_pos (by omega)]; exact e3
      · show c.time (s - 1) + 1 + sc = _
        unfold secondsToCheck at e4
        by_cases hc : s = hi ∨ all = false
        · rw [if_pos hc] at e4
          cases e4
          rw [if_neg]
          rintro ⟨q1, q2⟩
          rcases hc with hc | hc
          · omega
          · rw [hc] at q1; cases q1
        · rw [if_neg hc] at e4
          have ha : all = true := by
            cases all with
            | true => rfl
            | false => exact absurd (Or.inr rfl) hc
          have hlt : s < hi := by
            have : s ≠ hi := fun e => hc (Or.inl e)
            omega
          rw [if_pos ⟨ha, hlt⟩]
          split at e4
          · cases e4; omega
          · cases e4
      · exact ih (s + 1) (some (c.time s)) rest (by omega) (by omega) (fun h q1 q2 => hb h (by omega) q2) (by simp) e7

/-! ### The search -/

theorem precompute_ok {hash : HashInput → Except Err Nat} : ∀ {xs l}, precompute hash xs = .ok l →
    (∀ x y, hashFor hash (some l) x = .ok y → hash x = .ok y) ∧ ∀ x ∈ xs, hashFor hash (some l) x = hash x := by
  intro xs
  induction xs with
  | nil =>
    intro l h
    cases h
    exact ⟨fun x y h => by simp [hashFor] at h, by simp⟩
  | cons a xs ih =>
    intro l h
    rw [precompute] at h
    obtain ⟨y, e1, h⟩ := bind_eq_ok.1 h
    obtain ⟨r, e2, h⟩ := bind_eq_ok.1 h
    have := pure_eq_ok.1 h; subst this
    obtain ⟨i1, i2⟩ := ih e2
    have step : ∀ x, hashFor hash (some ((a, y) :: r)) x = if x = a then .ok y else hashFor hash (some r) x := by
      intro x
      by_cases hx : x = a
      · subst hx; simp [hashFor]
      · have : ¬ a = x := fun e => hx e.symm
        simp [hashFor, hx, this]
    refine ⟨fun x z hz => ?_, fun x hx => ?_⟩
    · rw [step] at hz
      split at hz
      · rename_i he; rw [he, e1]; exact hz
      · exact i1 x z hz
    · rw [step]
      by_cases he : x = a
      · subst he; rw [if_pos rfl, e1]
      · rw [if_neg he]
        exact i2 x ((List.mem_cons.1 hx).resolve_left he)

theorem precompute_err {hash : HashInput → Except Err Nat} : ∀ {xs}, (precompute hash xs).isOk = false →
    ∃ x ∈ xs, (hash x).isOk = false := by
  intro xs
  induction xs with
  | nil => intro h; cases h
  | cons a xs ih =>
    intro h
    cases ha : hash a with
    | error e => exact ⟨a, by simp, by rw [ha]; rfl⟩
    | ok y =>
      cases hr : precompute hash xs with
      | error e =>
        obtain ⟨x, q1, q2⟩ := ih (by rw [hr]; rfl)
        exact ⟨x, by simp [q1], q2⟩
      | ok r => rw [precompute, ha, hr] at h; cases h

theorem isOk_iff {E : Type} {x : Except E Unit} : x.isOk = true ↔ x = .ok () := by
  cases x <;> simp [Except.isOk, Except.toBool]

theorem findLoop_ok {hash : HashInput → Except Err Nat} {pre : Option (List (HashInput × Nat))}
    (hp : ∀ x y, hashFor hash pre x = .ok y → hash x = .ok y) {i : Item} {supply target : Nat} :
    ∀ {ts r}, findLoop hash pre i supply target ts = .ok r →
      r.Sublist ts ∧ ∀ t, t ∈ r ↔ t ∈ ts ∧ ∃ x, hash (t, i.epoch, i.rnd) = .ok x ∧
        Stake.checkHash i.version x target i.bal.staker i.bal.total supply = .ok () := by
  intro ts
  induction ts with
  | nil => intro r h; cases h; simp
  | cons a ts ih =>
    intro r h
    rw [findLoop] at h
    obtain ⟨y, e1, h⟩ := bind_eq_ok.1 h
    obtain ⟨r', e2, h⟩ := bind_eq_ok.1 h
    have e3 := pure_eq_ok.1 h
    have e1 := hp _ _ e1
    obtain ⟨i1, i2⟩ := ih e2
    by_cases hc : (Stake.checkHash i.version y target i.bal.staker i.bal.total supply).isOk = true
    · rw [if_pos hc] at e3; subst e3
      refine ⟨i1.cons₂ a, fun t => ?_⟩
      rw [List.mem_cons, List.mem_cons, i2]
      constructor
      · rintro (rfl | ⟨q1, q2⟩)
        · exact ⟨Or.inl rfl, y, e1, isOk_iff.1 hc⟩
        · exact ⟨Or.inr q1, q2⟩
      · rintro ⟨q1 | q1, q2⟩
        · exact Or.inl q1
        · exact Or.inr ⟨q1, q2⟩
    · rw [if_neg hc] at e3; subst e3
      refine ⟨i1.cons a, fun t => ?_⟩
      rw [List.mem_cons, i2]
      constructor
      · rintro ⟨q1, q2⟩; exact ⟨Or.inr q1, q2⟩
      · rintro ⟨rfl | q1, x, q2, q3⟩
        · rw [e1] at q2; cases q2; exact absurd (isOk_iff.2 q3) hc
        · exact ⟨q1, x, q2, q3⟩

theorem mem_upTo {a b t : Nat} : t ∈ upTo a b ↔ a ≤ t ∧ t ≤ b := by
  unfold upTo; rw [List.mem_range'_1]; omega

theorem findTimestamps_ok {decode : Nat → Except Err Nat} {hash : HashInput → Except Err Nat}
    {pre : Option (List (HashInput × Nat))} (hp : ∀ x y, hashFor hash pre x = .ok y → hash x = .ok y) {i : Item}
    {supply : Nat} {r : List Nat} (h : findTimestamps decode hash pre i supply = .ok r) :
    r.Pairwise (· < ·) ∧ ∃ target, decode i.target = .ok target ∧
      ∀ t, t ∈ r ↔ (i.minTs ≤ t ∧ t ≤ i.maxTs) ∧ ∃ x, hash (t, i.epoch, i.rnd) = .ok x ∧
        Stake.checkHash i.version x target i.bal.staker i.bal.total supply = .ok () := by
  unfold findTimestamps at h
  obtain ⟨tg, e1, h⟩ := bind_eq_ok.1 h
  obtain ⟨_, _, h⟩ := bind_eq_ok.1 h
  obtain ⟨s1, s2⟩ := findLoop_ok hp h
  refine ⟨List.Pairwise.sublist s1 List.pairwise_lt_range', tg, e1, fun t => ?_⟩
  rw [s2, mem_upTo]

/-- what the map of results has at a height, in terms of the items -/
theorem findAll_ok {decode : Nat → Except Err Nat} {hash : HashInput → Except Err Nat}
    {pre : Option (List (HashInput × Nat))} {supply : Nat} :
    ∀ {is : List Item} {s : Nat} {m}, findAll decode hash pre supply s is = .ok m →
      ∀ h, m.get h ≠ some [] ∧ ((h < s ∨ s + is.length ≤ h) → m.get h = none) ∧
        ∀ k i, is[k]? = some i → findTimestamps decode hash pre i supply = .ok ((m.get (s + k)).getD []) := by
  intro is
  induction is with
  | nil => intro s m h; cases h; intro h; exact ⟨by simp [BMap.get, BMap.empty, BMap.lookupL], fun _ => rfl, by simp⟩
  | cons a is ih =>
    intro s m h
    rw [findAll] at h
    obtain ⟨ts, e1, h⟩ := bind_eq_ok.1 h
    obtain ⟨m', e2, h⟩ := bind_eq_ok.1 h
    have e3 := pure_eq_ok.1 h
    have hget : ∀ h, m.get h = if h = s ∧ ts ≠ [] then some ts else m'.get h := by
      intro h; rw [← e3]
      by_cases ht : ts = []
      · simp [ht]
      · simp [ht, BMap.get_insert]
    have hs := ((ih e2 s).2.1 (Or.inl (by omega)))
    intro h
    obtain ⟨i1, i2, _⟩ := ih e2 h
    refine ⟨?_, ?_, ?_⟩
    · rw [hget]; split
      · rename_i hc; intro e; cases e; exact hc.2 rfl
      · exact i1
    · intro hr
      simp only [List.length_cons] at hr
      rw [hget, if_neg (by omega)]
      exact i2 (by omega)
    · intro k i hk
      cases k with
      | zero =>
        simp only [List.getElem?_cons_zero, Option.some.injEq] at hk
        subst hk
        rw [e1, Nat.add_zero, hget]
        by_cases ht : ts = []
        · simp [ht, hs]
        · simp [ht]
      | succ k =>
        simp only [List.getElem?_cons_succ] at hk
        have := (ih e2 h).2.2 k i hk
        rw [this, hget, if_neg (by omega)]
        have : s + 1 + k = s + (k + 1) := by omega
        rw [this]

theorem allGood_get {c : Chain} {pool hi secs : Nat} {all : Bool} :
    ∀ {is : List Item} {s : Nat}, AllGood c pool hi secs all s is → s + is.length = hi + 1 ∧
      ∀ k i, is[k]? = some i → GoodItem c pool hi secs all (s + k) i := by
  intro is
  induction is with
  | nil => intro s h; exact ⟨h, by simp⟩
  | cons a is ih =>
    intro s h
    obtain ⟨i1, i2⟩ := ih h.2
    refine ⟨by simp only [List.length_cons]; omega, fun k i hk => ?_⟩
    cases k with
    | zero => simp only [List.getElem?_cons_zero, Option.some.injEq] at hk; subst hk; exact h.1
    | succ k =>
      simp only [List.getElem?_cons_succ] at hk
      have := i2 k i hk
      rwa [show s + 1 + k = s + (k + 1) by omega] at this

/-! ### Hashes computed in advance -/

theorem findLoop_congr {hash : HashInput → Except Err Nat} {pre : Option (List (HashInput × Nat))} {i : Item}
    {supply target : Nat} : ∀ {ts}, (∀ t ∈ ts, hashFor hash pre (t, i.epoch, i.rnd) = hash (t, i.epoch, i.rnd)) →
      findLoop hash pre i supply target ts = findLoop hash none i supply target ts := by
  intro ts
  induction ts with
  | nil => intro _; rfl
  | cons a ts ih =>
    intro h
    rw [findLoop, findLoop, h a (by simp), ih fun t ht => h t (by simp [ht])]
    rfl

theorem findAll_congr {decode : Nat → Except Err Nat} {hash : HashInput → Except Err Nat}
    {pre : Option (List (HashInput × Nat))} {supply : Nat} : ∀ {is : List Item} {s : Nat},
      (∀ i ∈ is, ∀ t ∈ upTo i.minTs i.maxTs, hashFor hash pre (t, i.epoch, i.rnd) = hash (t, i.epoch, i.rnd)) →
      findAll decode hash pre supply s is = findAll decode hash none supply s is := by
  intro is
  induction is with
  | nil => intro s _; rfl
  | cons a is ih =>
    intro s h
    have e : findTimestamps decode hash pre a supply = findTimestamps decode hash none a supply := by
      unfold findTimestamps
      simp only [findLoop_congr (h a (by simp))]
    rw [findAll, findAll, e, ih fun i hi => h i (by simp [hi])]

theorem findLoop_hash {hash : HashInput → Except Err Nat} {i : Item} {supply target : Nat} :
    ∀ {ts r}, findLoop hash none i supply target ts = .ok r → ∀ t ∈ ts, (hash (t, i.epoch, i.rnd)).isOk = true := by
  intro ts
  induction ts with
  | nil => intro _ _ t ht; cases ht
  | cons a ts ih =>
    intro r h t ht
    rw [findLoop] at h
    obtain ⟨y, e1, h⟩ := bind_eq_ok.1 h
    obtain ⟨r', e2, h⟩ := bind_eq_ok.1 h
    rcases List.mem_cons.1 ht with rfl | ht
    · have e1 : hash (t, i.epoch, i.rnd) = .ok y := e1
      rw [e1]; rfl
    · exact ih e2 t ht

theorem findAll_hash {decode : Nat → Except Err Nat} {hash : HashInput → Except Err Nat} {supply : Nat} :
    ∀ {is : List Item} {s : Nat} {m}, findAll decode hash none supply s is = .ok m →
      ∀ i ∈ is, ∀ t ∈ upTo i.minTs i.maxTs, (hash (t, i.epoch, i.rnd)).isOk = true := by
  intro is
  induction is with
  | nil => intro _ _ _ i hi; cases hi
  | cons a is ih =>
    intro s m h i hi
    rw [findAll] at h
    obtain ⟨ts, e1, h⟩ := bind_eq_ok.1 h
    obtain ⟨m', e2, h⟩ := bind_eq_ok.1 h
    rcases List.mem_cons.1 hi with rfl | hi
    · unfold findTimestamps at e1
      obtain ⟨_, _, e1⟩ := bind_eq_ok.1 e1
      obtain ⟨_, _, e1⟩ := bind_eq_ok.1 e1
      exact findLoop_hash e1
    · exact ih e2 i hi

theorem find_cached {decode : Nat → Except Err Nat} {hash : HashInput → Except Err Nat} (d : Data) :
    (find decode hash d).toOption = (findAll decode hash none d.supply d.start d.items).toOption := by
  unfold find
  split
  · rfl
  · cases hp : precompute hash (hashInputs d) with
    | ok l =>
      have h2 := (precompute_ok hp).2
      show (findAll decode hash (some l) d.supply d.start d.items).toOption = _
      rw [findAll_congr]
      intro i hi t ht
      exact h2 _ (List.mem_flatMap.2 ⟨i, hi, List.mem_map.2 ⟨t, ht, rfl⟩⟩)
    | error e =>
      obtain ⟨x, hx, hn⟩ := precompute_err (show (precompute hash (hashInputs d)).isOk = false by rw [hp]; rfl)
      obtain ⟨i, hi, hx⟩ := List.mem_flatMap.1 hx
      obtain ⟨t, ht, rfl⟩ := List.mem_map.1 hx
      cases hf : findAll decode hash none d.supply d.start d.items with
      | error e' => rfl
      | ok m => rw [findAll_hash hf i hi t ht] at hn; cases hn

/-! ### Success and panic -/

/-- nothing but the balances of the pool can stand in the way of a search up to height `hi` -/
structure Smooth (c : Chain) (lo hi secs : Nat) : Prop where
  version : ∀ h, lo ≤ h → h ≤ hi → (c.version h).isOk = true
  target : ∀ h, lo ≤ h → h ≤ hi → (targetAt c h).isOk = true
  time : ∀ h, 0 < h → lo ≤ h → h ≤ hi → h ≤ c.best → c.time (h - 1) < c.time h
  small : ∀ h, h ≤ c.best → c.time h + 1 + secs < 2 ^ 64

theorem isOk_exists {E A : Type} {x : Except E A} (h : x.isOk = true) : ∃ a, x = .ok a := by
  cases x with
  | ok a => exact ⟨a, rfl⟩
  | error e => cases h

theorem addSecs_of_lt {t s : Nat} (h : t + s < 2 ^ 64) : addSecs t s = .ok (t + s) := by
  unfold addSecs; rw [if_pos h]

theorem obtainLoop_smooth {c : Chain} {m : BMap Nat (BMap Nat Bal)} {pool lo hi secs : Nat} {all : Bool}
    (hhi : hi ≤ c.best + 1) (g : Smooth c lo hi secs) :
    ∀ (n s : Nat) (prev : Option Nat), lo ≤ s → 1 ≤ s → s + n = hi + 1 →
      (∀ h, s ≤ h → h ≤ hi → look m (h - 1) pool = c.bal (h - 1) pool) → prev.getD (c.time (s - 1)) = c.time (s - 1) →
      ((∀ h, s ≤ h → h ≤ hi → (c.bal (h - 1) pool).isSome) ∧
        (obtainLoop c (poolBalances m pool) hi secs all prev (List.range' s n)).isOk = true) ∨
      ((∃ h, s ≤ h ∧ h ≤ hi ∧ c.bal (h - 1) pool = none) ∧
        obtainLoop c (poolBalances m pool) hi secs all prev (List.range' s n) = .error .panic) := by
  intro n
  induction n with
  | zero =>
    intro s prev _ _ hs _ _
    exact Or.inl ⟨fun h q1 q2 => by omega, rfl⟩
  | succ n ih =>
    intro s prev hlo h1 hs hb hp
    rw [List.range'_succ, obtainLoop, expect_eq, hb s (le_refl _) (by omega)]
    cases hbal : c.bal (s - 1) pool with
    | none => exact Or.inr ⟨⟨s, le_refl _, by omega, hbal⟩, rfl⟩
    | some b =>
      obtain ⟨v, ev⟩ := isOk_exists (g.version s hlo (by omega))
      obtain ⟨tg, et⟩ := isOk_exists (g.target s hlo (by omega))
      have ext : ∀ {P : Nat → Prop}, P s → (∀ h, s + 1 ≤ h → h ≤ hi → P h) → ∀ h, s ≤ h → h ≤ hi → P h := by
        intro P p0 p1 h q1 q2
        by_cases e : h = s
        · subst e; exact p0
        · exact p1 h (by omega) q2
      by_cases hbest : s = c.best + 1
      · have hn : n = 0 := by omega
        subst hn
        unfold targetAt at et
        rw [if_neg (by omega)] at et
        have hsm := g.small c.best (le_refl _)
        left
        refine ⟨ext (by rw [hbal]; rfl) (fun h q1 q2 => by omega), ?_⟩
        simp only [ev, et, if_pos hbest, addSecs_of_lt (show c.time c.best + 1 < 2 ^ 64 by omega),
          addSecs_of_lt (show c.time c.best + 1 + secs < 2 ^ 64 by omega), List.range'_zero, obtainLoop, bind, Except.bind]
        rfl
      · unfold targetAt at et
        rw [if_pos (by omega)] at et
        have hsm := g.small (s - 1) (by omega)
        have hsm' := g.small s (by omega)
        have htm := g.time s h1 hlo (by omega) (by omega)
        have hsec : ∃ sc, secondsToCheck hi secs all s (c.time (s - 1)) (c.time s) = .ok sc ∧
            c.time (s - 1) + 1 + sc < 2 ^ 64 := by
          unfold secondsToCheck
          by_cases hc : s = hi ∨ all = false
          · rw [if_pos hc]; exact ⟨secs, rfl, hsm⟩
          · rw [if_neg hc, if_pos htm]; exact ⟨_, rfl, by omega⟩
        obtain ⟨sc, es, hlt⟩ := hsec
        have red : ∀ (R : Except Err (List Item)), (R.isOk = true →
            ((do
              let rest ← R
              pure (⟨c.rnd s, c.epoch s, tg, c.time (s - 1) + 1, c.time (s - 1) + 1 + sc, b, v⟩ :: rest)) :
                Except Err (List Item)).isOk = true) ∧ (R = .error .panic →
            ((do
              let rest ← R
              pure (⟨c.rnd s, c.epoch s, tg, c.time (s - 1) + 1, c.time (s - 1) + 1 + sc, b, v⟩ :: rest)) :
                Except Err (List Item)) = .error .panic) := by
          intro R
          constructor
          · intro h; obtain ⟨a, rfl⟩ := isOk_exists h; rfl
          · rintro rfl; rfl
        have ih' := ih (s + 1) (some (c.time s)) (by omega) (by omega) (by omega)
          (fun h q1 q2 => hb h (by omega) q2) (by simp)
        have e5 := addSecs_of_lt (show c.time (s - 1) + 1 < 2 ^ 64 by omega)
        have e6 := addSecs_of_lt hlt
        obtain ⟨r1, r2⟩ := red (obtainLoop c (poolBalances m pool) hi secs all (some (c.time s)) (List.range' (s + 1) n))
        simp only [hp, ev, et, if_neg hbest, es, e5, e6, bind, Except.bind] at r1 r2 ⊢
        rcases ih' with ⟨q1, q2⟩ | ⟨⟨h, q1, q2, q3⟩, q4⟩
        · exact Or.inl ⟨ext (by rw [hbal]; rfl) q1, r1 q2⟩
        · exact Or.inr ⟨⟨h, by omega, q2, q3⟩, r2 q4⟩

end Verif.Slots
