import Verif.Stake.ProduceSpec
import Verif.Stake.Props
import Verif.Compact.Props

/-!
# C59: a node finds the blocks it would accept

-/

set_option maxRecDepth 100000

namespace Verif.Stake
open Verif

/-! ### lemmas -/

theorem checkSlot_eq {c : Crypto} {ver : Version} {slot : Slot} {target vrf key pledge balance supply : Nat} (ht : target < 2 ^ 256) (hb : balance < 2 ^ 128) :
    checkSlot c ver slot target vrf key pledge balance supply = .ok () ↔ WinsSlot c ver slot target vrf key pledge balance supply := by
  unfold checkSlot WinsSlot
  cases ho : c.output key slot vrf with
  | none => simp [okOr, bind, Except.bind]
  | some hash =>
    have h := (C58_hash (v := ver) (hash := hash) (pledge := pledge) (supply := supply) ht hb).2
    have h' : checkHash ver hash target pledge balance supply = .ok () ↔ ∃ w, Allowance ver pledge balance supply w ∧ hash ≤ w * target := by
      rw [h]
      cases ver <;> simp [Allowance, and_comm]
    simp only [okOr, bind, Except.bind, Option.some.injEq]
    cases hc : checkHash ver hash target pledge balance supply with
    | ok a =>
      obtain ⟨w, h1, h2⟩ := h'.1 hc
      simp only [true_iff]
      exact ⟨hash, w, rfl, h1, h2⟩
    | error e =>
      simp only [reduceCtorEq, false_iff]
      rintro ⟨_, w, rfl, h1, h2⟩
      have := h'.2 ⟨w, h1, h2⟩
      rw [hc] at this
      simp at this

theorem decode_lt {bits t : Nat} (h : Compact.decode bits = .ok t) : t < 2 ^ 256 := by
  simp only [Compact.decode] at h
  by_cases hs : bits >>> 24 ≤ 3
  · simp only [hs, if_true] at h
    split at h
    next => simp at h
    next =>
      simp only [Except.ok.injEq] at h
      rw [← h, Compact.and_mask]
      exact lt_of_le_of_lt (Nat.shiftRight_le _ _) (lt_trans (Nat.mod_lt _ (by norm_num)) (by norm_num))
  · simp only [hs, if_false] at h
    split at h
    next => simp at h
    next =>
      simp only [Except.ok.injEq] at h
      rw [← h]
      exact Nat.mod_lt _ (by decide)

theorem search_some {c : Crypto} {ver : Version} {seed epoch target pledge balance supply vsk : Nat} {rnd : Nat → Nat} {k first time vrf : Nat}
    (h : search c ver seed epoch target pledge balance supply vsk rnd k first = some (time, vrf)) :
    first ≤ time ∧ time < first + k ∧ vrf = c.prove vsk ⟨seed, time, epoch⟩ (rnd time) ∧
      checkSlot c ver ⟨seed, time, epoch⟩ target vrf (c.vrfPub vsk) pledge balance supply = .ok () ∧
      ∀ t, first ≤ t → t < time →
        checkSlot c ver ⟨seed, t, epoch⟩ target (c.prove vsk ⟨seed, t, epoch⟩ (rnd t)) (c.vrfPub vsk) pledge balance supply ≠ .ok () := by
  induction k generalizing first with
  | zero => simp [search] at h
  | succ k ih =>
    simp only [search] at h
    split at h
    next hc =>
      simp only [Option.some.injEq, Prod.mk.injEq] at h
      obtain ⟨rfl, rfl⟩ := h
      exact ⟨le_rfl, by omega, rfl, hc, fun t h1 h2 => by omega⟩
    next e hc =>
      obtain ⟨h1, h2, h3, h4, h5⟩ := ih h
      refine ⟨by omega, by omega, h3, h4, fun t a b => ?_⟩
      rcases Nat.eq_or_lt_of_le a with rfl | a
      · simp [hc]
      · exact h5 t a b

theorem search_none {c : Crypto} {ver : Version} {seed epoch target pledge balance supply vsk : Nat} {rnd : Nat → Nat} {k first : Nat}
    (h : search c ver seed epoch target pledge balance supply vsk rnd k first = none) (t : Nat) (h1 : first ≤ t) (h2 : t < first + k) :
    checkSlot c ver ⟨seed, t, epoch⟩ target (c.prove vsk ⟨seed, t, epoch⟩ (rnd t)) (c.vrfPub vsk) pledge balance supply ≠ .ok () := by
  induction k generalizing first with
  | zero => omega
  | succ k ih =>
    simp only [search] at h
    split at h
    next hc => simp at h
    next e hc =>
      rcases Nat.eq_or_lt_of_le h1 with rfl | a
      · simp [hc]
      · exact ih h a (by omega)

theorem randomness_eq (n : Net) (v : View) (h : Nat) : producerRandomness n v h = randomnessFor n v h := by
  unfold producerRandomness randomnessFor
  cases sealedEpoch n h with
  | none => rfl
  | some e => cases he : v.epochs e <;> simp [he]

theorem getGen_id {n : Net} {v : View} {id : Nat} {g : BlockTree.Gen} (hi : Indexed v) (h : BlockTree.getGen n.t.tree v.store id = some g) :
    g.id n.t.tree = id := by
  unfold BlockTree.getGen at h
  split at h
  next he => simp only [Option.some.injEq] at h; subst h; exact he.symm
  next he =>
    simp only [Option.map_eq_some_iff] at h
    obtain ⟨b, hb, rfl⟩ := h
    exact hi _ _ hb

theorem target_eq {n : Net} {v : View} {id : Nat} {g : BlockTree.Gen} (h : BlockTree.getGen n.t.tree v.store id = some g)
    (initial : Option Nat) (cfg : Target.PosCfg) : targetFromIndex n v initial cfg g = requiredTarget n v initial cfg id := by
  unfold targetFromIndex requiredTarget Target.posTarget Target.posTargetFrom
  cases initial with
  | some d => rfl
  | none =>
    unfold BlockTree.getGen at h
    split at h
    next he => simp only [Option.some.injEq] at h; subst h; simp [he]
    next he =>
      simp only [Option.map_eq_some_iff] at h
      obtain ⟨b, hb, rfl⟩ := h
      simp [he, hb]

theorem kernelOutput_ok {v : View} {k : List Inp} {out : Output} (h : kernelOutput v k = .ok out) : ∃ op, k = [.utxo op] ∧ v.utxo op = some out := by
  unfold kernelOutput at h
  split at h
  all_goals try simp at h
  next op => exact ⟨op, rfl, h⟩

theorem kernelPool_ok {out : Output} {p : Nat} {d : Dest} : kernelPool out = .ok (p, d) ↔ OfPool out p d := by
  unfold OfPool
  cases out <;> simp [kernelPool, and_comm]

theorem checkSignature_ok {c : Crypto} {s : Signed} {d : Dest} : checkSignature c s d = .ok () ↔
    ∃ pk sig, d = .publicKey pk ∧ s.signature = some sig ∧ c.verify pk sig s.header = true := by
  cases d with
  | other => simp [checkSignature]
  | publicKey pk =>
    simp only [checkSignature, bind_eq_ok, okOr_eq_ok, ensure_eq_ok, Dest.publicKey.injEq]
    constructor
    · rintro ⟨sig, h1, h2⟩; exact ⟨pk, sig, rfl, h1, h2⟩
    · rintro ⟨_, sig, rfl, h1, h2⟩; exact ⟨sig, h1, h2⟩

theorem checkPoolId_ok {n : Net} {h a b : Nat} : checkPoolId n h a b = .ok () ↔ (n.mismatchForbidden h = true → a = b) := by
  unfold checkPoolId
  split
  next hf => simp [hf, ensure_eq_ok]
  next hf => simp [hf]

theorem stakerBalance_some {p : Pool} {x : Nat} : p.stakerBalance = some x ↔ p.pledge + p.rewards < U128 ∧ x = p.pledge + p.rewards := by
  unfold Pool.stakerBalance
  split
  next h => simp [h, eq_comm]
  next h => simp [h]

theorem targetOf_ok {b t : Nat} : targetOf b = .ok t ↔ Compact.decode b = .ok t := by
  unfold targetOf
  cases Compact.decode b <;> simp

/-- balances are amounts -/
def Amounts (v : View) : Prop := ∀ p b, v.balances p = some b → b < 2 ^ 128

theorem balance_lt {v : View} (h : Amounts v) (p : Nat) : (v.balances p).getD 0 < 2 ^ 128 := by
  cases hb : v.balances p with
  | none => simp
  | some b => simpa using h p b hb

theorem checkStake_iff {n : Net} {c : Crypto} {v : View} {s : Signed} {initial : Option Nat} {cfg : Target.PosCfg} {prev : BlockTree.Gen} (ha : Amounts v)
    (hp : BlockTree.getGen n.t.tree v.store s.header.prev = some prev) :
    checkStake n c v initial cfg s = .ok () ↔ Valid n c v s prev initial cfg := by
  have hbal := balance_lt ha s.header.pos.pool
  simp only [checkStake, bind_eq_ok, ensure_eq_ok, okOr_eq_ok, Prod.exists, hp, Option.some.injEq]
  constructor
  · rintro ⟨t, h1, _, h2, g, h3, _, h4, pool, h5, out, h6, kp, d, h7, _, h8, _, h9, pl, h10, sup, h11, tt, h12, h13⟩
    subst h3
    obtain ⟨op, k1, k2⟩ := kernelOutput_ok h6
    obtain ⟨pk, sig, rfl, s1, s2⟩ := checkSignature_ok.1 h9
    obtain ⟨p1, rfl⟩ := stakerBalance_some.1 h10
    have hd := targetOf_ok.1 h12
    refine ⟨h2 ▸ h1, h4, ⟨op, out, kp, pk, sig, k1, k2, kernelPool_ok.1 h7, checkPoolId_ok.1 h8, s1, s2⟩, pool, sup, tt, h5, h11, p1, hd, ?_⟩
    exact (checkSlot_eq (decode_lt hd) hbal).1 h13
  · rintro ⟨h1, h4, ⟨op, out, kp, pk, sig, k1, k2, h7, h8, s1, s2⟩, pool, sup, tt, h5, h11, p1, hd, h13⟩
    refine ⟨_, h1, (), rfl, prev, rfl, (), h4, pool, h5, out, ?_, kp, .publicKey pk, kernelPool_ok.2 h7, (), checkPoolId_ok.2 h8, (),
      checkSignature_ok.2 ⟨pk, sig, rfl, s1, s2⟩, _, stakerBalance_some.2 ⟨p1, rfl⟩, sup, h11, tt, targetOf_ok.2 hd, ?_⟩
    · rw [k1]; simp [kernelOutput, k2, okOr]
    · exact (checkSlot_eq (decode_lt hd) hbal).2 h13

/-- **C59 (decision).**  A header of proof of stake is accepted exactly if proof of stake is required after its parent and the header is `Valid`. -/
theorem C59_decision {n : Net} {c : Crypto} {v : View} {s : Signed} (ha : Amounts v) :
    validate n c v s = .ok () ↔ ∃ prev initial cfg, BlockTree.getGen n.t.tree v.store s.header.prev = some prev ∧
      posStatus n (prev.height + 1) = .ok (initial, cfg) ∧ Valid n c v s prev initial cfg := by
  simp only [validate, bind_eq_ok, okOr_eq_ok, Prod.exists]
  constructor
  · rintro ⟨prev, h1, i, cfg, h2, h3⟩
    exact ⟨prev, i, cfg, h1, h2, (checkStake_iff ha h1).1 h3⟩
  · rintro ⟨prev, i, cfg, h1, h2, h3⟩
    exact ⟨prev, h1, i, cfg, h2, (checkStake_iff ha h1).2 h3⟩

/-! ### the producer -/

/-- what `prepare` yields -/
theorem prepare_ok {n : Net} {v : View} {i : Input} {lastUsed : Option Nat} {t0 now body witness vrf : Nat} {h : Header} {f : Final} {first last : Nat} {ver : Version}
    (hi : Indexed v) (hh : prepare n v i lastUsed t0 now body witness vrf = .ok (h, f, first, last, ver)) :
    ∃ startTip tip initial cfg pool target, BlockTree.getGen n.t.tree v.store t0 = some startTip ∧
      BlockTree.getGen n.t.tree v.store v.tip = some tip ∧ posStatus n (tip.height + 1) = .ok (initial, cfg) ∧
      first = max (lastUsed.getD 0) (startTip.timestamp n.t.tree) + 1 ∧ last = now + n.maxFutureOffset (tip.height + 1) ∧ first ≤ last ∧
      ver = n.version (tip.height + 1) ∧ h = ⟨v.tip, body, first, ⟨i.kernel, witness, i.pool, vrf, target⟩⟩ ∧
      requiredTarget n v initial cfg v.tip = .ok target ∧ v.pools i.pool = some pool ∧ pool.pledge + pool.rewards < U128 ∧
      ∃ b, v.balances i.pool = some b ∧ f = ⟨(tip.height + 1) / n.epochLength, randomnessFor n v (tip.height + 1), pool.pledge + pool.rewards, b⟩ := by
  simp only [prepare, finalData, firstTime, addSecs, bind_eq_ok, okOr_eq_ok, ensure_eq_ok, pure_eq_ok, Prod.exists, Prod.mk.injEq] at hh
  obtain ⟨st, h1, fi, h2, tip, h3, ini, cfg, h4, t, h5, f', ⟨b, h6, pool, h7, pl, h8, h9⟩, la, h10, _, h11, rfl, rfl, rfl, rfl, rfl⟩ := hh
  obtain ⟨p1, rfl⟩ := stakerBalance_some.1 h8
  have hti := getGen_id hi h3
  split at h2
  case isFalse => simp at h2
  split at h10
  case isFalse => simp at h10
  simp only [Except.ok.injEq] at h2 h10
  refine ⟨st, tip, ini, cfg, pool, t, h1, h3, h4, h2.symm, h10.symm, h11, rfl, by rw [hti], by rw [← target_eq h3]; exact h5, h7, p1, b, h6, ?_⟩
  rw [← h9, randomness_eq]
  rfl

theorem finalize_ok {n : Net} {c : Crypto} {ver : Version} {h : Header} {f : Final} {i : Input} {first last aux : Nat} {rnd : Nat → Nat} {s : Signed}
    (hh : finalize n c ver h f i first last aux rnd = .ok s) : ∃ supply target time vrf, n.supply = some supply ∧ Compact.decode h.pos.target = .ok target ∧
      search c ver f.seed f.epoch target f.pledge f.balance supply i.vsk rnd (last + 1 - first) first = some (time, vrf) ∧
      s.header = { h with time := time, pos := { h.pos with vrf := vrf } } ∧ s.signature = some (c.sign i.sk s.header aux) := by
  simp only [finalize, stake, findTime, bind_eq_ok, okOr_eq_ok, ensure_eq_ok, pure_eq_ok] at hh
  obtain ⟨r, ⟨sup, h1, r', ⟨t, h2, _, h3, rfl⟩, rfl⟩, h4⟩ := hh
  cases hs : search c ver f.seed f.epoch t f.pledge f.balance sup i.vsk rnd (last + 1 - first) first with
  | none => simp [hs] at h4
  | some x =>
    obtain ⟨time, vrf⟩ := x
    simp only [hs, Option.map_some, Except.ok.injEq] at h4
    subst h4
    exact ⟨sup, t, time, vrf, h1, targetOf_ok.1 h2, hs, rfl, rfl⟩

theorem finalize_failed {n : Net} {c : Crypto} {ver : Version} {h : Header} {f : Final} {i : Input} {first last aux : Nat} {rnd : Nat → Nat}
    (hh : finalize n c ver h f i first last aux rnd = .error .stakingFailed) : ∃ supply target, n.supply = some supply ∧ Compact.decode h.pos.target = .ok target ∧
      search c ver f.seed f.epoch target f.pledge f.balance supply i.vsk rnd (last + 1 - first) first = none := by
  unfold finalize stake findTime at hh
  cases hs : n.supply with
  | none => simp [hs, okOr, bind, Except.bind] at hh
  | some sup =>
    cases ht : targetOf h.pos.target with
    | error e =>
      have : e = .badBits := by unfold targetOf at ht; split at ht <;> simp_all
      subst this
      simp [hs, ht, okOr, bind, Except.bind] at hh
    | ok t =>
      by_cases hle : first ≤ last
      · cases hr : search c ver f.seed f.epoch t f.pledge f.balance sup i.vsk rnd (last + 1 - first) first with
        | none => exact ⟨sup, t, rfl, targetOf_ok.1 ht, hr⟩
        | some x => simp [hs, ht, okOr, bind, Except.bind, ensure, hle, hr, pure, Except.pure] at hh
      · simp [hs, ht, okOr, bind, Except.bind, ensure, hle] at hh

theorem produce_ok {n : Net} {c : Crypto} {v : View} {i : Input} {lastUsed : Option Nat} {t0 now body witness vrf aux : Nat} {rnd : Nat → Nat} {r : Except PErr Signed}
    {u : Option Nat} (h : produce n c v i lastUsed t0 now body witness vrf aux rnd = ⟨r, u⟩) :
    (∃ e, prepare n v i lastUsed t0 now body witness vrf = .error e ∧ r = .error e ∧ u = none) ∨
    ∃ h f first last ver, prepare n v i lastUsed t0 now body witness vrf = .ok (h, f, first, last, ver) ∧ r = finalize n c ver h f i first last aux rnd ∧
      u = some (usedTime r first last) := by
  unfold produce at h
  split at h
  next e he =>
    simp only [Outcome.mk.injEq] at h
    exact .inl ⟨e, he, h.1.symm, h.2.symm⟩
  next h' f first last ver he =>
    simp only [Outcome.mk.injEq] at h
    refine .inr ⟨h', f, first, last, ver, he, h.1.symm, ?_⟩
    rw [← h.2, h.1]

theorem prepare_not_failed {n : Net} {v : View} {i : Input} {lastUsed : Option Nat} {t0 now body witness vrf : Nat} :
    prepare n v i lastUsed t0 now body witness vrf ≠ .error .stakingFailed := by
  have bind_ne : ∀ {α β : Type} {a : Except PErr α} {f : α → Except PErr β}, a ≠ .error .stakingFailed → (∀ x, f x ≠ .error .stakingFailed) →
      (a >>= f) ≠ .error .stakingFailed := by
    intro α β a f h1 h2
    cases a with
    | error e => simpa [bind, Except.bind] using h1
    | ok x => exact h2 x
  have okOr_ne : ∀ {α : Type} {o : Option α} {e : PErr}, e ≠ .stakingFailed → okOr o e ≠ .error .stakingFailed := by
    intro α o e h; cases o <;> simp [okOr, h]
  have secs : ∀ t d, addSecs t d ≠ .error .stakingFailed := by intro t d; unfold addSecs; split <;> simp
  have tgt : ∀ ini cfg tip, targetFromIndex n v ini cfg tip ≠ .error .stakingFailed := by
    intro ini cfg tip
    unfold targetFromIndex
    repeat' (split)
    all_goals simp
  have st : ∀ h, posStatus n h ≠ .error .stakingFailed := by intro h; unfold posStatus; split <;> simp
  have fd : ∀ h seed, finalData n v h seed i ≠ .error .stakingFailed := by
    intro h seed
    unfold finalData
    exact bind_ne (okOr_ne (by decide)) fun _ => bind_ne (okOr_ne (by decide)) fun _ => bind_ne (okOr_ne (by decide)) fun _ => by simp [pure, Except.pure]
  unfold prepare
  refine bind_ne (okOr_ne (by decide)) fun _ => bind_ne (secs _ _) fun _ => bind_ne (okOr_ne (by decide)) fun _ => bind_ne (st _) fun _ => bind_ne (tgt _ _ _) fun _ =>
    bind_ne (fd _ _) fun _ => bind_ne (secs _ _) fun _ => bind_ne ?_ fun _ => by simp [pure, Except.pure]
  unfold ensure
  split <;> simp

/-- the outcomes of successive calls on the same tip: each call is given the timestamp remembered by the one before.  A call has its own time, body and
randomness. -/
def outcomes (n : Net) (c : Crypto) (v : View) (i : Input) (witness vrf aux : Nat) : Option Nat → List (Nat × Nat × (Nat → Nat)) → List Outcome
  | _, [] => []
  | last, (now, body, rnd) :: calls =>
    let o := produce n c v i last v.tip now body witness vrf aux rnd
    o :: outcomes n c v i witness vrf aux (o.used.orElse fun _ => last) calls

/-- a header accepted for the pool of the staker has won the slot that the staker computes -/
theorem accepted_slot {n : Net} {c : Crypto} {v : View} {i : Input} {s : Signed} {pool : Pool} {tip : BlockTree.Gen} {initial : Option Nat} {cfg : Target.PosCfg}
    {b supply target target' r : Nat} (hc : Lawful c) (ha : Amounts v) (hv : validate n c v s = .ok ()) (hprev : s.header.prev = v.tip) (hpool : s.header.pos.pool = i.pool)
    (htip : BlockTree.getGen n.t.tree v.store v.tip = some tip) (hst : posStatus n (tip.height + 1) = .ok (initial, cfg))
    (htgt : requiredTarget n v initial cfg v.tip = .ok target) (hdec : Compact.decode target = .ok target') (hp : v.pools i.pool = some pool)
    (hk : pool.vrfKey = c.vrfPub i.vsk) (hb : v.balances i.pool = some b) (hs : n.supply = some supply) :
    checkSlot c (n.version (tip.height + 1)) ⟨randomnessFor n v (tip.height + 1), s.header.time, (tip.height + 1) / n.epochLength⟩ target'
      (c.prove i.vsk ⟨randomnessFor n v (tip.height + 1), s.header.time, (tip.height + 1) / n.epochLength⟩ r) (c.vrfPub i.vsk) (pool.pledge + pool.rewards) b supply =
        .ok () := by
  obtain ⟨prev, ini', cfg', h1, h2, h3⟩ := (C59_decision ha).1 hv
  rw [hprev, htip] at h1
  obtain rfl := Option.some.inj h1
  rw [hst] at h2
  obtain ⟨rfl, rfl⟩ := Prod.mk.inj (Except.ok.inj h2)
  have ht := h3.target
  rw [hprev, htgt] at ht
  obtain ⟨pool', sup', t', w1, w2, -, w4, hash, w, w5, w6, w7⟩ := h3.wins
  rw [hpool, hp] at w1
  obtain rfl := Option.some.inj w1
  rw [hs] at w2
  obtain rfl := Option.some.inj w2
  rw [← Except.ok.inj ht, hdec] at w4
  obtain rfl := Except.ok.inj w4
  rw [hpool, hb, Option.getD_some] at w6
  rw [hk] at w5
  exact (checkSlot_eq (decode_lt hdec) (ha _ _ hb)).2 ⟨hash, w, hc.unique _ _ _ _ _ w5, w6, w7⟩

/-- **C59 (accepted).**  A header produced by the node for a pool whose keys the staker holds is accepted by the check of consensus whenever it is later than
its parent; and it is, if the tip did not change since the call began.  It is after the tip and not too far in the future. -/
theorem C59_accepted {n : Net} {c : Crypto} {v : View} {i : Input} {lastUsed : Option Nat} {t0 now body witness vrf aux : Nat} {rnd : Nat → Nat} {s : Signed}
    {tip : BlockTree.Gen} (hc : Lawful c) (hi : Indexed v) (ha : Amounts v) (ho : Owns c v i)
    (h : (produce n c v i lastUsed t0 now body witness vrf aux rnd).result = .ok s) (htip : BlockTree.getGen n.t.tree v.store v.tip = some tip) :
    s.header.prev = v.tip ∧ s.header.body = body ∧ s.header.pos.pool = i.pool ∧ s.header.time ≤ now + n.maxFutureOffset (tip.height + 1) ∧
      (tip.timestamp n.t.tree < s.header.time → validate n c v s = .ok ()) ∧ (t0 = v.tip → tip.timestamp n.t.tree < s.header.time) := by
  rcases produce_ok (r := (produce n c v i lastUsed t0 now body witness vrf aux rnd).result) rfl with ⟨e, -, he, -⟩ | ⟨h', f, first, last, ver, hp, hf, -⟩
  · rw [h] at he; simp at he
  rw [h] at hf
  obtain ⟨st, tip', ini, cfg, pool, target, p1, p2, p3, rfl, rfl, p6, rfl, rfl, p9, p10, p11, b, p12, rfl⟩ := prepare_ok hi hp
  rw [htip] at p2
  obtain rfl := Option.some.inj p2
  obtain ⟨sup, t, time, pr, f1, f2, f3, f4, f5⟩ := finalize_ok hf.symm
  obtain ⟨s1, s2, s3, s4, -⟩ := search_some f3
  obtain ⟨op, out, k1, k2, k3⟩ := ho.kernel
  obtain ⟨pool', k4, k5⟩ := ho.vrf
  rw [p10] at k4
  obtain rfl := Option.some.inj k4
  have hv : tip.timestamp n.t.tree < s.header.time → validate n c v s = .ok () := by
    intro hlt
    refine (C59_decision ha).2 ⟨tip, ini, cfg, by rw [f4]; exact htip, p3, ?_⟩
    refine ⟨by rw [f4]; exact p9, hlt, ⟨op, out, i.pool, _, _, by rw [f4]; exact k1, k2, k3, fun _ => by rw [f4], f5, hc.sign _ _ _⟩, ?_⟩
    rw [f4]
    refine ⟨pool, sup, t, p10, f1, p11, f2, ?_⟩
    rw [p12, k5]
    exact (checkSlot_eq (decode_lt f2) (ha _ _ p12)).1 s4
  refine ⟨by rw [f4], by rw [f4], by rw [f4], ?_, hv, ?_⟩
  · rw [f4]
    show time ≤ _
    omega
  · rintro rfl
    rw [htip] at p1
    obtain rfl := Option.some.inj p1
    rw [f4]
    show _ < time
    omega

/-- **C59 (earliest).**  No header of the pool with an earlier timestamp that the call had to consider would be accepted. -/
theorem C59_earliest {n : Net} {c : Crypto} {v : View} {i : Input} {lastUsed : Option Nat} {now body witness vrf aux : Nat} {rnd : Nat → Nat} {s : Signed}
    {tip : BlockTree.Gen} (hc : Lawful c) (hi : Indexed v) (ha : Amounts v) (ho : Owns c v i)
    (h : (produce n c v i lastUsed v.tip now body witness vrf aux rnd).result = .ok s) (htip : BlockTree.getGen n.t.tree v.store v.tip = some tip)
    {t : Nat} (h1 : lastUsed.getD 0 < t) (h2 : t < s.header.time) : Loses n c v i.pool t := by
  rcases produce_ok (r := (produce n c v i lastUsed v.tip now body witness vrf aux rnd).result) rfl with ⟨e, -, he, -⟩ | ⟨h', f, first, last, ver, hp, hf, -⟩
  · rw [h] at he; simp at he
  rw [h] at hf
  obtain ⟨st, tip', ini, cfg, pool, target, p1, p2, p3, rfl, rfl, p6, rfl, rfl, p9, p10, p11, b, p12, rfl⟩ := prepare_ok hi hp
  rw [htip] at p1 p2
  obtain rfl := Option.some.inj p1
  obtain rfl := Option.some.inj p2
  obtain ⟨sup, tt, time, pr, f1, f2, f3, f4, f5⟩ := finalize_ok hf.symm
  obtain ⟨s1, s2, s3, s4, s5⟩ := search_some f3
  obtain ⟨pool', k4, k5⟩ := ho.vrf
  rw [p10] at k4
  obtain rfl := Option.some.inj k4
  rw [f4] at h2
  change t < time at h2
  intro s' a1 a2 a3 a4
  have hlt : tip.timestamp n.t.tree < t := by
    obtain ⟨prev, _, _, b1, -, b3⟩ := (C59_decision ha).1 a4
    rw [a1, htip] at b1
    obtain rfl := Option.some.inj b1
    have := b3.later
    omega
  have := accepted_slot (r := rnd t) hc ha a4 a1 a3 htip p3 p9 f2 p10 k5 p12 f1
  rw [a2] at this
  exact s5 t (by omega) h2 this

/-- **C59 (none).**  If the search fails, no header of the pool would be accepted with any timestamp after the one used last up to the furthest allowed. -/
theorem C59_none {n : Net} {c : Crypto} {v : View} {i : Input} {lastUsed : Option Nat} {now body witness vrf aux : Nat} {rnd : Nat → Nat}
    {tip : BlockTree.Gen} (hc : Lawful c) (hi : Indexed v) (ha : Amounts v) (ho : Owns c v i)
    (h : (produce n c v i lastUsed v.tip now body witness vrf aux rnd).result = .error .stakingFailed) (htip : BlockTree.getGen n.t.tree v.store v.tip = some tip) :
    (produce n c v i lastUsed v.tip now body witness vrf aux rnd).used = some (now + n.maxFutureOffset (tip.height + 1)) ∧
    ∀ t, lastUsed.getD 0 < t → t ≤ now + n.maxFutureOffset (tip.height + 1) → Loses n c v i.pool t := by
  rcases produce_ok (r := (produce n c v i lastUsed v.tip now body witness vrf aux rnd).result) rfl with ⟨e, hpe, he, -⟩ | ⟨h', f, first, last, ver, hp, hf, hu⟩
  · rw [h] at he
    obtain rfl := Except.error.inj he
    exact absurd hpe prepare_not_failed
  rw [h] at hf hu
  obtain ⟨st, tip', ini, cfg, pool, target, p1, p2, p3, rfl, rfl, p6, rfl, rfl, p9, p10, p11, b, p12, rfl⟩ := prepare_ok hi hp
  rw [htip] at p1 p2
  obtain rfl := Option.some.inj p1
  obtain rfl := Option.some.inj p2
  obtain ⟨sup, tt, f1, f2, f3⟩ := finalize_failed hf.symm
  obtain ⟨pool', k4, k5⟩ := ho.vrf
  rw [p10] at k4
  obtain rfl := Option.some.inj k4
  refine ⟨hu, fun t h1 h2 => ?_⟩
  intro s' a1 a2 a3 a4
  have hlt : tip.timestamp n.t.tree < t := by
    obtain ⟨prev, _, _, b1, -, b3⟩ := (C59_decision ha).1 a4
    rw [a1, htip] at b1
    obtain rfl := Option.some.inj b1
    have := b3.later
    omega
  have := accepted_slot (r := rnd t) hc ha a4 a1 a3 htip p3 p9 f2 p10 k5 p12 f1
  rw [a2] at this
  exact search_none f3 t (by omega) (by omega) this

/-- **C59 (cover).**  Calls for a pool on the same tip, each given what the one before remembered, leave nothing out: after any number of failing calls, all
timestamps up to the one remembered have been examined and none of them wins. -/
theorem C59_cover {n : Net} {c : Crypto} {v : View} {i : Input} {tip : BlockTree.Gen} {aux vrf witness : Nat} (hc : Lawful c) (hi : Indexed v) (ha : Amounts v) (ho : Owns c v i)
    (htip : BlockTree.getGen n.t.tree v.store v.tip = some tip) (calls : List (Nat × Nat × (Nat → Nat)))
    (hf : ∀ x ∈ outcomes n c v i witness vrf aux none calls, x.result = .error .stakingFailed) {m : Nat}
    (hm : ((outcomes n c v i witness vrf aux none calls).getLast?.bind (·.used)) = some m) :
    ∀ t, t ≤ m → Loses n c v i.pool t := by
  have key : ∀ (calls : List (Nat × Nat × (Nat → Nat))) (last : Option Nat), (∀ t, t ≤ last.getD 0 → Loses n c v i.pool t) →
      (∀ x ∈ outcomes n c v i witness vrf aux last calls, x.result = .error .stakingFailed) →
      ∀ m, ((outcomes n c v i witness vrf aux last calls).getLast?.bind (·.used)) = some m → ∀ t, t ≤ m → Loses n c v i.pool t := by
    intro calls
    induction calls with
    | nil => intro last _ _ m hm; simp [outcomes] at hm
    | cons x calls ih =>
      intro last hl hf m hm
      obtain ⟨now, body, rnd⟩ := x
      simp only [outcomes, List.mem_cons, forall_eq_or_imp] at hf hm
      obtain ⟨n1, n2⟩ := C59_none hc hi ha ho hf.1 htip
      have hl' : ∀ t, t ≤ ((produce n c v i last v.tip now body witness vrf aux rnd).used.orElse fun _ => last).getD 0 → Loses n c v i.pool t := by
        intro t ht
        rw [n1] at ht
        rcases Nat.lt_or_ge (last.getD 0) t with h1 | h1
        · exact n2 t h1 ht
        · exact hl t h1
      cases calls with
      | nil =>
        simp only [outcomes, List.getLast?_singleton, Option.bind_some, n1, Option.some.injEq] at hm
        subst hm
        rw [n1] at hl'
        exact hl'
      | cons y calls =>
        refine ih _ hl' hf.2 m ?_
        rw [← hm]
        simp only [outcomes, List.getLast?_cons_cons]
  refine key calls none (fun t ht => ?_) hf m hm
  intro s' a1 a2 a3 a4
  obtain ⟨prev, _, _, b1, -, b3⟩ := (C59_decision ha).1 a4
  have := b3.later
  simp at ht
  omega

/-- **C59 (once).**  A call only considers timestamps after the one remembered before, and remembers a later one. -/
theorem C59_once {n : Net} {c : Crypto} {v : View} {i : Input} {lastUsed : Option Nat} {t0 now body witness vrf aux : Nat} {rnd : Nat → Nat} (hi : Indexed v) {u : Nat}
    (h : (produce n c v i lastUsed t0 now body witness vrf aux rnd).used = some u) :
    lastUsed.getD 0 < u ∧ ∀ s, (produce n c v i lastUsed t0 now body witness vrf aux rnd).result = .ok s → s.header.time = u := by
  rcases produce_ok (r := (produce n c v i lastUsed t0 now body witness vrf aux rnd).result)
      (u := (produce n c v i lastUsed t0 now body witness vrf aux rnd).used) rfl with ⟨e, -, -, he⟩ | ⟨h', f, first, last, ver, hp, hf, hu⟩
  · rw [h] at he; simp at he
  rw [h, Option.some.injEq] at hu
  obtain ⟨st, tip', ini, cfg, pool, target, p1, p2, p3, rfl, rfl, p6, rfl, rfl, -⟩ := prepare_ok hi hp
  rw [hu]
  cases hr : (produce n c v i lastUsed t0 now body witness vrf aux rnd).result with
  | error e =>
    refine ⟨?_, fun s hs => by simp at hs⟩
    cases e <;> simp only [usedTime] <;> omega
  | ok s =>
    refine ⟨?_, fun s' hs => by rw [Except.ok.inj hs]; rfl⟩
    rw [hr] at hf
    obtain ⟨sup, tt, time, pr, f1, f2, f3, f4, f5⟩ := finalize_ok hf.symm
    obtain ⟨s1, -⟩ := search_some f3
    simp only [usedTime, f4]
    omega

/-! ### the job manager -/

theorem lookup_filter_ne {k key : Nat} {l : List (Nat × Nat)} (h : k ≠ key) : (l.filter (fun p => p.1 != key)).lookup k = l.lookup k := by
  induction l with
  | nil => rfl
  | cons p l ih =>
    obtain ⟨a, b⟩ := p
    by_cases ha : a = key
    · subst ha
      have : (k == a) = false := by simpa using h
      simp [List.lookup, this, ih]
    · by_cases hk : k = a
      · subst hk; simp [ha, List.lookup]
      · have : (k == a) = false := by simpa using hk
        simp [ha, List.lookup, this, ih]

theorem lookup_none_of_keys {l : List (Nat × Nat)} {k : Nat} (h : k ∉ l.map (·.1)) : l.lookup k = none := by
  induction l with
  | nil => rfl
  | cons p l ih =>
    simp only [List.map_cons, List.mem_cons, not_or] at h
    have : (k == p.1) = false := by simpa using h.1
    obtain ⟨a, b⟩ := p
    simp only [List.lookup, this, ih h.2]

theorem keys_of_lookup_none {l : List (Nat × Nat)} {k : Nat} (h : l.lookup k = none) : k ∉ l.map (·.1) := by
  induction l with
  | nil => simp
  | cons p l ih =>
    obtain ⟨a, b⟩ := p
    simp only [List.lookup] at h
    split at h
    · simp at h
    · rename_i hk
      have hk : k ≠ a := by simpa using hk
      simp only [List.map_cons, List.mem_cons, not_or]
      exact ⟨hk, ih h⟩

theorem lookup_filter_tip {l : List (Nat × Nat)} (hn : (l.map (·.1)).Nodup) (k tip : Nat) :
    (l.filter fun p => p.2 == tip).lookup k = (l.lookup k).filter (· == tip) := by
  induction l with
  | nil => rfl
  | cons p l ih =>
    obtain ⟨a, b⟩ := p
    simp only [List.map_cons, List.nodup_cons] at hn
    by_cases hk : k = a
    · subst hk
      by_cases hb : b = tip
      · simp [hb, List.lookup, Option.filter]
      · have h0 : (l.filter fun p => p.2 == tip).lookup k = none :=
          lookup_none_of_keys fun hm => hn.1 (by
            obtain ⟨q, hq, rfl⟩ := List.mem_map.1 hm
            exact List.mem_map.2 ⟨q, (List.mem_filter.1 hq).1, rfl⟩)
        simp [hb, List.lookup, h0, Option.filter]
    · have hk' : (k == a) = false := by simpa using hk
      by_cases hb : b = tip
      · simp [hb, List.lookup, hk', ih hn.2]
      · simp [hb, List.lookup, hk', ih hn.2]

theorem nodup_filter_keys {l : List (Nat × Nat)} (f : Nat × Nat → Bool) (h : (l.map (·.1)).Nodup) : ((l.filter f).map (·.1)).Nodup :=
  h.sublist (List.filter_sublist.map _)

theorem jobs_nodup (es : List Event) : ((runJobs ⟨[], []⟩ es).jobs.map (·.1)).Nodup := by
  induction es using List.reverseRecOn with
  | nil => simp [runJobs]
  | append_singleton es e ih =>
    have hr : runJobs ⟨[], []⟩ (es ++ [e]) = step (runJobs ⟨[], []⟩ es) e := by simp [runJobs]
    rw [hr]
    cases e with
    | add k tip =>
      simp only [step]
      split
      · exact ih
      · rename_i h
        simp only [Bool.not_eq_true, Option.isSome_eq_false_iff, Option.isNone_iff_eq_none] at h
        simp only [List.map_cons, List.nodup_cons]
        exact ⟨keys_of_lookup_none h, ih⟩
    | stop k => exact nodup_filter_keys _ ih
    | stopAll => simp [step]
    | newTip tip => exact nodup_filter_keys _ ih
    | used k t => exact ih

/-- **C59 (jobs).**  In any history of the job manager, a search for a key is running exactly if one was begun when none was running for this key, and since then it was not
stopped, nor were all stopped, nor did the tip become another one than the one it was begun for.  With `answer`, at most one search runs for a key. -/
theorem C59_jobs (es : List Event) (key tip : Nat) : (runJobs ⟨[], []⟩ es).jobs.lookup key = some tip ↔
    ∃ es1 es2, es = es1 ++ .add key tip :: es2 ∧ answer (runJobs ⟨[], []⟩ es1) key ≠ .exists ∧
      ∀ e ∈ es2, e ≠ .stop key ∧ e ≠ .stopAll ∧ ∀ t', e = .newTip t' → t' = tip := by
  induction es using List.reverseRecOn with
  | nil => simp [runJobs]
  | append_singleton es e ih =>
    have hn := jobs_nodup es
    have hr : runJobs ⟨[], []⟩ (es ++ [e]) = step (runJobs ⟨[], []⟩ es) e := by simp [runJobs]
    rw [hr]
    have split : (∃ es1 es2, es ++ [e] = es1 ++ .add key tip :: es2 ∧ answer (runJobs ⟨[], []⟩ es1) key ≠ .exists ∧
        ∀ e ∈ es2, e ≠ .stop key ∧ e ≠ .stopAll ∧ ∀ t', e = .newTip t' → t' = tip) ↔
        (e = .add key tip ∧ answer (runJobs ⟨[], []⟩ es) key ≠ .exists) ∨
        ((e ≠ .stop key ∧ e ≠ .stopAll ∧ ∀ t', e = .newTip t' → t' = tip) ∧ (runJobs ⟨[], []⟩ es).jobs.lookup key = some tip) := by
      rw [ih]
      constructor
      · rintro ⟨a, b, hab, ha, h⟩
        rcases List.eq_nil_or_concat b with rfl | ⟨b', x, rfl⟩
        · obtain ⟨rfl, h2⟩ := List.append_inj' hab (by simp)
          simp only [List.cons.injEq, and_true] at h2
          exact .inl ⟨h2, ha⟩
        · rw [List.concat_eq_append, ← List.cons_append, ← List.append_assoc] at hab
          obtain ⟨rfl, h2⟩ := List.append_inj' hab (by simp)
          simp only [List.cons.injEq, and_true] at h2
          subst h2
          exact .inr ⟨h e (by simp), a, b', rfl, ha, fun y hy => h y (by simp [hy])⟩
      · rintro (⟨rfl, ha⟩ | ⟨he, a, b, rfl, ha, h⟩)
        · exact ⟨es, [], rfl, ha, by simp⟩
        · refine ⟨a, b ++ [e], by simp, ha, fun x hx => ?_⟩
          rcases List.mem_append.1 hx with hx | hx
          · exact h x hx
          · simp only [List.mem_singleton] at hx
            subst hx
            exact he
    rw [split]
    cases e with
    | used k t => simp [step]
    | stopAll => simp [step]
    | stop k =>
      by_cases hk : k = key
      · subst hk
        have : ((runJobs ⟨[], []⟩ es).jobs.filter fun p => p.1 != k).lookup k = none := lookup_none_of_keys (by simp)
        simp [step, this]
      · simp [step, lookup_filter_ne (Ne.symm hk), hk]
    | newTip t' =>
      simp only [step, lookup_filter_tip hn]
      simp
      constructor
      · rintro ⟨h, rfl⟩; exact ⟨rfl, h⟩
      · rintro ⟨rfl, h⟩; exact ⟨h, rfl⟩
    | add k t' =>
      simp only [step, answer]
      by_cases hs : ((runJobs ⟨[], []⟩ es).jobs.lookup k).isSome = true
      · by_cases hk : k = key
        · subst hk; simp [hs]
        · simp [hs, hk]
      · simp only [hs, Bool.false_eq_true, if_false]
        by_cases hk : k = key
        · subst hk
          have h0 : (runJobs ⟨[], []⟩ es).jobs.lookup k = none := by rwa [Bool.not_eq_true, Option.isSome_eq_false_iff, Option.isNone_iff_eq_none] at hs
          simp [List.lookup, h0]
        · have hk' : (key == k) = false := by simpa using Ne.symm hk
          simp [List.lookup, hk, hk']

/-- **C59 (start).**  The timestamp from which a new call for a key continues is exactly the one remembered last for this key after the last change of the tip, in any
history of the job manager. -/
theorem C59_start (es : List Event) (key t : Nat) : (runJobs ⟨[], []⟩ es).last.lookup key = some t ↔
    ∃ es1 es2, es = es1 ++ .used key t :: es2 ∧ (∀ e ∈ es2, (∀ tip, e ≠ .newTip tip) ∧ ∀ t', e ≠ .used key t') := by
  induction es using List.reverseRecOn with
  | nil => simp [runJobs]
  | append_singleton es e ih =>
    have hr : runJobs ⟨[], []⟩ (es ++ [e]) = step (runJobs ⟨[], []⟩ es) e := by simp [runJobs]
    rw [hr]
    have keep : (step (runJobs ⟨[], []⟩ es) e).last.lookup key = (runJobs ⟨[], []⟩ es).last.lookup key → (∀ tip, e ≠ .newTip tip) → (∀ t', e ≠ .used key t') →
        ((step (runJobs ⟨[], []⟩ es) e).last.lookup key = some t ↔
          ∃ es1 es2, es ++ [e] = es1 ++ .used key t :: es2 ∧ (∀ e ∈ es2, (∀ tip, e ≠ .newTip tip) ∧ ∀ t', e ≠ .used key t')) := by
      intro h1 h2 h3
      rw [h1, ih]
      constructor
      · rintro ⟨a, b, rfl, h⟩
        refine ⟨a, b ++ [e], by simp, fun x hx => ?_⟩
        rcases List.mem_append.1 hx with hx | hx
        · exact h x hx
        · simp only [List.mem_singleton] at hx
          subst hx
          exact ⟨h2, h3⟩
      · rintro ⟨a, b, hab, h⟩
        rcases List.eq_nil_or_concat b with rfl | ⟨b', x, rfl⟩
        · have := List.append_inj_right' hab (by simp)
          simp only [List.cons.injEq, and_true] at this
          exact absurd this (h3 t)
        · rw [List.concat_eq_append, ← List.cons_append, ← List.append_assoc] at hab
          obtain ⟨rfl, -⟩ := List.append_inj' hab (by simp)
          exact ⟨a, b', rfl, fun y hy => h y (by simp [hy])⟩
    cases e with
    | add k tip =>
      refine keep ?_ (by simp) (by simp)
      simp only [step]
      split <;> rfl
    | stop k => exact keep rfl (by simp) (by simp)
    | stopAll => exact keep rfl (by simp) (by simp)
    | newTip tip =>
      simp only [step, List.lookup_nil, reduceCtorEq, false_iff]
      rintro ⟨a, b, hab, h⟩
      rcases List.eq_nil_or_concat b with rfl | ⟨b', x, rfl⟩
      · have := List.append_inj_right' hab (by simp)
        simp at this
      · rw [List.concat_eq_append, ← List.cons_append, ← List.append_assoc] at hab
        have := (List.append_inj_right' hab (by simp))
        simp only [List.cons.injEq, and_true] at this
        exact (h x (by simp)).1 tip this.symm
    | used k t' =>
      by_cases hk : k = key
      · subst hk
        simp only [step, List.lookup_cons_self, Option.some.injEq]
        constructor
        · rintro rfl
          exact ⟨es, [], rfl, by simp⟩
        · rintro ⟨a, b, hab, h⟩
          rcases List.eq_nil_or_concat b with rfl | ⟨b', x, rfl⟩
          · have := List.append_inj_right' hab (by simp)
            simpa using this
          · rw [List.concat_eq_append, ← List.cons_append, ← List.append_assoc] at hab
            have := (List.append_inj_right' hab (by simp))
            simp only [List.cons.injEq, and_true] at this
            exact absurd this.symm ((h x (by simp)).2 t')
      · refine keep ?_ (by simp) (by simpa using fun a => absurd a hk)
        have : (key == k) = false := by simpa using Ne.symm hk
        simp only [step, List.lookup, this]
        exact lookup_filter_ne (Ne.symm hk)

end Verif.Stake
