import Mathlib.Tactic.Linarith
import Verif.Handshake.Model

/-!
C79: two nodes which complete a handshake agree, and messages go where they belong.
-/
namespace Verif.Handshake
open Verif Verif.Wire
open Verif.Codec (Bytes)

set_option maxRecDepth 100000

/-- A node for the examples. -/
def nodeA : Node := ⟨3, [1, 2, 3, 4], [65], ⟨1, 0, 0⟩, 3, false, 600000000000⟩
/-- Another one. -/
def nodeB : Node := ⟨2, [1, 2, 3, 4], [66], ⟨1, 1, 0⟩, 1, true, 600000000000⟩
/-- An address. -/
def addr1 : PeerAddress := .ip4 [10, 0, 0, 1] 3031

/-- The common version is the smaller one, if it is a supported one; it does not matter who chooses. -/
theorem C79_version (a b : Nat) :
    choose a b = choose b a ∧
    ∀ v, choose a b = some v ↔ (v = 2 ∨ v = 3) ∧ v ≤ a ∧ v ≤ b ∧ (v = a ∨ v = b) := by
  refine ⟨by unfold choose; rw [Nat.min_comm], fun v => ?_⟩
  unfold choose
  simp only
  by_cases h : min a b = 2 ∨ min a b = 3
  · rw [if_pos h]
    constructor
    · intro hv
      cases hv
      omega
    · rintro ⟨h1, h2, h3, h4⟩
      congr 1
      omega
  · rw [if_neg h]
    constructor
    · nofun
    · rintro ⟨h1, h2, h3, h4⟩
      omega

theorem validate_ok {n : Node} {start stop remote version v : Nat} :
    validate n start stop remote version = .ok v ↔
      start ≤ ofSeconds remote + n.maxDiff ∧ ofSeconds remote ≤ stop + n.maxDiff ∧
      choose version n.version = some v := by
  unfold validate timeOk
  by_cases h : start - n.maxDiff ≤ ofSeconds remote ∧ ofSeconds remote ≤ stop + n.maxDiff
  · rw [if_pos (decide_eq_true h)]
    have : start ≤ ofSeconds remote + n.maxDiff := by omega
    cases hc : choose version n.version with
    | none => simp
    | some w => simp [this, h.2]
  · rw [if_neg (by simpa using h)]
    constructor
    · nofun
    · rintro ⟨h1, h2, _⟩
      exact absurd ⟨by omega, h2⟩ h

/-- What the inbound side does.  It completes the handshake exactly if the message is a greeting, the time in it
is within the allowed difference of the time the node took for it, and there is a common version; then it tells
the backend what it learnt, and answers.  Otherwise it tells nothing, and sends at most a farewell, and only
to nodes which know that message. -/
theorem C79_inbound (n : Node) (reason : Err → Bytes) (peer : PeerAddress) (start recv now : Nat) (m : Message)
    (o : Outcome) (ho : n.inbound reason peer start recv now m = o) :
    (∀ v, o.result = .ok v ↔ ∃ h nonce, m = .handshake (.hello h nonce) ∧
      start ≤ ofSeconds h.currentTime + n.maxDiff ∧ ofSeconds h.currentTime ≤ recv + n.maxDiff ∧
      choose h.protocolVersion n.version = some v) ∧
    (∀ h nonce, m = .handshake (.hello h nonce) →
      (∀ v, o.result = .ok v →
        o.info = some ⟨v, h.network, n.services &&& h.services, h.userAgent, h.softwareVersion,
          h.receiverAddress, nonce⟩ ∧
        o.sent = [.handshake (.helloAck (n.hello n.services peer now))]) ∧
      (∀ e, o.result = .error e → o.info = none ∧ e.score = 0 ∧
        o.sent = if 3 ≤ h.protocolVersion then [.willDisconnect (reason e)] else [])) ∧
    ((∀ h nonce, m ≠ .handshake (.hello h nonce)) →
      o.result = .error .expected ∧ o.info = none ∧ o.sent = []) := by
  subst ho
  by_cases hm : ∃ h nonce, m = .handshake (.hello h nonce)
  · obtain ⟨h, nonce, rfl⟩ := hm
    have hv := fun v => validate_ok (n := n) (start := start) (stop := recv) (remote := h.currentTime)
      (version := h.protocolVersion) (v := v)
    have hscore : ∀ e, validate n start recv h.currentTime h.protocolVersion = .error e → e.score = 0 := by
      intro e he
      unfold validate at he
      split at he
      · split at he
        · cases he
        · cases he; rfl
      · cases he; rfl
    cases hr : validate n start recv h.currentTime h.protocolVersion with
    | error e =>
      have hi : n.inbound reason peer start recv now (.handshake (.hello h nonce)) =
          ⟨farewell reason (.error e) h.protocolVersion, none, .error e⟩ := by
        simp only [Node.inbound, hr]
      rw [hi]
      refine ⟨fun v => ?_, ?_, fun hne => absurd rfl (hne h nonce)⟩
      · constructor
        · nofun
        · rintro ⟨h', nonce', he, h1, h2, h3⟩
          cases he
          have := (hv v).mpr ⟨h1, h2, h3⟩
          rw [hr] at this; cases this
      · rintro h' nonce' he
        cases he
        exact ⟨(by nofun), fun e' he' => by cases he'; exact ⟨rfl, hscore _ hr, rfl⟩⟩
    | ok w =>
      have hi : n.inbound reason peer start recv now (.handshake (.hello h nonce)) =
          ⟨[.handshake (.helloAck (n.hello n.services peer now))],
            some ⟨w, h.network, n.services &&& h.services, h.userAgent, h.softwareVersion, h.receiverAddress,
              nonce⟩, .ok w⟩ := by
        simp only [Node.inbound, hr, farewell, List.nil_append]
      rw [hi]
      refine ⟨fun v => ?_, ?_, fun hne => absurd rfl (hne h nonce)⟩
      · constructor
        · intro hv'
          cases hv'
          obtain ⟨h1, h2, h3⟩ := (hv w).mp hr
          exact ⟨h, nonce, rfl, h1, h2, h3⟩
        · rintro ⟨h', nonce', he, h1, h2, h3⟩
          cases he
          rw [(hv w).mp hr |>.2.2] at h3
          cases h3
          rfl
      · rintro h' nonce' he
        cases he
        exact ⟨fun v hv' => by cases hv'; exact ⟨rfl, rfl⟩, (by nofun)⟩
  · have hne : ∀ h nonce, m ≠ .handshake (.hello h nonce) := fun h nonce he => hm ⟨h, nonce, he⟩
    have hi : n.inbound reason peer start recv now m = ⟨[], none, .error .expected⟩ := by
      unfold Node.inbound
      split
      · exact absurd rfl (hne _ _)
      · rfl
    rw [hi]
    refine ⟨fun v => ⟨(by nofun), ?_⟩, fun h nonce he => absurd he (hne h nonce), fun _ => ⟨rfl, rfl, rfl⟩⟩
    rintro ⟨h, nonce, he, _⟩
    exact absurd he (hne h nonce)

/-- What the outbound side does with the answer, in the same way; a farewell ends the handshake without blame. -/
theorem C79_outbound (n : Node) (reason : Err → Bytes) (override : Option Nat) (nonce start recv : Nat)
    (m : Message) (o : Outcome) (ho : n.outbound reason override nonce start recv m = o) :
    (∀ v, o.result = .ok v ↔ ∃ h, m = .handshake (.helloAck h) ∧
      start ≤ ofSeconds h.currentTime + n.maxDiff ∧ ofSeconds h.currentTime ≤ recv + n.maxDiff ∧
      choose h.protocolVersion n.version = some v) ∧
    (∀ h, m = .handshake (.helloAck h) →
      (∀ v, o.result = .ok v →
        o.info = some ⟨v, h.network, n.offered override &&& h.services, h.userAgent, h.softwareVersion,
          h.receiverAddress, nonce⟩ ∧ o.sent = []) ∧
      (∀ e, o.result = .error e → o.info = none ∧ e.score = 0 ∧
        o.sent = if 3 ≤ h.protocolVersion then [.willDisconnect (reason e)] else [])) ∧
    (∀ r, m = .willDisconnect r → o.result = .error .willDisconnect ∧ o.info = none ∧ o.sent = []) ∧
    ((∀ h, m ≠ .handshake (.helloAck h)) → (∀ r, m ≠ .willDisconnect r) →
      o.result = .error .expected ∧ o.info = none ∧ o.sent = []) := by
  subst ho
  by_cases hm : ∃ h, m = .handshake (.helloAck h)
  · obtain ⟨h, rfl⟩ := hm
    have hv := fun v => validate_ok (n := n) (start := start) (stop := recv) (remote := h.currentTime)
      (version := h.protocolVersion) (v := v)
    have hscore : ∀ e, validate n start recv h.currentTime h.protocolVersion = .error e → e.score = 0 := by
      intro e he
      unfold validate at he
      split at he
      · split at he
        · cases he
        · cases he; rfl
      · cases he; rfl
    cases hr : validate n start recv h.currentTime h.protocolVersion with
    | error e =>
      have hi : n.outbound reason override nonce start recv (.handshake (.helloAck h)) =
          ⟨farewell reason (.error e) h.protocolVersion, none, .error e⟩ := by
        simp only [Node.outbound, hr]
      rw [hi]
      refine ⟨fun v => ?_, ?_, (by nofun), fun hne => absurd rfl (hne h)⟩
      · constructor
        · nofun
        · rintro ⟨h', he, h1, h2, h3⟩
          cases he
          have := (hv v).mpr ⟨h1, h2, h3⟩
          rw [hr] at this; cases this
      · rintro h' he
        cases he
        exact ⟨(by nofun), fun e' he' => by cases he'; exact ⟨rfl, hscore _ hr, rfl⟩⟩
    | ok w =>
      have hi : n.outbound reason override nonce start recv (.handshake (.helloAck h)) =
          ⟨[], some ⟨w, h.network, n.offered override &&& h.services, h.userAgent, h.softwareVersion,
            h.receiverAddress, nonce⟩, .ok w⟩ := by
        simp only [Node.outbound, hr, farewell]
      rw [hi]
      refine ⟨fun v => ?_, ?_, (by nofun), fun hne => absurd rfl (hne h)⟩
      · constructor
        · intro hv'
          cases hv'
          obtain ⟨h1, h2, h3⟩ := (hv w).mp hr
          exact ⟨h, rfl, h1, h2, h3⟩
        · rintro ⟨h', he, h1, h2, h3⟩
          cases he
          rw [(hv w).mp hr |>.2.2] at h3
          cases h3
          rfl
      · rintro h' he
        cases he
        exact ⟨fun v hv' => by cases hv'; exact ⟨rfl, rfl⟩, (by nofun)⟩
  · have hne : ∀ h, m ≠ .handshake (.helloAck h) := fun h he => hm ⟨h, he⟩
    by_cases hw : ∃ r, m = .willDisconnect r
    · obtain ⟨r, rfl⟩ := hw
      refine ⟨fun v => ⟨(by nofun), ?_⟩, (by nofun), fun r _ => ⟨rfl, rfl, rfl⟩,
        fun _ hx => absurd rfl (hx r)⟩
      rintro ⟨h, he, _⟩
      cases he
    · have hi : n.outbound reason override nonce start recv m = ⟨[], none, .error .expected⟩ := by
        unfold Node.outbound
        split
        · exact absurd rfl (hne _)
        · exact absurd ⟨_, rfl⟩ hw
        · rfl
      rw [hi]
      refine ⟨fun v => ⟨(by nofun), ?_⟩, fun h he => absurd he (hne h), fun r hr => absurd ⟨r, hr⟩ hw,
        fun _ _ => ⟨rfl, rfl, rfl⟩⟩
      rintro ⟨h, he, _⟩
      exact absurd he (hne h)

/-- Two nodes which complete a handshake agree on the version and on the common services, and each of them
knows the network, name, version and services of the other; the inbound side knows the nonce of the
outbound one. -/
theorem C79_agree (a b : Node) (reason reason' : Err → Bytes) (override : Option Nat)
    (peerA peerB : PeerAddress) (nonce a0 a1 b0 b1 b2 : Nat) (ob oa : Outcome) (vb va : Nat) (ack : Message)
    (hb : b.inbound reason peerA b0 b1 b2 (a.outboundHello override peerB nonce a0) = ob)
    (hok : ob.result = .ok vb) (hack : ob.sent = [ack])
    (ha : a.outbound reason' override nonce a0 a1 ack = oa) (hok' : oa.result = .ok va) :
    va = vb ∧ va = min a.version b.version ∧ (va = 2 ∨ va = 3) ∧
    ∃ ia ib, oa.info = some ia ∧ ob.info = some ib ∧
      ia.common = ib.common ∧ ia.common = (a.offered override &&& b.services) ∧
      ia.version = va ∧ ib.version = va ∧
      ia.network = b.network ∧ ib.network = a.network ∧
      ia.userAgent = b.userAgent ∧ ib.userAgent = a.userAgent ∧
      ia.software = b.software ∧ ib.software = a.software ∧
      ia.nonce = nonce ∧ ib.nonce = nonce ∧
      ia.seen = (if b.proxy then none else some peerA) ∧
      ib.seen = (if a.proxy then none else some peerB) := by
  obtain ⟨i1, i2, _⟩ := C79_inbound b reason peerA b0 b1 b2 _ ob hb
  obtain ⟨o1, o2, _⟩ := C79_outbound a reason' override nonce a0 a1 ack oa ha
  obtain ⟨h, n', he, _, _, hc⟩ := (i1 vb).mp hok
  cases he
  obtain ⟨hi, hs⟩ := (i2 _ _ rfl).1 vb hok
  rw [hs] at hack
  cases hack
  obtain ⟨h', he', _, _, hc'⟩ := (o1 va).mp hok'
  cases he'
  obtain ⟨hi', _⟩ := (o2 _ rfl).1 va hok'
  have e1 : choose a.version b.version = some vb := hc
  have e2 : choose b.version a.version = some va := hc'
  rw [(C79_version b.version a.version).1] at e2
  rw [e1] at e2
  cases e2
  obtain ⟨g1, g2, g3, g4⟩ := ((C79_version a.version b.version).2 vb).mp e1
  refine ⟨rfl, by omega, g1, _, _, hi', hi, ?_, rfl, rfl, rfl, rfl, rfl, rfl, rfl, rfl, rfl, rfl, rfl, rfl, rfl⟩
  simp only [Node.hello]
  exact Nat.and_comm _ _

example : (nodeB.inbound (fun _ => []) addr1 1000000000000 1000500000000 1000600000000
      (nodeA.outboundHello none addr1 77 1100900000000)).result = .ok 2 ∧
    (nodeA.outbound (fun _ => []) none 77 1100900000000 1102000000000
      (.handshake (.helloAck (nodeB.hello 1 addr1 1000600000000)))).result = .ok 2 := by
  exact ⟨rfl, rfl⟩

/-- A node which begins with anything else than the message expected of it is blamed, with a score of 100, and told nothing. -/
theorem C79_blame (n : Node) (reason : Err → Bytes) (m : Message) :
    (∀ (peer : PeerAddress) (start recv now : Nat), (∀ h nonce, m ≠ .handshake (.hello h nonce)) →
      (n.inbound reason peer start recv now m).sent = [] ∧
      ∃ e, (n.inbound reason peer start recv now m).result = .error e ∧ e.score = 100) ∧
    ∀ (override : Option Nat) (nonce start recv : Nat), (∀ h, m ≠ .handshake (.helloAck h)) → (∀ r, m ≠ .willDisconnect r) →
      (n.outbound reason override nonce start recv m).sent = [] ∧
      ∃ e, (n.outbound reason override nonce start recv m).result = .error e ∧ e.score = 100 := by
  refine ⟨fun peer start recv now h => ?_, fun override nonce start recv h h' => ?_⟩
  · obtain ⟨a, _, b⟩ := (C79_inbound n reason peer start recv now m _ rfl).2.2 h
    exact ⟨b, _, a, rfl⟩
  · obtain ⟨a, _, b⟩ := (C79_outbound n reason override nonce start recv m _ rfl).2.2.2 h h'
    exact ⟨b, _, a, rfl⟩

/-- Nodes which follow the protocol do not blame each other, whatever their versions and clocks are: no side
ends the handshake with an error which has a score. -/
theorem C79_no_blame (a b : Node) (reason reason' : Err → Bytes) (override : Option Nat)
    (peerA peerB : PeerAddress) (nonce a0 a1 b0 b1 b2 : Nat) (ob : Outcome)
    (hb : b.inbound reason peerA b0 b1 b2 (a.outboundHello override peerB nonce a0) = ob) :
    (∀ e, ob.result = .error e → e.score = 0) ∧
    ∀ m ∈ ob.sent, ∀ e, (a.outbound reason' override nonce a0 a1 m).result = .error e → e.score = 0 := by
  obtain ⟨i1, i2, _⟩ := C79_inbound b reason peerA b0 b1 b2 _ ob hb
  refine ⟨fun e he => ((i2 _ _ rfl).2 e he).2.1, fun m hm e he => ?_⟩
  obtain ⟨_, o2, o3, _⟩ := C79_outbound a reason' override nonce a0 a1 m _ rfl
  cases hr : ob.result with
  | ok v =>
    rw [((i2 _ _ rfl).1 v hr).2, List.mem_singleton] at hm
    subst hm
    exact ((o2 _ rfl).2 e he).2.1
  | error e' =>
    rw [((i2 _ _ rfl).2 e' hr).2.2] at hm
    split at hm
    · rw [List.mem_singleton] at hm
      rw [(o3 _ hm).1] at he
      cases he
      rfl
    · cases hm

example : (nodeB.inbound (fun _ => [7]) addr1 1000000000000 1000500000000 1000600000000
    (nodeA.outboundHello none addr1 77 9900000000000)).sent = [.willDisconnect [7]] := rfl

theorem ofSeconds_seconds (t : Nat) : ofSeconds (seconds t) ≤ t ∧ t < ofSeconds (seconds t) + 1000000000 := by
  unfold ofSeconds seconds
  have := Nat.div_add_mod t 1000000000
  have := Nat.mod_lt t (show 1000000000 > 0 by omega)
  omega

/-- Clocks.  Node A begins at the true time `t0`, the task of B begins at `s0` and gets the greeting at `s1`;
the clocks of A and B are ahead of the true time by `da` and `db` (both may be negative).  If the clock of B is
behind that of A by no more than allowed, and ahead of it by no more than allowed less the delay and one
second, B accepts the time of A.  If B accepts it, B is not behind by more than allowed, the time of the
greeting and one second, nor ahead by more than allowed less the delay. -/
theorem C79_clocks (b : Node) (t0 s0 s1 : Nat) (da db : Int) (a0 b0 b1 : Nat)
    (h1 : t0 ≤ s1) (ha : (a0 : Int) = t0 + da) (hb0 : (b0 : Int) = s0 + db) (hb1 : (b1 : Int) = s1 + db) :
    (da - db ≤ b.maxDiff → db - da + (s0 - t0) + 1000000000 ≤ b.maxDiff →
      timeOk b b0 b1 (seconds a0) = true) ∧
    (timeOk b b0 b1 (seconds a0) = true →
      da - db < b.maxDiff + (s1 - t0) + 1000000000 ∧ db - da + (s0 - t0) ≤ b.maxDiff) := by
  obtain ⟨f1, f2⟩ := ofSeconds_seconds a0
  generalize ofSeconds (seconds a0) = f at f1 f2
  have key : timeOk b b0 b1 (seconds a0) = true ↔
      b0 - b.maxDiff ≤ ofSeconds (seconds a0) ∧ ofSeconds (seconds a0) ≤ b1 + b.maxDiff := by
    unfold timeOk; exact decide_eq_true_iff
  obtain ⟨f1, f2⟩ := ofSeconds_seconds a0
  rw [key]
  constructor
  · intro g1 g2
    constructor <;> omega
  · rintro ⟨g1, g2⟩
    constructor <;> omega

/-! ### Messages after the handshake -/

theorem handle_blocks (c : Channels) (m : Message) :
    (c.handle m).blocks = c.blocks ++ (if category m = .blocks then [m] else []) ∧
    (c.handle m).transactions = c.transactions ++ (if category m = .transactions then [m] else []) := by
  unfold Channels.handle
  cases hc : category m <;> simp <;> split <;> simp

theorem foldl_channels (ms : List Message) (c : Channels) :
    (ms.foldl Channels.handle c).blocks = c.blocks ++ ms.filter (fun m => category m = .blocks) ∧
    (ms.foldl Channels.handle c).transactions =
      c.transactions ++ ms.filter (fun m => category m = .transactions) := by
  induction ms generalizing c with
  | nil => simp
  | cons m ms ih =>
    rw [List.foldl_cons]
    obtain ⟨i1, i2⟩ := ih (c.handle m)
    obtain ⟨j1, j2⟩ := handle_blocks c m
    rw [i1, i2, j1, j2]
    constructor
    · rw [List.filter_cons]
      by_cases h : category m = .blocks <;> simp [h]
    · rw [List.filter_cons]
      by_cases h : category m = .transactions <;> simp [h]

/-- What the backend is told about one message. -/
def note (m : Message) : List Note :=
  match category m with
  | .handshake => [.misbehaved]
  | .manager => [.message m]
  | _ => []

/-- Whether a message is for the synchronisation. -/
def sync (m : Message) : Bool := category m = .blocks || category m = .transactions

theorem handle_notes (c : Channels) (m : Message) :
    (c.handle m).notes = c.notes ++ note m ++ (if sync m && !c.synced then [.first] else []) ∧
    (c.handle m).synced = (c.synced || sync m) := by
  unfold Channels.handle note sync
  cases hc : category m <;> cases hs : c.synced <;> simp [hs]

theorem foldl_notes (ms : List Message) (c : Channels) (hs : c.synced = true) :
    (ms.foldl Channels.handle c).notes = c.notes ++ ms.flatMap note := by
  induction ms generalizing c with
  | nil => simp
  | cons m ms ih =>
    rw [List.foldl_cons]
    obtain ⟨j1, j2⟩ := handle_notes c m
    rw [ih _ (by rw [j2, hs]; rfl), j1, hs]
    simp

/-- All messages for the synchronisation of blocks, and all for that of transactions, get there, in their
order, and no others. -/
theorem C79_sync (ms : List Message) :
    (Channels.all ms).blocks = ms.filter (fun m => category m = .blocks) ∧
    (Channels.all ms).transactions = ms.filter (fun m => category m = .transactions) := by
  have := foldl_channels ms Channels.init
  simpa [Channels.all, Channels.init] using this

/-- The peer manager gets all messages for it in their order, a misbehaviour for each message of the
handshake, and a note at the place of the first message for the synchronisation, once. -/
theorem C79_notes (ms : List Message) :
    ((∀ m ∈ ms, sync m = false) → (Channels.all ms).notes = ms.flatMap note) ∧
    ∀ pre m post, ms = pre ++ m :: post → (∀ x ∈ pre, sync x = false) → sync m = true →
      (Channels.all ms).notes = pre.flatMap note ++ .first :: post.flatMap note := by
  have key : ∀ (pre : List Message) (c : Channels), (∀ x ∈ pre, sync x = false) →
      (pre.foldl Channels.handle c).notes = c.notes ++ pre.flatMap note ∧
      (pre.foldl Channels.handle c).synced = c.synced := by
    intro pre
    induction pre with
    | nil => simp
    | cons m ms ih =>
      intro c h
      rw [List.foldl_cons]
      obtain ⟨j1, j2⟩ := handle_notes c m
      obtain ⟨i1, i2⟩ := ih (c.handle m) fun x hx => h x (List.mem_cons_of_mem _ hx)
      have hm := h m List.mem_cons_self
      rw [i1, i2, j1, j2, hm]
      simp
  constructor
  · intro h
    have := (key ms Channels.init h).1
    simpa [Channels.all, Channels.init] using this
  · rintro pre m post rfl h hm
    obtain ⟨k1, k2⟩ := key pre Channels.init h
    unfold Channels.all
    rw [List.foldl_append, List.foldl_cons]
    obtain ⟨j1, j2⟩ := handle_notes (pre.foldl Channels.handle Channels.init) m
    have hn : note m = [] := by
      unfold sync at hm
      unfold note
      cases hc : category m <;> simp [hc] at hm ⊢
    rw [foldl_notes post _ (by rw [j2, hm]; simp), j1, k1, k2, hm, hn]
    simp [Channels.init]

example : (Channels.all [.pingRequest 1, .newTransaction [], .headerList [], .addrListRequest,
    .handshake (.helloAck (nodeB.hello 1 addr1 0))]).notes =
    [.message (.pingRequest 1), .first, .message .addrListRequest, .misbehaved] := by decide +kernel

/-- Every kind of message goes to one place: messages about addresses and pings, and farewells, go to the
peer manager, headers and blocks to the synchronisation of blocks, transactions to that of transactions. -/
theorem C79_categories (m : Message) :
    (category m = .handshake ↔ ∃ h, m = .handshake h) ∧
    (category m = .manager ↔ (∃ n, m = .pingRequest n) ∨ (∃ n, m = .pingResponse n) ∨
      (∃ a, m = .announceAddr a) ∨ m = .addrListRequest ∨ (∃ l, m = .addrListResponse l) ∨
      ∃ r, m = .willDisconnect r) ∧
    (category m = .blocks ↔ (∃ l, m = .headerListRequest l) ∨ (∃ l, m = .headerList l) ∨
      (∃ l, m = .blockListRequest l) ∨ ∃ b, m = .blockResponse b) ∧
    (category m = .transactions ↔ (∃ i, m = .newTransaction i) ∨ (∃ i, m = .transactionRequest i) ∨
      ∃ r, m = .transactionResponse r) := by
  cases m <;> simp [category]

end Verif.Handshake
