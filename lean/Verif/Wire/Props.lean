import Verif.Codec.Props
import Verif.Wire.Laws
import Verif.Wire.StreamLemmas

/-!
C77: what a peer sends is what the other one receives, however the network cuts the bytes.
-/
set_option maxRecDepth 100000

namespace Verif.Wire
open Verif.Codec

namespace Spec

/-- The length of a message as four bytes, the lowest one first. -/
def header (n : Nat) : Bytes :=
  [UInt8.ofNat (n % 256), UInt8.ofNat (n / 2 ^ 8 % 256), UInt8.ofNat (n / 2 ^ 16 % 256),
    UInt8.ofNat (n / 2 ^ 24 % 256)]

/-- The form of a message on the stream: its length and its bytes. -/
def frame (body : Bytes) : Bytes := header body.length ++ body

/-- The size is allowed. -/
def Within (limit : Option Nat) (n : Nat) : Prop := ∀ m, limit = some m → n ≤ m

/-- A stream which delivers something with each read until it ends. -/
def Live (net : List Bytes) : Prop := ∀ x ∈ net, x ≠ []

/-- The values a peer address can have. -/
def AddrFits : PeerAddress → Prop
  | .ip4 ip p => ip.length = 4 ∧ p < 2 ^ 16
  | .ip6 ip p => ip.length = 16 ∧ p < 2 ^ 16

/-- The values the fields of a handshake can have: the user agent has 1 to 24 printable characters. -/
def HelloFits (h : Hello) : Prop :=
  h.protocolVersion < 2 ^ 32 ∧ h.network.length = 4 ∧ h.services < 2 ^ 64 ∧
  (0 < h.userAgent.length ∧ h.userAgent.length ≤ 24 ∧
    ∀ b ∈ h.userAgent, 0x21 ≤ b.toNat ∧ b.toNat ≤ 0x7e) ∧
  (h.softwareVersion.major < 2 ^ 8 ∧ h.softwareVersion.minor < 2 ^ 8 ∧
    h.softwareVersion.patch < 2 ^ 16) ∧
  (∀ a, h.receiverAddress = some a → AddrFits a) ∧ h.currentTime < 2 ^ 64

/-- The values a message can have. -/
def MsgFits (k : Crypto) : Message → Prop
  | .handshake (.hello h n) => HelloFits h ∧ n < 2 ^ 64
  | .handshake (.helloAck h) => HelloFits h
  | .pingRequest n => n < 2 ^ 64
  | .pingResponse n => n < 2 ^ 64
  | .newTransaction id => id.length = 32
  | .headerListRequest l => l.length < 2 ^ 32 ∧ ∀ id ∈ l, id.length = 32
  | .headerList l => l.length < 2 ^ 32 ∧ ∀ h ∈ l, SignedBlockHeader.Fits k h
  | .blockListRequest l => l.length < 2 ^ 32 ∧ ∀ id ∈ l, id.length = 32
  | .blockResponse b => BlockV1.Fits k b
  | .transactionRequest id => id.length = 32
  | .transactionResponse (.notFound id) => id.length = 32
  | .transactionResponse (.found t) => SignedTransaction.Fits k t
  | .announceAddr a => AddrFits a
  | .addrListRequest => True
  | .addrListResponse l => l.length < 2 ^ 32 ∧ ∀ a ∈ l, AddrFits a
  | .willDisconnect r => r.length < 2 ^ 32 ∧ k.utf8 r = true

end Spec

open Spec Verif.Codec.Spec

theorem header_eq (n : Nat) : header n = leBytes 4 n := by
  simp only [header, leBytes, Nat.div_div_eq_div_mul, List.cons.injEq, and_true]
  norm_num

theorem frame_eq (b : Bytes) : frame b = leBytes 4 b.length ++ b := by
  rw [frame, header_eq]

variable {α : Type} (c : Codec α) (limit : Option Nat) (buf : Bytes) (net : List Bytes)

/-- What comes next on a stream decides what is received, and nothing else does. -/
theorem recv_cases (hn : Live net) :
    let s := buf ++ net.flatten
    let o := recv c limit buf net
    Live o.2.2 ∧
    ((s.length < 4 ∧ o.1.toOption = none ∧ (∀ m, o.1 ≠ .ok m) ∧ o.1 = .error .eof ∧
        o.2.1 ++ o.2.2.flatten = s) ∨
     (∃ n m r, n < 2 ^ 32 ∧ limit = some m ∧ m < n ∧ s = header n ++ r ∧
        o.1 = .error (.tooLarge n m) ∧ o.2.1 ++ o.2.2.flatten = s) ∨
     (∃ n r, n < 2 ^ 32 ∧ Within limit n ∧ r.length < n ∧ s = header n ++ r ∧
        o.1 = .error .eof ∧ o.2.1 ++ o.2.2.flatten = s) ∨
     (∃ body r, body.length < 2 ^ 32 ∧ Within limit body.length ∧ s = frame body ++ r ∧
        o.2.1 ++ o.2.2.flatten = r ∧
        ((∃ m, c.decodeAll body = some m ∧ o.1 = .ok m) ∨
         (c.decodeAll body = none ∧ o.1 = .error .invalid)))) := by
  intro s o
  obtain ⟨h1, h2, h3⟩ := recv_eq (c := c) (limit := limit) buf net hn
  refine ⟨h3, ?_⟩
  change o.1 = final (decode c limit s).1 at h1
  change o.2.1 ++ o.2.2.flatten = (decode c limit s).2 at h2
  rcases stream_cases limit s with h | ⟨n, r, e, h32, hs, he⟩ | ⟨n, r, h32, hs, he, hr⟩ |
      ⟨body, r, h32, hs, he⟩
  · rw [decode_short h] at h1 h2
    left
    exact ⟨h, by rw [h1]; rfl, by rw [h1]; intro m; simp [final], h1, h2⟩
  · rw [pow256_4] at h32
    obtain ⟨m, hm, hmn, rfl⟩ := checkSize_error.mp he
    rw [hs, decode_large n (by rw [pow256_4]; exact h32) r _ he, ← hs] at h1 h2
    right; left
    exact ⟨n, m, r, h32, hm, hmn, by rw [header_eq]; exact hs, h1, h2⟩
  · rw [hs, decode_part n h32 r he hr, ← hs] at h1 h2
    right; right; left
    exact ⟨n, r, by rw [← pow256_4]; exact h32, checkSize_ok.mp he, hr,
      by rw [header_eq]; exact hs, h1, h2⟩
  · rw [hs, decode_frame _ h32 body r rfl, he] at h1 h2
    simp only at h1 h2
    right; right; right
    refine ⟨body, r, by rw [← pow256_4]; exact h32, checkSize_ok.mp he,
      by rw [frame_eq]; exact hs, ?_, ?_⟩
    · rw [h2]; cases c.decodeAll body <;> rfl
    · cases hd : c.decodeAll body with
      | none => right; rw [hd] at h1; exact ⟨rfl, h1⟩
      | some m => left; rw [hd] at h1; exact ⟨m, rfl, h1⟩

theorem frame_inj {a b r t : Bytes} (ha : a.length < 2 ^ 32) (hb : b.length < 2 ^ 32)
    (h : frame a ++ r = frame b ++ t) : a = b ∧ r = t := by
  rw [frame_eq, frame_eq, List.append_assoc, List.append_assoc] at h
  have h1 := List.append_inj h (by rw [leBytes_length, leBytes_length])
  have h2 : a.length = b.length := by
    have := congrArg leNat h1.1
    rwa [leNat_leBytes, leNat_leBytes, Nat.mod_eq_of_lt (by rw [pow256_4]; exact ha),
      Nat.mod_eq_of_lt (by rw [pow256_4]; exact hb)] at this
  exact List.append_inj h1.2 h2

theorem header_inj {n m : Nat} {r t : Bytes} (ha : n < 2 ^ 32) (hb : m < 2 ^ 32)
    (h : header n ++ r = header m ++ t) : n = m ∧ r = t := by
  rw [header_eq, header_eq] at h
  have h1 := List.append_inj h (by rw [leBytes_length, leBytes_length])
  refine ⟨?_, h1.2⟩
  have := congrArg leNat h1.1
  rwa [leNat_leBytes, leNat_leBytes, Nat.mod_eq_of_lt (by rw [pow256_4]; exact ha),
    Nat.mod_eq_of_lt (by rw [pow256_4]; exact hb)] at this

/-! ### Receiving -/

/-- A message is received exactly when the bytes to come begin with a frame of allowed size which holds
this message, and exactly the frame is taken from the stream.  How the bytes are cut and how many are in
the buffer already is irrelevant. -/
theorem C77_received (hn : Live net) (m : α) (rest : Bytes) :
    ((recv c limit buf net).1 = .ok m ∧
      (recv c limit buf net).2.1 ++ (recv c limit buf net).2.2.flatten = rest) ↔
    ∃ body, body.length < 2 ^ 32 ∧ Within limit body.length ∧ c.decodeAll body = some m ∧
      buf ++ net.flatten = frame body ++ rest := by
  have h := (recv_cases c limit buf net hn).2
  constructor
  · rintro ⟨ho, hr⟩
    rcases h with h | ⟨_, _, _, _, _, _, _, h, _⟩ | ⟨_, _, _, _, _, _, h, _⟩ |
        ⟨body, r, h32, hw, hs, hrest, h | h⟩
    · exact absurd ho (h.2.2.1 m)
    · rw [ho] at h; cases h
    · rw [ho] at h; cases h
    · obtain ⟨m', hm, h⟩ := h
      rw [ho] at h
      cases h
      rw [hrest] at hr
      subst hr
      exact ⟨body, h32, hw, hm, hs⟩
    · rw [ho] at h; cases h.2
  · rintro ⟨body, h32, hw, hm, hs⟩
    rcases h with h | ⟨n, mx, r, hn32, hl, hmn, hs', h, _⟩ | ⟨n, r, hn32, hw', hr, hs', h, _⟩ |
        ⟨body', r, h32', hw', hs', hrest, h⟩
    · have := h.1
      rw [hs, frame] at this
      simp [header] at this
      omega
    · rw [hs, frame, List.append_assoc] at hs'
      obtain ⟨rfl, _⟩ := header_inj h32 hn32 hs'
      exact absurd (hw mx hl) (by omega)
    · rw [hs, frame, List.append_assoc] at hs'
      obtain ⟨rfl, rfl⟩ := header_inj h32 hn32 hs'
      simp at hr
    · rw [hs] at hs'
      obtain ⟨rfl, rfl⟩ := frame_inj h32 h32' hs'
      refine ⟨?_, hrest⟩
      rcases h with ⟨m', hm', h⟩ | ⟨h, _⟩
      · rw [hm] at hm'; cases hm'; exact h
      · rw [hm] at h; cases h

/-- Bytes which are not a message are reported and skipped: exactly when a frame of allowed size with such
bytes comes next, and receiving goes on behind it. -/
theorem C77_invalid (hn : Live net) (rest : Bytes) :
    ((recv c limit buf net).1 = .error .invalid ∧
      (recv c limit buf net).2.1 ++ (recv c limit buf net).2.2.flatten = rest) ↔
    ∃ body, body.length < 2 ^ 32 ∧ Within limit body.length ∧ c.decodeAll body = none ∧
      buf ++ net.flatten = frame body ++ rest := by
  have h := (recv_cases c limit buf net hn).2
  constructor
  · rintro ⟨ho, hr⟩
    rcases h with h | ⟨_, _, _, _, _, _, _, h, _⟩ | ⟨_, _, _, _, _, _, h, _⟩ |
        ⟨body, r, h32, hw, hs, hrest, h | h⟩
    · rw [ho] at h; cases h.2.2.2.1
    · rw [ho] at h; cases h
    · rw [ho] at h; cases h
    · obtain ⟨m', hm, h⟩ := h
      rw [ho] at h
      cases h
    · rw [hrest] at hr
      subst hr
      exact ⟨body, h32, hw, h.1, hs⟩
  · rintro ⟨body, h32, hw, hm, hs⟩
    rcases h with h | ⟨n, mx, r, hn32, hl, hmn, hs', h, _⟩ | ⟨n, r, hn32, hw', hr, hs', h, _⟩ |
        ⟨body', r, h32', hw', hs', hrest, h⟩
    · have := h.1
      rw [hs, frame] at this
      simp [header] at this
      omega
    · rw [hs, frame, List.append_assoc] at hs'
      obtain ⟨rfl, _⟩ := header_inj h32 hn32 hs'
      exact absurd (hw mx hl) (by omega)
    · rw [hs, frame, List.append_assoc] at hs'
      obtain ⟨rfl, rfl⟩ := header_inj h32 hn32 hs'
      simp at hr
    · rw [hs] at hs'
      obtain ⟨rfl, rfl⟩ := frame_inj h32 h32' hs'
      refine ⟨?_, hrest⟩
      rcases h with ⟨m', hm', h⟩ | ⟨_, h⟩
      · rw [hm] at hm'; cases hm'
      · exact h

/-- A message is refused as too large exactly when a length above the limit is announced, before any byte
of it is looked at; nothing is taken from the stream. -/
theorem C77_too_large (hn : Live net) (n m : Nat) :
    (recv c limit buf net).1 = .error (.tooLarge n m) ↔
    n < 2 ^ 32 ∧ limit = some m ∧ m < n ∧ ∃ r, buf ++ net.flatten = header n ++ r := by
  have h := (recv_cases c limit buf net hn).2
  constructor
  · intro ho
    rcases h with h | ⟨n', m', r, h32, hl, hmn, hs, h, _⟩ | ⟨_, _, _, _, _, _, h, _⟩ |
        ⟨body, r, h32, hw, hs, hrest, ⟨m', _, h⟩ | h⟩
    · rw [ho] at h; cases h.2.2.2.1
    · rw [ho] at h
      cases h
      exact ⟨h32, hl, hmn, r, hs⟩
    · rw [ho] at h; cases h
    · rw [ho] at h; cases h
    · rw [ho] at h; cases h.2
  · rintro ⟨h32, hl, hmn, r, hs⟩
    rcases h with h | ⟨n', m', r', hn32, hl', hmn', hs', h, _⟩ | ⟨n', r', hn32, hw', hr, hs', h, _⟩ |
        ⟨body, r', h32', hw', hs', hrest, h⟩
    · have := h.1
      rw [hs] at this
      simp [header] at this
      omega
    · rw [hs] at hs'
      obtain ⟨rfl, _⟩ := header_inj h32 hn32 hs'
      rw [hl] at hl'
      cases hl'
      exact h
    · rw [hs] at hs'
      obtain ⟨rfl, rfl⟩ := header_inj h32 hn32 hs'
      exact absurd (hw' m hl) (by omega)
    · rw [hs, frame, List.append_assoc] at hs'
      obtain ⟨rfl, _⟩ := header_inj h32 h32' hs'
      exact absurd (hw' m hl) (by omega)

/-- Everything else is the end of the stream: it ends before the header or before the announced length of
allowed size is complete. -/
theorem C77_eof (hn : Live net) :
    (recv c limit buf net).1 = .error .eof ↔
    (buf ++ net.flatten).length < 4 ∨
    ∃ n r, n < 2 ^ 32 ∧ Within limit n ∧ r.length < n ∧ buf ++ net.flatten = header n ++ r := by
  have h := (recv_cases c limit buf net hn).2
  constructor
  · intro ho
    rcases h with h | ⟨n', m', r, h32, hl, hmn, hs, h, _⟩ | ⟨n, r, h32, hw, hr, hs, h, _⟩ |
        ⟨body, r, h32, hw, hs, hrest, ⟨m', _, h⟩ | h⟩
    · exact .inl h.1
    · rw [ho] at h; cases h
    · exact .inr ⟨n, r, h32, hw, hr, hs⟩
    · rw [ho] at h; cases h
    · rw [ho] at h; cases h.2
  · intro hh
    rcases h with h | ⟨n', m', r', hn32, hl', hmn', hs', h, _⟩ | ⟨n', r', hn32, hw', hr, hs', h, _⟩ |
        ⟨body, r', h32', hw', hs', hrest, h⟩
    · exact h.2.2.2.1
    · rcases hh with hh | ⟨n, r, h32, hw, hr, hs⟩
      · rw [hs'] at hh
        simp [header] at hh
        omega
      · rw [hs] at hs'
        obtain ⟨rfl, _⟩ := header_inj h32 hn32 hs'
        exact absurd (hw m' hl') (by omega)
    · exact h
    · rcases hh with hh | ⟨n, r, h32, hw, hr, hs⟩
      · rw [hs', frame] at hh
        simp [header] at hh
        omega
      · rw [hs, frame, List.append_assoc] at hs'
        obtain ⟨rfl, rfl⟩ := header_inj h32 h32' hs'
        simp at hr

/-- After the end of the stream or a message which is too large nothing was taken: the same is reported
again and again, whatever arrives later in the second case. -/
theorem C77_stuck (hn : Live net) (e : Err) (ho : (recv c limit buf net).1 = .error e)
    (he : e ≠ .invalid) :
    (recv c limit buf net).2.1 ++ (recv c limit buf net).2.2.flatten = buf ++ net.flatten ∧
    (recv c limit (recv c limit buf net).2.1 (recv c limit buf net).2.2).1 = .error e := by
  have hl := (recv_cases c limit buf net hn).1
  have h := (recv_cases c limit buf net hn).2
  have hs : (recv c limit buf net).2.1 ++ (recv c limit buf net).2.2.flatten =
      buf ++ net.flatten := by
    rcases h with h | ⟨n', m', r, h32, hl, hmn, hs, h, hh⟩ | ⟨n, r, h32, hw, hr, hs, h, hh⟩ |
        ⟨body, r, h32, hw, hs, hrest, ⟨m', _, h⟩ | h⟩
    · exact h.2.2.2.2
    · exact hh
    · exact hh
    · rw [ho] at h; cases h
    · rw [ho] at h; exact absurd (by cases h.2; rfl) he
  refine ⟨hs, ?_⟩
  cases e with
  | invalid => exact absurd rfl he
  | eof =>
    rw [C77_eof c limit _ _ hl, hs, ← C77_eof c limit _ _ hn]
    exact ho
  | tooLarge n m =>
    rw [C77_too_large c limit _ _ hl, hs, ← C77_too_large c limit _ _ hn]
    exact ho

/-- Receiving depends on the bytes only: two streams with the same bytes, cut and buffered differently,
give the same result and the same bytes are left.  So giving up waiting for a message and asking again
later loses nothing. -/
theorem C77_cut (buf' : Bytes) (net' : List Bytes) (hn : Live net) (hn' : Live net')
    (h : buf ++ net.flatten = buf' ++ net'.flatten) :
    (recv c limit buf net).1 = (recv c limit buf' net').1 ∧
    (recv c limit buf net).2.1 ++ (recv c limit buf net).2.2.flatten =
      (recv c limit buf' net').2.1 ++ (recv c limit buf' net').2.2.flatten := by
  obtain ⟨h1, h2, _⟩ := recv_eq (c := c) (limit := limit) buf net hn
  obtain ⟨h3, h4, _⟩ := recv_eq (c := c) (limit := limit) buf' net' hn'
  rw [h1, h2, h3, h4, h]
  exact ⟨rfl, rfl⟩

/-- The same for any number of messages. -/
theorem C77_cut_many (k : Nat) (buf' : Bytes) (net' : List Bytes) (hn : Live net) (hn' : Live net')
    (h : buf ++ net.flatten = buf' ++ net'.flatten) :
    (recvMany c limit k buf net).1 = (recvMany c limit k buf' net').1 ∧
    (recvMany c limit k buf net).2.1 ++ (recvMany c limit k buf net).2.2.flatten =
      (recvMany c limit k buf' net').2.1 ++ (recvMany c limit k buf' net').2.2.flatten := by
  induction k generalizing buf net buf' net' with
  | zero => exact ⟨rfl, h⟩
  | succ k ih =>
    obtain ⟨h1, h2⟩ := C77_cut c limit buf net buf' net' hn hn' h
    have := ih _ _ _ _ (recv_cases c limit buf net hn).1 (recv_cases c limit buf' net' hn').1 h2
    simp only [recvMany]
    rw [h1, this.1]
    exact ⟨rfl, this.2⟩

/-- More bytes are waited for only while they are needed: when a read was done, the bytes before it were
fewer than a header and a message of the largest size. -/
theorem C77_pending (m : Nat) (pre : List Bytes) (x : Bytes) (post : List Bytes)
    (h : (recv c (some m) buf (pre ++ x :: post)).2.2.length ≤ post.length) :
    (buf ++ pre.flatten).length < 4 + m := by
  have hp := recv_pending buf pre x post h
  rcases stream_cases (some m) (buf ++ pre.flatten) with h | ⟨n, r, e, h32, hs, he⟩ |
      ⟨n, r, h32, hs, he, hr⟩ | ⟨body, r, h32, hs, he⟩
  · omega
  · rw [hs, decode_large n h32 r e he] at hp; cases hp
  · have := checkSize_ok.mp he m rfl
    rw [hs, List.length_append, leBytes_length]
    omega
  · rw [hs, decode_frame _ h32 body r rfl, he] at hp
    cases hd : c.decodeAll body <;> rw [hd] at hp <;> cases hp

/-- A message is delivered as soon as its bytes are there: no further read is done. -/
theorem C77_prompt (pre : List Bytes) (x : Bytes) (post : List Bytes) (body r : Bytes)
    (h32 : body.length < 2 ^ 32) (hs : buf ++ pre.flatten = frame body ++ r) :
    post.length < (recv c limit buf (pre ++ x :: post)).2.2.length := by
  by_contra hc
  have hp := recv_pending (c := c) (limit := limit) buf pre x post (by omega)
  rw [hs, frame_eq, decode_frame _ (by rw [pow256_4]; exact h32) body r rfl] at hp
  cases hk : checkSize limit body.length <;> rw [hk] at hp
  · cases hp
  · cases hd : c.decodeAll body <;> rw [hd] at hp <;> cases hp

/-! ### Sending -/

/-- A message is sent exactly when its size is allowed, and what is written then is its frame; otherwise
nothing is written. -/
theorem C77_sent (m : α) (h32 : (c.enc m).length < 2 ^ 32) :
    (Within limit (c.enc m).length → send c limit m = .ok (frame (c.enc m))) ∧
    (∀ mx, limit = some mx → mx < (c.enc m).length →
      send c limit m = .error (.tooLarge (c.enc m).length mx)) := by
  constructor
  · intro hw
    unfold send
    rw [checkSize_ok.mpr hw, frame_eq, Nat.mod_eq_of_lt h32]
  · intro mx hl hm
    unfold send
    rw [checkSize_error.mpr ⟨mx, hl, hm, rfl⟩]

/-- With a limit below four gigabytes this holds for every message. -/
theorem C77_sent_limited (mx : Nat) (hmx : mx < 2 ^ 32) (m : α) :
    send c (some mx) m =
      if (c.enc m).length ≤ mx then .ok (frame (c.enc m))
      else .error (.tooLarge (c.enc m).length mx) := by
  split
  · rename_i h
    exact (C77_sent c (some mx) m (by omega)).1 (fun x hx => by cases hx; exact h)
  · rename_i h
    unfold send
    rw [checkSize_error.mpr ⟨mx, rfl, by omega, rfl⟩]

/-- Messages sent one after the other are received unchanged and in order, whatever is on the stream
behind them, which stays there, and however the bytes are cut, when the receiver allows what the sender
allows. -/
theorem C77_transfer {fits : α → Prop} (h : Exact c fits) (mx : Nat) (hmx : mx < 2 ^ 32)
    (ms : List α) (hf : ∀ m ∈ ms, fits m) (sent rest : Bytes)
    (hs : sendMany c (some mx) ms = .ok sent) (hl : ∀ l, limit = some l → mx ≤ l)
    (hn : Live net) (hb : buf ++ net.flatten = sent ++ rest) :
    (recvMany c limit ms.length buf net).1 = ms.map .ok ∧
    (recvMany c limit ms.length buf net).2.1 ++
      (recvMany c limit ms.length buf net).2.2.flatten = rest := by
  induction ms generalizing buf net sent with
  | nil =>
    cases hs
    exact ⟨rfl, hb⟩
  | cons m ms ih =>
    simp only [sendMany] at hs
    rw [C77_sent_limited c mx hmx m] at hs
    split at hs
    · rename_i hm
      rw [show ∀ x (f : Bytes → Except Err Bytes), (Except.ok x >>= f) = f x from fun _ _ => rfl] at hs
      cases hr : sendMany c (some mx) ms with
      | error e => rw [hr] at hs; cases hs
      | ok b =>
        rw [hr] at hs
        cases hs
        rw [List.append_assoc] at hb
        obtain ⟨h1, h2⟩ := (C77_received c limit buf net hn m (b ++ rest)).mpr
          ⟨c.enc m, by omega, fun l hl' => by have := hl l hl'; omega,
            (C46_decode_all h _ m).mpr ⟨hf m (by simp), rfl⟩, hb⟩
        have := ih _ _ (fun x hx => hf x (by simp [hx])) b hr (recv_cases c limit buf net hn).1 h2
        simp only [List.length_cons, recvMany, List.map_cons]
        rw [h1, this.1]
        exact ⟨rfl, this.2⟩
    · cases hs

/-! ### Messages of the network -/

theorem ok_u16 (v : Nat) : (uint 2).ok v ↔ v < 2 ^ 16 := Iff.rfl
theorem ok_u64 (v : Nat) : (uint 8).ok v ↔ v < 2 ^ 64 := by
  rw [← pow256_8]; exact Iff.rfl

theorem ok_addr (a : PeerAddress) : PeerAddress.codec.ok a ↔ AddrFits a := by
  cases a <;>
    simp [PeerAddress.codec, PeerAddress.variants, enum, variant, pair, AddrFits, -Nat.reducePow,
      ok_bytesN, ok_u16]

theorem ok_userAgent (l : Bytes) :
    userAgentC.ok l ↔ 0 < l.length ∧ l.length ≤ 24 ∧ ∀ b ∈ l, 0x21 ≤ b.toNat ∧ b.toNat ≤ 0x7e := by
  have hc : ∀ b : UInt8, userAgentChar b = true ↔ 0x21 ≤ b.toNat ∧ b.toNat ≤ 0x7e := by
    intro b
    simp only [userAgentChar, Bool.and_eq_true, decide_eq_true_eq, UInt8.le_iff_toNat_le]
    rfl
  simp only [userAgentC, checked, ok_blob, Bool.and_eq_true, Bool.not_eq_true', decide_eq_true_eq,
    List.all_eq_true, hc, List.isEmpty_eq_false_iff, ← List.length_pos_iff]
  constructor
  · rintro ⟨_, ⟨h1, h2⟩, h3⟩
    exact ⟨h1, h2, h3⟩
  · rintro ⟨h1, h2, h3⟩
    exact ⟨by omega, ⟨h1, h2⟩, h3⟩

theorem ok_semver (v : SemVer) :
    SemVer.codec.ok v ↔ v.major < 2 ^ 8 ∧ v.minor < 2 ^ 8 ∧ v.patch < 2 ^ 16 := Iff.rfl

theorem ok_hello (h : Hello) : Hello.codec.ok h ↔ HelloFits h := by
  simp only [Hello.codec, iso, pair, HelloFits, ok_u32, ok_bytesN, ok_u64, ok_userAgent, ok_semver,
    ok_option, ok_addr, ok_c64]

theorem ok_handshake (m : HandshakeMessage) (k : Crypto) :
    HandshakeMessage.codec.ok m ↔ MsgFits k (.handshake m) := by
  cases m <;>
    simp [HandshakeMessage.codec, HandshakeMessage.variants, enum, variant, pair, MsgFits,
      -Nat.reducePow, ok_hello, ok_u64]

theorem ok_txResponse (m : TransactionResponse) (k : Crypto) :
    (TransactionResponse.codec k).ok m ↔ MsgFits k (.transactionResponse m) := by
  cases m <;>
    simp [TransactionResponse.codec, TransactionResponse.variants, enum, variant, MsgFits,
      -Nat.reducePow, ok_hash, SignedTransaction.ok_iff k]

theorem ok_message (k : Crypto) (m : Message) : (Message.codec k).ok m ↔ MsgFits k m := by
  cases m <;>
    simp [Message.codec, Message.variants, enum, variant, nothing, -Nat.reducePow, ok_hash, ok_vec,
      ok_u64, ok_string, ok_addr, ok_handshake _ k, ok_txResponse _ k, SignedBlockHeader.ok_iff k,
      Block.ok_iff k] <;>
    simp [MsgFits]

/-- The binary form of messages is exact: every message is read back unchanged and whatever is read is the
one binary form of what was read. -/
theorem C77_message_exact (k : Crypto) : Exact (Message.codec k) (MsgFits k) :=
  exact_of inferInstance (ok_message k)

/-- Messages of different kinds begin with different bytes, and the byte is the number of the kind. -/
theorem C77_message_kind (k : Crypto) (m : Message) :
    ∃ r, (Message.codec k).enc m = m.tag :: r := by
  cases m <;> exact ⟨_, rfl⟩

/-- Messages of peers, with the limit both of them use (10 MiB unless configured otherwise). -/
theorem C77_peers (k : Crypto) (mx : Nat) (hmx : mx < 2 ^ 32) (ms : List Message)
    (hf : ∀ m ∈ ms, MsgFits k m) (sent rest : Bytes)
    (hs : sendMany (Message.codec k) (some mx) ms = .ok sent)
    (hn : Live net) (hb : buf ++ net.flatten = sent ++ rest) :
    (recvMany (Message.codec k) (some mx) ms.length buf net).1 = ms.map .ok ∧
    (recvMany (Message.codec k) (some mx) ms.length buf net).2.1 ++
      (recvMany (Message.codec k) (some mx) ms.length buf net).2.2.flatten = rest :=
  C77_transfer (Message.codec k) (some mx) buf net (C77_message_exact k) mx hmx ms hf sent rest hs
    (fun l hl => by cases hl; exact le_rfl) hn hb

/-! ### Without a limit -/

/-- Without a limit the length of a message of four gigabytes or more is cut, and the message is not
received: a byte vector whose binary form has exactly 2^32 bytes is announced with length 0. -/
theorem C77_unlimited_finding :
    ∃ (m : Bytes) (sent : Bytes), blob.ok m ∧ send blob none m = .ok sent ∧
      sent = header 0 ++ blob.enc m ∧
      ∀ buf net, Live net → buf ++ net.flatten = sent →
        (recv blob none buf net).1 = .error .invalid := by
  have hm : ∀ l : Bytes, (encMany byte l).length = l.length := by
    intro l
    induction l with
    | nil => rfl
    | cons b l ih =>
      rw [encMany, List.length_append, ih, List.length_cons, Nat.add_comm]
      rfl
  have hc : (compactEnc (2 ^ 32 - 5)).length = 5 := by decide +kernel
  obtain ⟨n, hn⟩ : ∃ n, n = 2 ^ 32 - 5 := ⟨_, rfl⟩
  rw [← hn] at hc
  obtain ⟨m, hml⟩ : ∃ m : Bytes, m.length = n := ⟨List.replicate n 0, List.length_replicate⟩
  have hlen : (blob.enc m).length = 2 ^ 32 := by
    rw [show blob.enc m = compactEnc m.length ++ encMany byte m from rfl, List.length_append, hm, hml,
      hc, hn]
    norm_num
  refine ⟨m, header 0 ++ blob.enc m, ?_, ?_, rfl, ?_⟩
  · rw [ok_blob, hml, hn]; omega
  · unfold send
    simp only [checkSize]
    rw [hlen, Nat.mod_self, header_eq]
  · intro buf net hn hs
    refine ((C77_invalid blob none buf net hn (blob.enc m)).mpr
      ⟨[], by simp, nofun, by decide, ?_⟩).1
    rw [hs]
    rfl

/-! ### Examples -/

namespace Example

/-- Everything is accepted. -/
def crypto : Crypto := ⟨fun _ => true, fun _ => true, fun _ => true, fun _ => true, fun _ => true⟩

/-- Three messages. -/
def messages : List Message :=
  [.pingRequest 0x0102, .addrListRequest, .announceAddr (.ip4 [192, 168, 0, 1] 3031)]

/-- What is written for them. -/
def bytes : Bytes :=
  [9, 0, 0, 0, 1, 2, 1, 0, 0, 0, 0, 0, 0,
   1, 0, 0, 0, 9,
   8, 0, 0, 0, 8, 0, 192, 168, 0, 1, 0xd7, 0x0b]

example : (sendMany (Message.codec crypto) (some 100) messages).toOption = some bytes := by
  decide +kernel

example : ∀ m ∈ messages, MsgFits crypto m := by
  simp [messages, MsgFits, AddrFits]

/-- The stream cut in the middle of headers and messages, with the beginning of a fourth message. -/
def cut : List Bytes :=
  [[0, 0, 0, 1], [2, 1, 0, 0, 0, 0], [0, 0, 1, 0, 0, 0, 9, 8], [0, 0, 0, 8, 0, 192, 168, 0],
    [1, 0xd7, 0x0b, 7]]

example : Live cut := by
  unfold Live
  decide +kernel

example : [9] ++ cut.flatten = bytes ++ [7] := by decide +kernel

example : ((recvMany (Message.codec crypto) (some 100) 4 [9] cut).1.map (·.toOption)) =
    [some (.pingRequest 0x0102), some .addrListRequest,
      some (.announceAddr (.ip4 [192, 168, 0, 1] 3031)), none] := by
  decide +kernel

/-- A frame which is not a message between two pings: it is skipped. -/
example : ((recvMany (Message.codec crypto) (some 100) 3 [9, 0, 0]
    [[0, 1, 1, 0, 0, 0, 0, 0, 0, 0, 3, 0, 0], [0, 99, 1, 2, 9, 0, 0, 0, 2, 5, 0, 0, 0, 0, 0, 0, 0]]).1.map
      (·.toOption)) =
    [some (.pingRequest 1), none, some (.pingResponse 5)] := by
  decide +kernel

/-- The length 101 is above the limit. -/
example : (match (recv (Message.codec crypto) (some 100) [101, 0] [[0, 0], [1]]).1 with
    | .error e => some e | .ok _ => none) = some (.tooLarge 101 100) := by
  decide +kernel

end Example

end Verif.Wire
