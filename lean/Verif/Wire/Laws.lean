import Verif.Codec.Fits
import Verif.Wire.Types

/-!
The binary forms of messages are lawful, and what they can carry.
-/
set_option linter.unnecessarySeqFocus false
set_option linter.unusedSimpArgs false

namespace Verif.Wire
open Verif.Codec

theorem PeerAddress.each : ∀ v ∈ PeerAddress.variants, LawfulV PeerAddress.tag v := by
  unfold PeerAddress.variants
  enum_each PeerAddress.tag

instance PeerAddress.lawful : Lawful PeerAddress.codec :=
  lawful_enum PeerAddress.tag PeerAddress.each (by simp [PeerAddress.variants, variant])
    (by intro a; cases a <;> simp [PeerAddress.variants, variant, PeerAddress.tag])

instance : Lawful userAgentC := lawful_checked

instance SemVer.lawful : Lawful SemVer.codec :=
  lawful_iso inferInstance (fun _ => rfl) (fun _ => rfl)

instance Hello.lawful : Lawful Hello.codec :=
  lawful_iso inferInstance (fun _ => rfl) (fun _ => rfl)

theorem HandshakeMessage.each :
    ∀ v ∈ HandshakeMessage.variants, LawfulV HandshakeMessage.tag v := by
  unfold HandshakeMessage.variants
  enum_each HandshakeMessage.tag

instance HandshakeMessage.lawful : Lawful HandshakeMessage.codec :=
  lawful_enum HandshakeMessage.tag HandshakeMessage.each (by simp [HandshakeMessage.variants, variant])
    (by intro a; cases a <;> simp [HandshakeMessage.variants, variant, HandshakeMessage.tag])

theorem TransactionResponse.each (k : Crypto) :
    ∀ v ∈ TransactionResponse.variants k, LawfulV TransactionResponse.tag v := by
  unfold TransactionResponse.variants
  enum_each TransactionResponse.tag

instance TransactionResponse.lawful (k : Crypto) : Lawful (TransactionResponse.codec k) :=
  lawful_enum TransactionResponse.tag (TransactionResponse.each k)
    (by simp [TransactionResponse.variants, variant])
    (by intro a; cases a <;> simp [TransactionResponse.variants, variant, TransactionResponse.tag])

theorem Message.each (k : Crypto) : ∀ v ∈ Message.variants k, LawfulV Message.tag v := by
  unfold Message.variants
  enum_each Message.tag

instance Message.lawful (k : Crypto) : Lawful (Message.codec k) :=
  lawful_enum Message.tag (Message.each k) (by simp [Message.variants, variant])
    (by intro a; cases a <;> simp [Message.variants, variant, Message.tag])

end Verif.Wire
