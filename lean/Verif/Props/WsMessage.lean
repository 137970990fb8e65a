import Verif.Spec.WsMessage
import Verif.Proofs.Utf8Spec
import Verif.Props.Ws

/-! # Borrowed and owned WebSocket messages: C89 -/

namespace Webparse
open Spec

theorem messagePayload_pieces (m : Message) : m.toFrameable.pieces.flatten = messagePayload m := by
  obtain ⟨o, s, p⟩ := m
  cases s with
  | none => simp [Message.toFrameable, messagePayload]
  | some s => simp [Message.toFrameable, messagePayload, beBytes, ofNat_mod]

theorem messagePayload_size (m : Message) : m.toFrameable.size = (messagePayload m).length := by
  obtain ⟨o, s, p⟩ := m
  cases s <;> simp [Message.toFrameable, messagePayload]

theorem flags_fin (f : Frameable) (h1 : f.isLast = true) (h2 : f.reserved = (false, false, false)) : f.flags = 0x80 := by
  unfold Frameable.flags
  rw [h1, h2]
  decide

theorem msgPayload_pieces (m : OwnedMessage) : m.toFrameable.pieces.flatten = msgPayload m ∧
    m.toFrameable.size = (msgPayload m).length ∧ m.toFrameable.flags = 0x80 := by
  cases m with
  | close c =>
    cases c with
    | none => exact ⟨rfl, rfl, flags_fin _ rfl rfl⟩
    | some c => exact ⟨by simp [OwnedMessage.toFrameable, msgPayload, beBytes, ofNat_mod], by simp [OwnedMessage.toFrameable, msgPayload], flags_fin _ rfl rfl⟩
  | _ => exact ⟨by simp [OwnedMessage.toFrameable, msgPayload], rfl, flags_fin _ rfl rfl⟩

theorem ofMessage_opcode (m : Message) : (OwnedMessage.ofMessage m).toFrameable.opcode = m.toFrameable.opcode := by
  obtain ⟨o, s, p⟩ := m
  cases o <;> cases s <;> rfl

theorem wsWireHeader_length (fl o : Nat) (key : Option MaskKey) (n : Nat) : (wsWireHeader fl o key n).length =
    (if n < 126 then 2 else if n < 65536 then 4 else 10) + (if key = none then 0 else 4) := by
  unfold wsWireHeader
  have e : (2 : Nat) ^ 16 = 65536 := by decide
  rw [e]
  cases key <;> (by_cases h1 : n < 126 <;> by_cases h2 : n < 65536 <;> simp [h1, h2])

theorem maskedOpt_size (key : Option MaskKey) (p : Bytes) : (maskedOpt key p).length = p.length := by
  cases key <;> simp [maskedOpt, masked]

theorem xor_cancel_right {a b c : UInt8} (h : a ^^^ c = b ^^^ c) : a = b := by
  have := congrArg (· ^^^ c) h
  simpa only [UInt8.xor_assoc, UInt8.xor_self, UInt8.xor_zero] using this

theorem maskedOpt_injective (key : Option MaskKey) {p q : Bytes} (h : maskedOpt key p = maskedOpt key q) : p = q := by
  cases key with
  | none => exact h
  | some k =>
    have hl : p.length = q.length := by
      have := congrArg List.length h
      simpa only [maskedOpt_size] using this
    apply List.ext_getElem hl
    intro i h1 h2
    have := congrArg (·[i]?) h
    simp only [maskedOpt, masked, List.getElem?_mapIdx, List.getElem?_eq_getElem h1, List.getElem?_eq_getElem h2, Option.map_some, Option.some.injEq] at this
    exact xor_cancel_right this

/-- One opcode: the bytes written determine the payload. -/
theorem wire_payload_injective {fl o : Nat} {key : Option MaskKey} {p q : Bytes}
    (h : wsWireHeader fl o key p.length ++ maskedOpt key p = wsWireHeader fl o key q.length ++ maskedOpt key q) : p = q := by
  have hl := congrArg List.length h
  simp only [List.length_append, wsWireHeader_length, maskedOpt_size] at hl
  have e : p.length = q.length := by
    revert hl
    generalize p.length = a
    generalize q.length = b
    repeat' split
    all_goals omega
  rw [e] at h
  exact maskedOpt_injective key (List.append_cancel_left h)

theorem type_byte (t : MsgType) : t.toByte < 16 ∧ (8 ≤ t.toByte → t = .close ∨ t = .ping ∨ t = .pong) := by
  cases t <;> decide

theorem message_write (m : Message) (hs : MessageShort m) (key : Option MaskKey) :
    m.toFrameable.writeTo key = .ok (wsWireHeader 128 m.opcode.toByte.toNat key (messagePayload m).length ++
      maskedOpt key (messagePayload m), 0) := by
  rw [writeTo_eq m.toFrameable key (type_byte m.opcode).1 (fun h => by
    rw [messagePayload_size]; exact hs ((type_byte m.opcode).2 h)), messagePayload_pieces, messagePayload_size,
    flags_fin _ rfl rfl]
  rfl

/-! ## C89: a message means the same borrowed and owned -/

/-- C89: converting a message to an owned one changes nothing on the wire. -/
def C89_statement : Prop :=
  ∀ (m : Message) (key : Option MaskKey), (∀ s, m.status = some s → s < 2 ^ 16) → MessageShort m →
    (OwnedMessage.ofMessage m).toFrameable.writeTo key = m.toFrameable.writeTo key

/-- The payload of the owned message. -/
theorem owned_payload (m : Message) (ho : StatusOnlyOnClose m) :
    msgPayload (OwnedMessage.ofMessage m) = messagePayload m ↔ DataFits m := by
  obtain ⟨o, s, p⟩ := m
  unfold StatusOnlyOnClose at ho
  cases s with
  | none =>
    cases o with
    | text => exact lossy_eq_iff p
    | binary => exact ⟨fun _ => trivial, fun _ => rfl⟩
    | ping => exact ⟨fun _ => trivial, fun _ => rfl⟩
    | pong => exact ⟨fun _ => trivial, fun _ => rfl⟩
    | close => exact ⟨fun h => h.symm, fun h => h.symm⟩
  | some s =>
    have := ho (by simp)
    simp only at this
    subst this
    show _ :: _ :: utf8Lossy p = _ :: _ :: p ↔ _
    simp only [List.cons.injEq, true_and]
    exact lossy_eq_iff p

/-- Exactly the messages whose data fits their kind are the same on the wire when they are converted. -/
theorem C89_same_iff_partial (m : Message) (key : Option MaskKey) (ho : StatusOnlyOnClose m) (hs : MessageShort m) :
    (OwnedMessage.ofMessage m).toFrameable.writeTo key = m.toFrameable.writeTo key ↔ DataFits m := by
  rw [← owned_payload m ho, message_write m hs key]
  obtain ⟨k1, k2, k3⟩ := msgPayload_pieces (OwnedMessage.ofMessage m)
  have k4 := ofMessage_opcode m
  have hop : (OwnedMessage.ofMessage m).toFrameable.opcode = m.opcode.toByte := k4
  constructor
  · intro h
    by_cases hc : 8 ≤ m.opcode.toByte → (msgPayload (OwnedMessage.ofMessage m)).length < 126
    · rw [writeTo_eq _ key (by rw [hop]; exact (type_byte m.opcode).1) (by rw [hop, k2]; exact hc), k1, k2, k3, hop] at h
      simp only [Res.ok.injEq, Prod.mk.injEq, and_true] at h
      exact wire_payload_injective h
    · simp only [Classical.not_imp, Nat.not_lt] at hc
      have := C33_long_control_refused (OwnedMessage.ofMessage m) (by
        unfold IsControl
        have : (msgOpcode (OwnedMessage.ofMessage m)).toByte = m.opcode.toByte := by
          obtain ⟨o, s, p⟩ := m
          cases o <;> cases s <;> rfl
        rw [this]; exact hc.1) hc.2 key
      rw [this] at h
      cases h
  · intro h
    rw [writeTo_eq _ key (by rw [hop]; exact (type_byte m.opcode).1) (by
      rw [hop, k2, h]; exact fun h' => hs ((type_byte m.opcode).2 h')), k1, k2, k3, hop, h]
    rfl

/-- Violated: the data of a close message without a status code is dropped, whatever it is. -/
theorem C89_violated_close (p : Bytes) (hp : p ≠ []) (hl : p.length < 126) (key : Option MaskKey) :
    (OwnedMessage.ofMessage ⟨.close, none, p⟩).toFrameable.writeTo key ≠ (Message.toFrameable ⟨.close, none, p⟩).writeTo key := by
  intro h
  exact hp ((C89_same_iff_partial ⟨.close, none, p⟩ key (fun h => absurd rfl h) (fun _ => hl)).mp h)

theorem C89_violated : ¬ C89_statement := by
  intro h
  exact C89_violated_close [1] (by decide) (by decide) none (h ⟨.close, none, [1]⟩ none (fun s hs => by cases hs) (fun _ => by decide))

/-- What the constructors make: the owned message with the same data, if text and reasons are strings. -/
theorem C89_constructors (b t r : Bytes) (c : Nat) (ht : IsUtf8 t) (hr : IsUtf8 r) :
    OwnedMessage.ofMessage (.text t) = .text t ∧ OwnedMessage.ofMessage (.binary b) = .binary b ∧
    OwnedMessage.ofMessage .close = .close none ∧ OwnedMessage.ofMessage (.closeBecause c r) = .close (some ⟨c, r⟩) ∧
    OwnedMessage.ofMessage (.ping b) = .ping b ∧ OwnedMessage.ofMessage (.pong b) = .pong b := by
  refine ⟨?_, rfl, rfl, ?_, rfl, rfl⟩
  · show OwnedMessage.text (utf8Lossy t) = _
    rw [(lossy_eq_iff t).mpr ht]
  · show OwnedMessage.close (some ⟨c, utf8Lossy r⟩) = _
    rw [(lossy_eq_iff r).mpr hr]

/-- A message that is sent is received as its owned form. -/
theorem C89_received_partial (m : Message) (key : Option MaskKey) (rest : Bytes) (ho : StatusOnlyOnClose m) (hs : MessageShort m)
    (hd : DataFits m) (hl : (messagePayload m).length < 2 ^ 64) (hc : ∀ s, m.status = some s → s < 2 ^ 16) :
    ∃ out f, m.toFrameable.writeTo key = .ok (out, 0) ∧ wsRead (out ++ rest) = .ok (f, rest) ∧
      OwnedMessage.fromFrames [f.toFrameable] = .ok (OwnedMessage.ofMessage m) := by
  have hp := (owned_payload m ho).mpr hd
  have htyped : MsgTyped (OwnedMessage.ofMessage m) := by
    obtain ⟨o, s, p⟩ := m
    cases o with
    | text => exact (utf8Valid_iff _).mpr (lossy_isUtf8 p)
    | binary => exact trivial
    | ping => exact trivial
    | pong => exact trivial
    | close =>
      cases s with
      | none => exact trivial
      | some s => exact ⟨(utf8Valid_iff _).mpr (lossy_isUtf8 p), hc s rfl⟩
  have hsend : MsgSendable (OwnedMessage.ofMessage m) := by
    refine ⟨by rw [hp]; exact hl, ?_⟩
    intro hi
    rw [hp]
    apply hs
    unfold IsControl at hi
    obtain ⟨o, s, p⟩ := m
    cases o with
    | text => exact absurd hi (by decide : ¬ 8 ≤ Opcode.text.toByte)
    | binary => exact absurd hi (by decide : ¬ 8 ≤ Opcode.binary.toByte)
    | ping => exact .inr (.inl rfl)
    | pong => exact .inr (.inr rfl)
    | close => exact .inl rfl
  obtain ⟨out, n, f, h1, h2, h3⟩ := C33_roundtrip _ htyped hsend key rest
  rw [(C89_same_iff_partial m key ho hs).mpr hd] at h1
  have hn : n = 0 := by
    rw [message_write m hs key] at h1
    cases h1; rfl
  subst hn
  exact ⟨out, f, h1, h2, h3⟩

/-- The answer to a ping is a pong with the data of the ping, and only a ping is answered. -/
theorem C89_pong (m m' : Message) : m.intoPong = .ok m' ↔
    ∃ d s, m = ⟨.ping, s, d⟩ ∧ m' = ⟨.pong, s, d⟩ := by
  obtain ⟨o, s, p⟩ := m
  unfold Message.intoPong
  by_cases h : o = .ping
  · subst h
    simp only [if_true, Res.ok.injEq]
    constructor
    · rintro rfl; exact ⟨p, s, rfl, rfl⟩
    · rintro ⟨d, s', e1, e2⟩; cases e1; exact e2.symm
  · simp only [h, if_false]
    constructor
    · intro h'; cases h'
    · rintro ⟨d, s', e1, -⟩; cases e1; exact absurd rfl h

/-- The questions about a message agree with its opcode: control opcodes are 8 and above. -/
theorem C89_questions (m : OwnedMessage) :
    (m.isControl = true ↔ 8 ≤ m.toFrameable.opcode.toNat) ∧ (m.isData = true ↔ m.toFrameable.opcode = 1 ∨ m.toFrameable.opcode = 2) ∧
    (m.isClose = true ↔ m.toFrameable.opcode = 8) ∧ (m.isPing = true ↔ m.toFrameable.opcode = 9) ∧
    (m.isPong = true ↔ m.toFrameable.opcode = 10) := by
  cases m with
  | close c =>
    have e : (OwnedMessage.close c).toFrameable.opcode = 8 := by cases c <;> rfl
    rw [e]
    exact ⟨⟨fun _ => (by decide : 8 ≤ (8 : UInt8).toNat), fun _ => rfl⟩,
      ⟨(by intro h; cases h), fun h => absurd h (by decide : ¬ ((8 : UInt8) = 1 ∨ (8 : UInt8) = 2))⟩, ⟨fun _ => rfl, fun _ => rfl⟩,
      ⟨(by intro h; cases h), fun h => absurd h (by decide : ¬ (8 : UInt8) = 9)⟩,
      ⟨(by intro h; cases h), fun h => absurd h (by decide : ¬ (8 : UInt8) = 10)⟩⟩
  | text s => exact ⟨⟨(by intro h; cases h), fun h => absurd h (by decide : ¬ 8 ≤ (1 : UInt8).toNat)⟩, ⟨fun _ => .inl rfl, fun _ => rfl⟩,
      ⟨(by intro h; cases h), fun h => absurd h (by decide : ¬ (1 : UInt8) = 8)⟩, ⟨(by intro h; cases h), fun h => absurd h (by decide : ¬ (1 : UInt8) = 9)⟩,
      ⟨(by intro h; cases h), fun h => absurd h (by decide : ¬ (1 : UInt8) = 10)⟩⟩
  | binary s => exact ⟨⟨(by intro h; cases h), fun h => absurd h (by decide : ¬ 8 ≤ (2 : UInt8).toNat)⟩, ⟨fun _ => .inr rfl, fun _ => rfl⟩,
      ⟨(by intro h; cases h), fun h => absurd h (by decide : ¬ (2 : UInt8) = 8)⟩, ⟨(by intro h; cases h), fun h => absurd h (by decide : ¬ (2 : UInt8) = 9)⟩,
      ⟨(by intro h; cases h), fun h => absurd h (by decide : ¬ (2 : UInt8) = 10)⟩⟩
  | ping s => exact ⟨⟨fun _ => (by decide : 8 ≤ (9 : UInt8).toNat), fun _ => rfl⟩,
      ⟨(by intro h; cases h), fun h => absurd h (by decide : ¬ ((9 : UInt8) = 1 ∨ (9 : UInt8) = 2))⟩,
      ⟨(by intro h; cases h), fun h => absurd h (by decide : ¬ (9 : UInt8) = 8)⟩, ⟨fun _ => rfl, fun _ => rfl⟩,
      ⟨(by intro h; cases h), fun h => absurd h (by decide : ¬ (9 : UInt8) = 10)⟩⟩
  | pong s => exact ⟨⟨fun _ => (by decide : 8 ≤ (10 : UInt8).toNat), fun _ => rfl⟩,
      ⟨(by intro h; cases h), fun h => absurd h (by decide : ¬ ((10 : UInt8) = 1 ∨ (10 : UInt8) = 2))⟩,
      ⟨(by intro h; cases h), fun h => absurd h (by decide : ¬ (10 : UInt8) = 8)⟩,
      ⟨(by intro h; cases h), fun h => absurd h (by decide : ¬ (10 : UInt8) = 9)⟩, ⟨fun _ => rfl, fun _ => rfl⟩⟩

/-- A close message with a reason meets the hypotheses. -/
example : StatusOnlyOnClose (.closeBecause 1000 (asciiBytes "bye")) ∧ MessageShort (.closeBecause 1000 (asciiBytes "bye")) ∧
    DataFits (.closeBecause 1000 (asciiBytes "bye")) :=
  ⟨fun _ => rfl, fun _ => by decide +kernel, (utf8Valid_iff _).mp (by decide +kernel)⟩
example : Message.intoPong (.ping [1, 2, 3]) = .ok (.pong [1, 2, 3]) := by decide

end Webparse
