import Verif.Spec.WsSender
import Verif.Props.WsMessage
import Verif.Props.Rfc6455

/-! # C133: only WebSocket frames and messages that may be sent are written -/

namespace Webparse
open Spec

/-- C133: what is written is a frame, or a message, that RFC 6455 lets an endpoint send; everything else is refused. -/
def C133_statement : Prop :=
  (∀ (f : WsFrame) (key : Option MaskKey) (out : Bytes) (n : Nat), f.data.length < 2 ^ 63 →
    f.toFrameable.writeTo key = .ok (out, n) → Rfc6455Frame key.isSome key f ∧ out = wsWireFrame key f) ∧
  (∀ (m : Message) (key : Option MaskKey) (out : Bytes) (n : Nat), (∀ s, m.status = some s → s < 2 ^ 16) →
    (messagePayload m).length < 2 ^ 63 → m.toFrameable.writeTo key = .ok (out, n) → RfcSent key m.opcode out)

theorem writeTo_long (f : Frameable) (key : Option MaskKey) (h1 : f.opcode < 16) (h2 : 8 ≤ f.opcode) (h3 : 126 ≤ f.size) :
    f.writeTo key = .err .wsDataFrame := by
  unfold Frameable.writeTo wsWriteHeader
  simp only
  rw [if_neg (by
    rw [gt_iff_lt, UInt8.lt_iff_toNat_lt]; rw [UInt8.lt_iff_toNat_lt] at h1; simp at h1 ⊢; omega), if_pos ⟨h2, h3⟩]
  rfl

/-- C133, exact: a frame is written unless it is a control frame of 126 octets or more, and then it is refused. What is written is
the frame as it is, whatever its bits and opcode. -/
theorem C133_written_iff_partial (f : WsFrame) (key : Option MaskKey) (r : Res (Bytes × Nat)) :
    f.toFrameable.writeTo key = r ↔
      (IsControl f.opcode ∧ 126 ≤ f.data.length ∧ r = .err .wsDataFrame) ∨
        ((IsControl f.opcode → f.data.length < 126) ∧ r = .ok (wsWireFrame key f, 0)) := by
  have h16 : f.toFrameable.opcode < 16 := (opcode_new f.opcode).2
  by_cases h : IsControl f.opcode ∧ 126 ≤ f.data.length
  · rw [writeTo_long f.toFrameable key h16 h.1 h.2]
    constructor
    · rintro rfl
      exact .inl ⟨h.1, h.2, rfl⟩
    · rintro (⟨-, -, rfl⟩ | ⟨h1, -⟩)
      · rfl
      · have := h1 h.1
        omega
  · have hc : IsControl f.opcode → f.data.length < 126 := fun a => Nat.lt_of_not_le fun b => h ⟨a, b⟩
    have e : f.toFrameable.writeTo key = .ok (wsWireFrame key f, 0) := by
      rw [writeTo_eq f.toFrameable key h16 hc, flags_nat]
      simp [wsWireFrame, WsFrame.toFrameable]
    rw [e]
    constructor
    · rintro rfl
      exact .inr ⟨hc, rfl⟩
    · rintro (⟨h1, h2, -⟩ | ⟨-, rfl⟩)
      · exact absurd ⟨h1, h2⟩ h
      · rfl

/-- C133, exact: a frame that is written may be sent if and only if it has no reserved bits, an opcode that means something, and
is in one piece if it is a control frame. -/
theorem C133_frame_iff_partial (f : WsFrame) (key : Option MaskKey) (out : Bytes) (n : Nat) (hl : f.data.length < 2 ^ 63)
    (h : f.toFrameable.writeTo key = .ok (out, n)) :
    Rfc6455Frame key.isSome key f ↔ f.reserved = (false, false, false) ∧
      f.opcode ∈ [Opcode.continuation, .text, .binary, .close, .ping, .pong] ∧ (IsControl f.opcode → f.finished = true) := by
  rcases (C133_written_iff_partial f key _).mp h with ⟨-, -, h1⟩ | ⟨h1, -⟩
  · simp at h1
  · exact ⟨fun k => ⟨k.reserved, k.opcode, fun c => (k.control c).2⟩, fun ⟨a, b, c⟩ => ⟨rfl, a, b, fun k => ⟨h1 k, c k⟩, hl⟩⟩

theorem flagBits_opcode {f g : WsFrame} (h : UInt8.ofNat (wsFlagBits f + f.opcode.toByte.toNat) =
    UInt8.ofNat (wsFlagBits g + g.opcode.toByte.toNat)) : f.finished = g.finished ∧ f.opcode.toByte = g.opcode.toByte := by
  have hf := (opcode_new f.opcode).2
  have hg := (opcode_new g.opcode).2
  rw [UInt8.lt_iff_toNat_lt] at hf hg
  have h := congrArg UInt8.toNat h
  obtain ⟨a, ⟨b, c, d⟩, o, x⟩ := f
  obtain ⟨a', ⟨b', c', d'⟩, o', x'⟩ := g
  simp only [wsFlagBits, UInt8.toNat_ofNat', UInt8.reduceToNat] at h hf hg ⊢
  have hb : ∀ (p : Bool) (k : Nat), (if p = true then k else 0) = p.toNat * k := by intro p k; cases p <;> simp
  simp only [hb] at h
  have h1 := Bool.toNat_le a; have h2 := Bool.toNat_le b; have h3 := Bool.toNat_le c; have h4 := Bool.toNat_le d
  have h5 := Bool.toNat_le a'; have h6 := Bool.toNat_le b'; have h7 := Bool.toNat_le c'; have h8 := Bool.toNat_le d'
  have e1 : a.toNat = a'.toNat := by omega
  have e2 : o.toByte.toNat = o'.toByte.toNat := by omega
  refine ⟨?_, UInt8.toNat_inj.mp e2⟩
  cases a <;> cases a' <;> simp_all

/-- C133, violated: every control frame that is short and said to be not the last is written, and the same code refuses to read it. -/
theorem C133_violated_control (f : WsFrame) (key : Option MaskKey) (rest : Bytes) (hc : IsControl f.opcode)
    (hl : f.data.length < 126) (hf : f.finished = false) :
    f.toFrameable.writeTo key = .ok (wsWireFrame key f, 0) ∧ ¬ Rfc6455Frame key.isSome key f ∧
      ∀ g rest', wsRead (wsWireFrame key f ++ rest) ≠ .ok (g, rest') := by
  refine ⟨(C133_written_iff_partial f key _).mpr (.inr ⟨fun _ => hl, rfl⟩), fun h => ?_, fun g rest' h => ?_⟩
  · have := (h.control hc).2
    rw [hf] at this
    cases this
  · obtain ⟨ok, key', out, n, h1, h2⟩ := C29_read_exact _ _ _ h
    rw [wire_writeTo g ok] at h1
    cases h1
    unfold wsWireFrame wsWireHeader at h2
    simp only [List.cons_append, List.nil_append, List.append_assoc, List.cons.injEq] at h2
    obtain ⟨e1, e2⟩ := flagBits_opcode h2.1
    have := (ok.control (by unfold IsControl at hc ⊢; rwa [← e2])).2
    rw [← e1, hf] at this
    cases this

/-- C133, violated: every frame with reserved bits or an opcode that means nothing is written, if it is no long control frame. -/
theorem C133_violated_reserved (f : WsFrame) (key : Option MaskKey) (hl : IsControl f.opcode → f.data.length < 126)
    (hr : f.reserved ≠ (false, false, false) ∨ f.opcode ∉ [Opcode.continuation, .text, .binary, .close, .ping, .pong]) :
    f.toFrameable.writeTo key = .ok (wsWireFrame key f, 0) ∧ ¬ Rfc6455Frame key.isSome key f := by
  refine ⟨(C133_written_iff_partial f key _).mpr (.inr ⟨hl, rfl⟩), fun h => ?_⟩
  rcases hr with hr | hr
  · exact hr h.reserved
  · exact hr h.opcode

/-! ## Messages -/

theorem sent_wire (key : Option MaskKey) (t : MsgType) (d : Bytes) :
    wsWireFrame key ⟨true, (false, false, false), typeOpcode t, d⟩ = wsWireHeader 128 t.toByte.toNat key d.length ++ maskedOpt key d := by
  cases t <;> rfl

/-- C133, exact: a message is written unless it is a control message of 126 octets or more; in the frame is its status code, if it
has one, and its payload. -/
theorem C133_message_written_partial (m : Message) (key : Option MaskKey) (r : Res (Bytes × Nat)) :
    m.toFrameable.writeTo key = r ↔
      (¬ MessageShort m ∧ r = .err .wsDataFrame) ∨
        (MessageShort m ∧ r = .ok (wsWireFrame key ⟨true, (false, false, false), typeOpcode m.opcode, messagePayload m⟩, 0)) := by
  by_cases h : MessageShort m
  · rw [message_write m h key, sent_wire]
    constructor
    · rintro rfl
      exact .inr ⟨h, rfl⟩
    · rintro (⟨h1, -⟩ | ⟨-, rfl⟩)
      · exact absurd h h1
      · rfl
  · have h' : (m.opcode = .close ∨ m.opcode = .ping ∨ m.opcode = .pong) ∧ 126 ≤ (messagePayload m).length := by
      unfold MessageShort at h
      by_cases hc : m.opcode = .close ∨ m.opcode = .ping ∨ m.opcode = .pong
      · exact ⟨hc, Nat.le_of_not_lt fun k => h fun _ => k⟩
      · exact absurd (fun k => absurd k hc) h
    have h8 : 8 ≤ m.toFrameable.opcode := by
      show 8 ≤ m.opcode.toByte
      rcases h'.1 with e | e | e <;> rw [e] <;> decide
    rw [writeTo_long m.toFrameable key (type_byte m.opcode).1 h8 (by rw [messagePayload_size]; exact h'.2)]
    constructor
    · rintro rfl
      exact .inl ⟨h, rfl⟩
    · rintro (⟨-, rfl⟩ | ⟨h1, -⟩)
      · rfl
      · exact absurd h1 h

/-- C133, exact: a message that is written may be sent if and only if what is in the frame is a payload for its type. -/
theorem C133_message_iff_partial (m : Message) (key : Option MaskKey) (out : Bytes) (n : Nat) (hl : (messagePayload m).length < 2 ^ 63)
    (h : m.toFrameable.writeTo key = .ok (out, n)) : RfcSent key m.opcode out ↔ RfcPayload m.opcode (messagePayload m) := by
  rcases (C133_message_written_partial m key _).mp h with ⟨-, h1⟩ | ⟨-, h1⟩
  · simp at h1
  · cases h1
    constructor
    · rintro ⟨d, h1, -, h2⟩
      rw [sent_wire, sent_wire] at h2
      rw [wire_payload_injective h2]
      exact h1
    · intro h1
      exact ⟨_, h1, hl, rfl⟩

/-- C133: every message that may be sent is written so: the six constructors with text in UTF-8, short control data and a code that
may be sent. -/
theorem C133_built_partial (m : Message) (key : Option MaskKey) (hl : (messagePayload m).length < 2 ^ 63)
    (h : RfcPayload m.opcode (messagePayload m)) : ∃ out, m.toFrameable.writeTo key = .ok (out, 0) ∧ RfcSent key m.opcode out := by
  have hs : MessageShort m := by
    obtain ⟨t, s, p⟩ := m
    rintro (e | e | e) <;> cases e
    · rcases h with h | ⟨c, r, -, -, -, -, -, -, -, h⟩
      · rw [h]; decide
      · exact h
    · exact h
    · exact h
  exact ⟨_, (C133_message_written_partial m key _).mpr (.inr ⟨hs, rfl⟩), _, h, hl, rfl⟩

/-- C133, violated: every close message with a code that must not be sent (0 to 999, 1005, 1006, 1015; the code has names for
three of them and for 0) is written if its reason is short. -/
theorem C133_violated_code (code : Nat) (reason : Bytes) (key : Option MaskKey) (hs : code < 2 ^ 16) (hr : reason.length < 124)
    (hc : code < 1000 ∨ code = 1005 ∨ code = 1006 ∨ code = 1015) :
    ∃ out, (Message.closeBecause code reason).toFrameable.writeTo key = .ok (out, 0) ∧ ¬ RfcSent key .close out := by
  have hp : (messagePayload (Message.closeBecause code reason)).length < 126 := by
    simp only [messagePayload, Message.closeBecause, List.length_cons]; omega
  have hw := (C133_message_written_partial (Message.closeBecause code reason) key _).mpr (.inr ⟨fun _ => hp, rfl⟩)
  refine ⟨_, hw, fun h => ?_⟩
  rcases (C133_message_iff_partial _ key _ _ (by omega) hw).mp h with h | ⟨c, r, h1, h2, h3, h4, h5, -, h6, -⟩
  · simp [messagePayload, Message.closeBecause] at h
  · simp only [messagePayload, Message.closeBecause, List.cons.injEq] at h6
    have e1 := congrArg UInt8.toNat h6.1
    have e2 := congrArg UInt8.toNat h6.2.1
    simp only [UInt8.toNat_ofNat'] at e1 e2
    omega

/-- C133, violated: the status code, which is "only used if this message is of Type::Close", is put before the data of every
message, so the receiver has two octets more. -/
theorem C133_violated_status (t : MsgType) (s : Nat) (p : Bytes) (key : Option MaskKey) (hp : p.length < 124) :
    (Message.toFrameable ⟨t, some s, p⟩).writeTo key =
        (Message.toFrameable ⟨t, none, UInt8.ofNat (s / 256 % 256) :: UInt8.ofNat (s % 256) :: p⟩).writeTo key ∧
      (Message.toFrameable ⟨t, some s, p⟩).writeTo key ≠ (Message.toFrameable ⟨t, none, p⟩).writeTo key := by
  have h1 : MessageShort ⟨t, some s, p⟩ := fun _ => by simp only [messagePayload, List.length_cons]; omega
  have h2 : MessageShort ⟨t, none, UInt8.ofNat (s / 256 % 256) :: UInt8.ofNat (s % 256) :: p⟩ :=
    fun _ => by simp only [messagePayload, List.length_cons]; omega
  have h3 : MessageShort ⟨t, none, p⟩ := fun _ => by simp only [messagePayload]; omega
  rw [message_write _ h1, message_write _ h2, message_write _ h3]
  refine ⟨rfl, fun h => ?_⟩
  simp only [Res.ok.injEq, Prod.mk.injEq, and_true] at h
  have := congrArg List.length (wire_payload_injective h)
  simp only [messagePayload, List.length_cons] at this
  omega

theorem C133_violated : ¬ C133_statement := by
  intro h
  have hw := C133_violated_control ⟨false, (false, false, false), .ping, []⟩ none [] (by unfold IsControl; decide) (by decide) rfl
  exact hw.2.1 (h.1 _ _ _ _ (by decide) hw.1).1

/-- C133: an owned message, as it is received, may be sent on if and only if it is short and its code may be sent. -/
theorem C133_owned_iff_partial (m : OwnedMessage) (ht : MsgTyped m) (hs : MsgSendable m) (hl : (msgPayload m).length < 2 ^ 63)
    (key : Option MaskKey) : ∃ out, m.toFrameable.writeTo key = .ok (out, 0) ∧
      (RfcSent key m.toMessage.opcode out ↔ CodeAllowed m) := by
  have e : m.toFrameable.writeTo key = m.toMessage.toFrameable.writeTo key := by
    cases m with
    | close c => cases c <;> rfl
    | _ => rfl
  have ep : messagePayload m.toMessage = msgPayload m := by
    cases m with
    | close c => cases c <;> rfl
    | _ => rfl
  have hshort : MessageShort m.toMessage := by
    intro h
    rw [ep]
    refine hs.2 ?_
    cases m with
    | close c => unfold IsControl; exact (by decide : (8 : UInt8) ≤ Opcode.close.toByte)
    | ping b => unfold IsControl; exact (by decide : (8 : UInt8) ≤ Opcode.ping.toByte)
    | pong b => unfold IsControl; exact (by decide : (8 : UInt8) ≤ Opcode.pong.toByte)
    | text s => rcases h with h | h | h <;> cases h
    | binary s => rcases h with h | h | h <;> cases h
  have hw := (C133_message_written_partial m.toMessage key _).mpr (.inr ⟨hshort, rfl⟩)
  refine ⟨_, e.trans hw, ?_⟩
  rw [C133_message_iff_partial _ key _ _ (by rw [ep]; exact hl) hw, ep]
  cases m with
  | text s => exact ⟨fun _ => trivial, fun _ => (utf8Valid_iff s).mp ht⟩
  | binary b => exact ⟨fun _ => trivial, fun _ => trivial⟩
  | ping b => exact ⟨fun _ => trivial, fun _ => hs.2 (by unfold IsControl; exact (by decide : (8 : UInt8) ≤ Opcode.ping.toByte))⟩
  | pong b => exact ⟨fun _ => trivial, fun _ => hs.2 (by unfold IsControl; exact (by decide : (8 : UInt8) ≤ Opcode.pong.toByte))⟩
  | close c =>
    cases c with
    | none => exact ⟨fun _ => trivial, fun _ => .inl rfl⟩
    | some c =>
      obtain ⟨ht1, ht2⟩ := ht
      have hlen := hs.2 (show IsControl .close by unfold IsControl; decide)
      constructor
      · rintro (h | ⟨code, r, h1, h2, h3, h4, h5, -, h6, -⟩)
        · simp [msgPayload] at h
        · simp only [msgPayload, List.cons.injEq] at h6
          have e1 := congrArg UInt8.toNat h6.1
          have e2 := congrArg UInt8.toNat h6.2.1
          simp only [UInt8.toNat_ofNat'] at e1 e2
          have ht2' : c.status < 65536 := ht2
          have : c.status = code := by omega
          rw [← this] at h2 h3 h4 h5
          exact ⟨h2, h3, h4, h5⟩
      · rintro ⟨h2, h3, h4, h5⟩
        refine .inr ⟨c.status, c.reason, ht2, h2, h3, h4, h5, (utf8Valid_iff _).mp ht1, ?_, hlen⟩
        have ht2' : c.status < 65536 := ht2
        have : c.status / 256 % 256 = c.status / 256 := Nat.mod_eq_of_lt (by omega)
        simp only [msgPayload, this]

/-- A ping in two pieces is written; a close message with the code 1000 may be sent; one with 1005 is written and may not. -/
example : (WsFrame.toFrameable ⟨false, (false, false, false), .ping, [7]⟩).writeTo none = .ok ([0x09, 1, 7], 0) ∧
    (Message.closeBecause 1000 []).toFrameable.writeTo none = .ok ([0x88, 2, 3, 0xE8], 0) ∧
    (Message.closeBecause 1005 []).toFrameable.writeTo none = .ok ([0x88, 2, 3, 0xED], 0) ∧
    (Message.toFrameable ⟨.text, some 1000, [65]⟩).writeTo none = .ok ([0x81, 3, 3, 0xE8, 65], 0) := by decide +kernel

example : RfcPayload .close (messagePayload (Message.closeBecause 1000 (asciiBytes "bye"))) :=
  .inr ⟨1000, asciiBytes "bye", by decide, by decide, by decide, by decide, by decide,
    (utf8Valid_iff _).mp (by decide +kernel), by decide +kernel, by decide +kernel⟩

end Webparse
