import Verif.Spec.Rfc6455
import Verif.Spec.WsMessage

/-! RFC 6455 5.5, 5.6, 7.4: what a message of each type may have as payload when it is sent. -/

namespace Webparse.Spec

/-- 5.6, 5.5, 5.5.1, 7.4: text is UTF-8; control messages have less than 126 octets; a close message is empty or has a code
that may be sent and a reason in UTF-8. -/
def RfcPayload : MsgType → Bytes → Prop
  | .text, d => IsUtf8 d
  | .binary, _ => True
  | .ping, d => d.length < 126
  | .pong, d => d.length < 126
  | .close, d => d = [] ∨ ∃ code reason, code < 2 ^ 16 ∧ 1000 ≤ code ∧ code ≠ 1005 ∧ code ≠ 1006 ∧ code ≠ 1015 ∧ IsUtf8 reason ∧
      d = UInt8.ofNat (code / 256) :: UInt8.ofNat (code % 256) :: reason ∧ d.length < 126

/-- 11.8: the opcode of each type. -/
def typeOpcode : MsgType → Opcode
  | .text => .text
  | .binary => .binary
  | .close => .close
  | .ping => .ping
  | .pong => .pong

/-- 5.2, 5.4: these bytes are a message of this type that may be sent, in one frame. -/
def RfcSent (key : Option MaskKey) (t : MsgType) (out : Bytes) : Prop :=
  ∃ d, RfcPayload t d ∧ d.length < 2 ^ 63 ∧ out = wsWireFrame key ⟨true, (false, false, false), typeOpcode t, d⟩

end Webparse.Spec
