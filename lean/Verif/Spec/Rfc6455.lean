import Verif.Spec.Ws

/-! RFC 6455 5.2, 5.4, 5.5 and 7.4: which frames and messages may be received when no extension was agreed on. -/

namespace Webparse.Spec

/-- The four flag bits of a frame as a number. -/
def wsFlagBits (f : WsFrame) : Nat :=
  (if f.finished then 128 else 0) + (if f.reserved.1 then 64 else 0) + (if f.reserved.2.1 then 32 else 0) +
    (if f.reserved.2.2 then 16 else 0)

/-- 5.2: the bytes of a frame. -/
def wsWireFrame (key : Option MaskKey) (f : WsFrame) : Bytes :=
  wsWireHeader (wsFlagBits f) f.opcode.toByte.toNat key f.data.length ++ maskedOpt key f.data

/-- 5.2 and 5.5: a frame that may be received by an endpoint whose peer has to mask (`masked`) or must not (5.1):
reserved bits 0, a known opcode, control frames short and not fragmented, the length below 2^63. -/
structure Rfc6455Frame (masked : Bool) (key : Option MaskKey) (f : WsFrame) : Prop where
  mask : key.isSome = masked
  reserved : f.reserved = (false, false, false)
  opcode : f.opcode ∈ [Opcode.continuation, .text, .binary, .close, .ping, .pong]
  control : IsControl f.opcode → f.data.length < 126 ∧ f.finished = true
  len : f.data.length < 2 ^ 63

/-- 5.4: the frames of a message in fragments: FIN on the last and only there, continuation frames after the
first. -/
def rfcFragments (o : Opcode) : List Bytes → List WsFrame
  | [] => []
  | [p] => [⟨true, (false, false, false), o, p⟩]
  | p :: q :: ps => ⟨false, (false, false, false), o, p⟩ :: rfcFragments .continuation (q :: ps)

/-- 7.4: codes below 1000 are not used, and 1005, 1006 and 1015 must not be in a close frame. -/
def CodeAllowed : OwnedMessage → Prop
  | .close (some c) => 1000 ≤ c.status ∧ c.status ≠ 1005 ∧ c.status ≠ 1006 ∧ c.status ≠ 1015
  | _ => True

/-- 5.4, 5.5, 5.6, 7.4: these frames are this message. -/
def Rfc6455Message (fs : List WsFrame) (m : OwnedMessage) : Prop :=
  MsgTyped m ∧ CodeAllowed m ∧ ∃ pieces, pieces ≠ [] ∧ pieces.flatten = msgPayload m ∧
    fs = rfcFragments (msgOpcode m) pieces ∧ (IsControl (msgOpcode m) → pieces.length = 1)

/-- FIN on the last frame and only there. -/
def FinOnLast : List WsFrame → Prop
  | [] => True
  | [f] => f.finished = true
  | f :: g :: fs => f.finished = false ∧ FinOnLast (g :: fs)

end Webparse.Spec
