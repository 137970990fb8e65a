import Verif.Spec.Ws

/-! A WebSocket connection in one direction (RFC 6455 5.4): messages in fragments, with control messages between
the fragments. -/

namespace Webparse.Spec

/-- A later fragment of a message, and the control messages sent before it. -/
structure WsLater where
  between : List (OwnedMessage × Option MaskKey)
  key : Option MaskKey
  piece : Bytes

/-- What a sender sends: a control message, or a data message in one or more fragments. -/
inductive WsSent where
  | control (m : OwnedMessage) (key : Option MaskKey)
  | data (m : OwnedMessage) (key : Option MaskKey) (first : Bytes) (more : List WsLater)

/-- What goes to `write_to` for the later fragments: the control messages as they are, the fragment as a
continuation frame, FIN on the last. -/
def laterFrames : List WsLater → List (Frameable × Option MaskKey)
  | [] => []
  | l :: ls => l.between.map (fun c => (c.1.toFrameable, c.2)) ++
      ((WsFrame.toFrameable ⟨ls.isEmpty, (false, false, false), .continuation, l.piece⟩, l.key) :: laterFrames ls)

/-- What goes to `write_to`. -/
def WsSent.frames : WsSent → List (Frameable × Option MaskKey)
  | .control m key => [(m.toFrameable, key)]
  | .data m key first more =>
    (WsFrame.toFrameable ⟨more.isEmpty, (false, false, false), msgOpcode m, first⟩, key) :: laterFrames more

/-- The messages in the order in which they are complete. -/
def WsSent.arrives : WsSent → List OwnedMessage
  | .control m _ => [m]
  | .data m _ _ more => (more.map fun l => l.between.map (·.1)).flatten ++ [m]

/-- A control message that may be sent. -/
def ControlOk (m : OwnedMessage) : Prop := IsControl (msgOpcode m) ∧ MsgTyped m ∧ MsgSendable m

/-- What a sender may send: the fragments of a data message make up its payload. -/
def WsSent.Ok : WsSent → Prop
  | .control m _ => ControlOk m
  | .data m _ first more => ¬ IsControl (msgOpcode m) ∧ MsgTyped m ∧ MsgSendable m ∧
      first ++ (more.map (·.piece)).flatten = msgPayload m ∧ ∀ l ∈ more, ∀ c ∈ l.between, ControlOk c.1

/-- Write one after the other. -/
def wsWriteFrames : List (Frameable × Option MaskKey) → Res Bytes
  | [] => .ok []
  | (f, k) :: fs => do
    let (b, _) ← f.writeTo k
    let bs ← wsWriteFrames fs
    .ok (b ++ bs)

/-- A receiver that reads `n` frames: control frames are messages by themselves; the frames of a data message are
held until the one with FIN. -/
def wsReceive : Nat → List WsFrame → Bytes → Res (List OwnedMessage × List WsFrame × Bytes)
  | 0, held, buf => .ok ([], held, buf)
  | n + 1, held, buf => do
    let (f, buf) ← wsRead buf
    if 8 ≤ f.opcode.toByte then do
      let m ← OwnedMessage.fromFrames [f.toFrameable]
      let (ms, held, buf) ← wsReceive n held buf
      .ok (m :: ms, held, buf)
    else if f.finished then do
      let m ← OwnedMessage.fromFrames ((held ++ [f]).map WsFrame.toFrameable)
      let (ms, held, buf) ← wsReceive n [] buf
      .ok (m :: ms, held, buf)
    else wsReceive n (held ++ [f]) buf

end Webparse.Spec
