import Verif.Model.WsMessage
import Verif.Spec.Ws
import Verif.Spec.Utf8

/-! Messages that callers hand over without giving up their data, and the owned ones that are received. -/

namespace Webparse.Spec

/-- The payload that goes over the wire: the status code, if there is one, then the data. -/
def messagePayload (m : Message) : Bytes :=
  match m.status with
  | some s => UInt8.ofNat (s / 256 % 256) :: UInt8.ofNat (s % 256) :: m.payload
  | none => m.payload

/-- A message that may be sent: control messages are short. -/
def MessageShort (m : Message) : Prop :=
  m.opcode = .close ∨ m.opcode = .ping ∨ m.opcode = .pong → (messagePayload m).length < 126

/-- Only a close message has a status code (the constructors make no others, but the fields are public). -/
def StatusOnlyOnClose (m : Message) : Prop := m.status ≠ none → m.opcode = .close

/-- The data is what the kind of the message wants: text is UTF-8; a reason is UTF-8 and comes after a
status code. -/
def DataFits (m : Message) : Prop :=
  match m.opcode, m.status with
  | .text, _ => IsUtf8 m.payload
  | .close, some _ => IsUtf8 m.payload
  | .close, none => m.payload = []
  | _, _ => True

end Webparse.Spec
