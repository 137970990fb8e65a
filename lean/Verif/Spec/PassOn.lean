import Verif.Spec.Frame
import Verif.Spec.Rfc9113

/-! # Sending on a frame that was received -/

namespace Webparse.Spec

/-- The frame, written with an encoder and this frame size limit, is read by a decoder as the same frame, and nothing is left. -/
def PassedOn (maxFrame maxList : Nat) (te td : HeaderIndex) (f : Frame) : Prop :=
  ∃ out size te' td', Frame.encode maxFrame te f = some (.ok (out, size, te')) ∧
    readFrame td maxList out = some (.ok (f, td', []))

/-- The kinds of control frames other than PRIORITY: RST_STREAM, SETTINGS, PING, GOAWAY, WINDOW_UPDATE. -/
def ControlKind (kind : UInt8) : Prop := kind ∈ ([3, 4, 6, 7, 8] : List UInt8)

end Webparse.Spec
