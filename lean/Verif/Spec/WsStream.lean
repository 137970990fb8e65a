import Verif.Spec.WsSender

/-! RFC 6455 5.4: the messages on a connection in one direction, with control messages between the fragments of others. -/

namespace Webparse.Spec

/-- All of the bytes are these messages; `held` is the part of a message in fragments that came before. -/
inductive WsHeard (masked : Bool) : Option (MsgType × Bytes) → List (MsgType × Bytes) → Bytes → Prop
  | done : WsHeard masked none [] []
  | control {held : Option (MsgType × Bytes)} {key : Option MaskKey} {f : WsFrame} {t : MsgType} {l : List (MsgType × Bytes)} {rest : Bytes} :
      Rfc6455Frame masked key f → IsControl f.opcode → f.opcode = typeOpcode t → RfcPayload t f.data → WsHeard masked held l rest →
      WsHeard masked held ((t, f.data) :: l) (wsWireFrame key f ++ rest)
  | whole {key : Option MaskKey} {f : WsFrame} {t : MsgType} {l : List (MsgType × Bytes)} {rest : Bytes} :
      Rfc6455Frame masked key f → ¬ IsControl f.opcode → f.opcode = typeOpcode t → f.finished = true → RfcPayload t f.data →
      WsHeard masked none l rest → WsHeard masked none ((t, f.data) :: l) (wsWireFrame key f ++ rest)
  | first {key : Option MaskKey} {f : WsFrame} {t : MsgType} {l : List (MsgType × Bytes)} {rest : Bytes} :
      Rfc6455Frame masked key f → ¬ IsControl f.opcode → f.opcode = typeOpcode t → f.finished = false →
      WsHeard masked (some (t, f.data)) l rest → WsHeard masked none l (wsWireFrame key f ++ rest)
  | next {key : Option MaskKey} {f : WsFrame} {t : MsgType} {d : Bytes} {l : List (MsgType × Bytes)} {rest : Bytes} :
      Rfc6455Frame masked key f → f.opcode = .continuation → f.finished = false →
      WsHeard masked (some (t, d ++ f.data)) l rest → WsHeard masked (some (t, d)) l (wsWireFrame key f ++ rest)
  | last {key : Option MaskKey} {f : WsFrame} {t : MsgType} {d : Bytes} {l : List (MsgType × Bytes)} {rest : Bytes} :
      Rfc6455Frame masked key f → f.opcode = .continuation → f.finished = true → RfcPayload t (d ++ f.data) →
      WsHeard masked none l rest → WsHeard masked (some (t, d)) ((t, d ++ f.data) :: l) (wsWireFrame key f ++ rest)

/-- Messages written with `write_to`, each with a mask or without, one after the other. -/
inductive WroteMessages : List (Message × Option MaskKey) → Bytes → Prop
  | done : WroteMessages [] []
  | more {m : Message} {key : Option MaskKey} {out w : Bytes} {n : Nat} {l : List (Message × Option MaskKey)} :
      m.toFrameable.writeTo key = .ok (out, n) → WroteMessages l w → WroteMessages ((m, key) :: l) (out ++ w)

end Webparse.Spec
