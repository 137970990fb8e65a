import Verif.Model.Ws

/-! The messages of src/ws/message.rs as callers make and question them. -/

namespace Webparse

/-- src/ws/message.rs:58-70 (`Message::text`). -/
def Message.text (data : Bytes) : Message := ⟨.text, none, data⟩
/-- src/ws/message.rs:73-78 (`Message::binary`). -/
def Message.binary (data : Bytes) : Message := ⟨.binary, none, data⟩
/-- src/ws/message.rs:82-84 (`Message::close`). -/
def Message.close : Message := ⟨.close, none, []⟩
/-- src/ws/message.rs:89-101 (`Message::close_because`). -/
def Message.closeBecause (code : Nat) (reason : Bytes) : Message := ⟨.close, some code, reason⟩
/-- src/ws/message.rs:105-110 (`Message::ping`). -/
def Message.ping (data : Bytes) : Message := ⟨.ping, none, data⟩
/-- src/ws/message.rs:114-119 (`Message::pong`). -/
def Message.pong (data : Bytes) : Message := ⟨.pong, none, data⟩

/-- src/ws/message.rs:279-284 (`is_close`). -/
def OwnedMessage.isClose : OwnedMessage → Bool
  | .close _ => true
  | _ => false

/-- src/ws/message.rs:295-302 (`is_control`). -/
def OwnedMessage.isControl : OwnedMessage → Bool
  | .close _ => true
  | .ping _ => true
  | .pong _ => true
  | _ => false

/-- src/ws/message.rs:312-314 (`is_data`). -/
def OwnedMessage.isData (m : OwnedMessage) : Bool := !m.isControl

/-- src/ws/message.rs:324-329 (`is_ping`). -/
def OwnedMessage.isPing : OwnedMessage → Bool
  | .ping _ => true
  | _ => false

/-- src/ws/message.rs:338-343 (`is_pong`). -/
def OwnedMessage.isPong : OwnedMessage → Bool
  | .pong _ => true
  | _ => false

end Webparse
