import Verif.Model.Frame

/-!
# Setters and getters of SETTINGS

/repo/src/http/http2/frame/settings.rs:146-220
-/

namespace Webparse

/-- A call of one of the setters, src/http/http2/frame/settings.rs:166-211; the numbers are `u32`. -/
inductive SetCall where
  | initialWindowSize (v : Option Nat)
  | maxConcurrentStreams (v : Option Nat)
  | maxFrameSize (v : Option Nat)
  | maxHeaderListSize (v : Option Nat)
  | enablePush (on : Bool)
  | enableConnectProtocol (v : Option Nat)
  deriving DecidableEq, Repr

/-- src/http/http2/frame/settings.rs:166-211 (`set_initial_window_size`, `set_max_concurrent_streams`,
`set_max_frame_size` with its `assert!`, `set_max_header_list_size`, `set_enable_push`,
`set_enable_connect_protocol`). -/
def Settings.set (s : Settings) : SetCall → Res Settings
  | .initialWindowSize v => .ok { s with initialWindowSize := v }
  | .maxConcurrentStreams v => .ok { s with maxConcurrentStreams := v }
  | .maxFrameSize none => .ok { s with maxFrameSize := none }
  | .maxFrameSize (some v) =>
    if 16384 ≤ v ∧ v ≤ 2 ^ 24 - 1 then .ok { s with maxFrameSize := some v } else .panic
  | .maxHeaderListSize v => .ok { s with maxHeaderListSize := v }
  | .enablePush on => .ok { s with enablePush := some (if on then 1 else 0) }
  | .enableConnectProtocol v => .ok { s with enableConnectProtocol := v }

/-- Calls one after the other. -/
def Settings.setAll (s : Settings) : List SetCall → Res Settings
  | [] => .ok s
  | c :: cs => (s.set c).bind fun s => s.setAll cs

/-- src/http/http2/frame/settings.rs:154-156 (`is_ack`). -/
def Settings.isAck (s : Settings) : Bool := s.flags &&& 1 == 1

/-- src/http/http2/frame/settings.rs:197-199 (`is_push_enabled`). -/
def Settings.isPushEnabled (s : Settings) : Option Bool := s.enablePush.map (· != 0)

/-- src/http/http2/frame/settings.rs:205-207 (`is_extended_connect_protocol_enabled`). -/
def Settings.isExtendedConnectProtocolEnabled (s : Settings) : Option Bool :=
  s.enableConnectProtocol.map (· != 0)

end Webparse
