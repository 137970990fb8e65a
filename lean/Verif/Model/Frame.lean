import Verif.Model.Method
import Verif.Model.Status
import Verif.Model.HeaderMap

/-!
# HTTP/2 frames

/repo/src/http/http2/frame/*.rs.  `u32` fields are natural numbers; where a function could leave
the range of its Rust type this is said.  Reads of the buffer crate that the code guards by a
length check are written with `take`/`drop`.
-/

namespace Webparse

/-! ## Flags and kinds -/

/-- src/http/http2/frame/flag.rs:13-22 (`Flag`): the bits with a name. -/
def flagMask : UInt8 := 0x2D

/-- src/http/http2/frame/flag.rs:28-33 (`Flag::new`, bitflags' `from_bits`): only named bits are accepted. -/
def flagNew (b : UInt8) : Res UInt8 := if b &&& ~~~flagMask = 0 then .ok b else .err .badFlag

/-- src/http/http2/frame/flag.rs:40-51 (`is_ack`, `is_end_stream`). -/
def flagIsEndStream (f : UInt8) : Bool := f &&& 0x1 == 0x1
/-- src/http/http2/frame/flag.rs:55-57. -/
def flagIsEndHeaders (f : UInt8) : Bool := f &&& 0x4 == 0x4
/-- src/http/http2/frame/flag.rs:67-69. -/
def flagIsPadded (f : UInt8) : Bool := f &&& 0x8 == 0x8
/-- src/http/http2/frame/flag.rs:79-81. -/
def flagIsPriority (f : UInt8) : Bool := f &&& 0x20 == 0x20
/-- src/http/http2/frame/flag.rs:58-60 (`set_end_headers`). -/
def flagSetEndHeaders (f : UInt8) : UInt8 := f ||| 0x4
/-- src/http/http2/frame/flag.rs:82-84 (`set_end_stream`). -/
def flagSetEndStream (f : UInt8) : UInt8 := f ||| 0x1
/-- src/http/http2/frame/flag.rs:85-87 (`unset_end_stream`). -/
def flagUnsetEndStream (f : UInt8) : UInt8 := f &&& ~~~0x1

/-- src/http/http2/frame/kind.rs:15-27 (`Kind`). -/
inductive Kind where
  | data | headers | priority | reset | settings | pushPromise | ping | goAway | windowUpdate
  | continuation | unregistered
  deriving DecidableEq, Repr

/-- src/http/http2/frame/kind.rs:30-44 (`Kind::new`). -/
def Kind.ofByte (b : UInt8) : Kind :=
  match b.toNat with
  | 0 => .data
  | 1 => .headers
  | 2 => .priority
  | 3 => .reset
  | 4 => .settings
  | 5 => .pushPromise
  | 6 => .ping
  | 7 => .goAway
  | 8 => .windowUpdate
  | 9 => .continuation
  | _ => .unregistered

/-- src/http/http2/frame/kind.rs:46-60 (`Kind::encode`). -/
def Kind.encode : Kind → UInt8
  | .data => 0
  | .headers => 1
  | .priority => 2
  | .reset => 3
  | .settings => 4
  | .pushPromise => 5
  | .ping => 6
  | .goAway => 7
  | .windowUpdate => 8
  | .continuation => 9
  | .unregistered => 255

/-! ## Stream identifiers and frame headers -/

/-- src/http/http2/frame/mod.rs:120-127 (`read_u31`) and 51-56 (`StreamIdentifier::parse`): 0 if fewer than four
bytes are left, and then nothing is consumed. -/
def readU31 (buf : Bytes) : Nat × Bytes :=
  if buf.length < 4 then (0, buf) else (beNat (buf.take 4) % 2 ^ 31, buf.drop 4)

/-- src/http/http2/frame/mod.rs:70-74 (`next_id`): the id handed out and the new state; `u32` addition overflow is
a panic. -/
def nextId (id : Nat) : Res (Nat × Nat) := if id + 2 < 2 ^ 32 then .ok (id, id + 2) else .panic

/-- src/http/http2/frame/frame.rs:29-35 (`FrameHeader`). -/
structure FrameHeader where
  length : Nat
  kind : Kind
  flag : UInt8
  id : Nat
  deriving DecidableEq, Repr

/-- src/http/http2/frame/frame.rs:226-241 (`FrameHeader::parse`): the header and the unread bytes. -/
def FrameHeader.parse (buf : Bytes) : Res (FrameHeader × Bytes) :=
  if buf.length < 9 then .err .short
  else do
    let length := beNat (buf.take 3)
    let kind := Kind.ofByte ((buf.drop 3).headD 0)
    let flag ← flagNew ((buf.drop 4).headD 0)
    let (id, rest) := readU31 (buf.drop 5)
    .ok ({ length, kind, flag, id }, rest)

/-- src/http/http2/frame/frame.rs:259-267 (`FrameHeader::encode`): the bytes appended; the returned size is 9.
`encode_u24` keeps the low 24 bits of the length, the id is written in full (32 bits). -/
def FrameHeader.encode (h : FrameHeader) : Bytes :=
  beBytes 3 h.length ++ [h.kind.encode, h.flag] ++ beBytes 4 h.id

/-! ## Fixed-shape frames -/

/-- src/http/http2/frame/ping.rs:23-27 (`Ping`). -/
structure Ping where
  ack : Bool
  payload : Bytes
  deriving DecidableEq, Repr

/-- src/http/http2/frame/ping.rs:69-98 (`Ping::parse`).  The `debug_assert` on the kind is not modelled (`Frame::parse`
calls it for its own kind only); likewise below. -/
def Ping.parse (head : FrameHeader) (payload : Bytes) : Res Ping :=
  if head.id ≠ 0 then .err .invalidStreamId
  else if payload.length ≠ 8 then .err .badFrameSize
  else .ok { ack := flagIsEndStream head.flag, payload }

/-- src/http/http2/frame/ping.rs:99-104 (`Ping::head`). -/
def Ping.head (p : Ping) : FrameHeader :=
  { length := p.payload.length, kind := .ping, flag := if p.ack then 1 else 0, id := 0 }

/-- src/http/http2/frame/ping.rs:106-113 (`Ping::encode`): bytes appended and size returned. -/
def Ping.encode (p : Ping) : Bytes × Nat := (p.head.encode ++ p.payload, 9 + p.payload.length)

/-- src/http/http2/frame/go_away.rs:20-25 (`GoAway`). -/
structure GoAway where
  lastStreamId : Nat
  errorCode : Nat
  debugData : Bytes
  deriving DecidableEq, Repr

/-- src/http/http2/frame/go_away.rs:60-74 (`GoAway::parse`). -/
def GoAway.parse (payload : Bytes) : Res GoAway :=
  if payload.length < 8 then .err .badFrameSize
  else
    let (lastStreamId, rest) := readU31 payload
    .ok { lastStreamId, errorCode := beNat (rest.take 4), debugData := rest.drop 4 }

/-- src/http/http2/frame/go_away.rs:76-80 (`GoAway::head`). -/
def GoAway.head (g : GoAway) : FrameHeader :=
  { length := 8 + g.debugData.length, kind := .goAway, flag := 0, id := 0 }

/-- src/http/http2/frame/go_away.rs:82-89 (`GoAway::encode`): bytes appended and size returned. -/
def GoAway.encode (g : GoAway) : Bytes × Nat :=
  (g.head.encode ++ beBytes 4 g.lastStreamId ++ beBytes 4 g.errorCode ++ g.debugData,
    9 + 4 + 4 + g.debugData.length)

/-- src/http/http2/frame/window_update.rs:21-25 (`WindowUpdate`). -/
structure WindowUpdate where
  streamId : Nat
  sizeIncrement : Nat
  deriving DecidableEq, Repr

/-- src/http/http2/frame/window_update.rs:44-64 (`WindowUpdate::parse`). -/
def WindowUpdate.parse (head : FrameHeader) (payload : Bytes) : Res WindowUpdate :=
  if payload.length ≠ 4 then .err .badFrameSize
  else
    let sizeIncrement := beNat payload % 2 ^ 31
    if sizeIncrement = 0 then .err .invalidWindowUpdateValue
    else .ok { streamId := head.id, sizeIncrement }

/-- src/http/http2/frame/window_update.rs:66-70 (`WindowUpdate::head`). -/
def WindowUpdate.head (w : WindowUpdate) : FrameHeader :=
  { length := 4, kind := .windowUpdate, flag := 0, id := w.streamId }

/-- src/http/http2/frame/window_update.rs:72-79 (`WindowUpdate::encode`). -/
def WindowUpdate.encode (w : WindowUpdate) : Bytes × Nat :=
  (w.head.encode ++ beBytes 4 w.sizeIncrement, 9 + 4)

/-- src/http/http2/frame/reset.rs:19-23 (`Reset`); a `Reason` is its number. -/
structure Reset where
  streamId : Nat
  errorCode : Nat
  deriving DecidableEq, Repr

/-- src/http/http2/frame/reset.rs:41-52 (`Reset::parse`). -/
def Reset.parse (head : FrameHeader) (payload : Bytes) : Res Reset :=
  if payload.length ≠ 4 then .err .invalidPayloadLength
  else .ok { streamId := head.id, errorCode := beNat payload }

/-- src/http/http2/frame/reset.rs:54-58 (`Reset::head`). -/
def Reset.head (r : Reset) : FrameHeader :=
  { length := 4, kind := .reset, flag := 0, id := r.streamId }

/-- src/http/http2/frame/reset.rs:60-66 (`Reset::encode`). -/
def Reset.encode (r : Reset) : Bytes × Nat := (r.head.encode ++ beBytes 4 r.errorCode, 9 + 4)

/-! ## PRIORITY -/

/-- src/http/http2/frame/priority.rs:24-36 (`StreamDependency`). -/
structure StreamDependency where
  dependencyId : Nat
  weight : UInt8
  isExclusive : Bool
  deriving DecidableEq, Repr

/-- src/http/http2/frame/priority.rs:18-22 (`Priority`). -/
structure Priority where
  streamId : Nat
  dependency : StreamDependency
  deriving DecidableEq, Repr

/-- src/http/http2/frame/priority.rs:99-111 (`StreamDependency::load`): the dependency and the unread bytes. -/
def StreamDependency.load (src : Bytes) : Res (StreamDependency × Bytes) :=
  if src.length < 5 then .err .invalidPayloadLength
  else
    let value := beNat (src.take 4)
    let id := value % 2 ^ 31
    .ok ({ dependencyId := id, weight := (src.drop 4).headD 0, isExclusive := value - id != 0 },
      src.drop 5)

/-- src/http/http2/frame/priority.rs:39-50 (`Priority::parse`). -/
def Priority.parse (head : FrameHeader) (payload : Bytes) : Res Priority := do
  let (dependency, _) ← StreamDependency.load payload
  if dependency.dependencyId = head.id then .err .invalidDependencyId
  else .ok { streamId := head.id, dependency }

/-- src/http/http2/frame/priority.rs:117-121 (`StreamDependency::encode`): the exclusive flag is not written. -/
def StreamDependency.encode (d : StreamDependency) : Bytes × Nat :=
  (beBytes 4 d.dependencyId ++ [d.weight], 5)

/-- src/http/http2/frame/priority.rs:72-79 (`Priority::encode`): the length stays 0 as `FrameHeader::new` sets it. -/
def Priority.encode (p : Priority) : Bytes × Nat :=
  ((FrameHeader.encode { length := 0, kind := .priority, flag := 0, id := p.streamId })
    ++ p.dependency.encode.1, 9 + p.dependency.encode.2)

/-! ## SETTINGS -/

/-- src/http/http2/frame/settings.rs:24-36 (`Settings`). -/
structure Settings where
  flags : UInt8 := 0
  headerTableSize : Option Nat := none
  enablePush : Option Nat := none
  maxConcurrentStreams : Option Nat := none
  initialWindowSize : Option Nat := none
  maxFrameSize : Option Nat := none
  maxHeaderListSize : Option Nat := none
  enableConnectProtocol : Option Nat := none
  deriving DecidableEq, Repr

/-- src/http/http2/frame/settings.rs:38-70 (`Setting`). -/
inductive Setting where
  | headerTableSize (v : Nat)
  | enablePush (v : Nat)
  | maxConcurrentStreams (v : Nat)
  | initialWindowSize (v : Nat)
  | maxFrameSize (v : Nat)
  | maxHeaderListSize (v : Nat)
  | enableConnectProtocol (v : Nat)
  deriving DecidableEq, Repr

/-- src/http/http2/frame/settings.rs:105-118 (`Setting::from_id`). -/
def Setting.fromId (id val : Nat) : Option Setting :=
  match id with
  | 1 => some (.headerTableSize val)
  | 2 => some (.enablePush val)
  | 3 => some (.maxConcurrentStreams val)
  | 4 => some (.initialWindowSize val)
  | 5 => some (.maxFrameSize val)
  | 6 => some (.maxHeaderListSize val)
  | 8 => some (.enableConnectProtocol val)
  | _ => none

/-- src/http/http2/frame/settings.rs:127-143 (`Setting::encode`). -/
def Setting.encode : Setting → Bytes
  | .headerTableSize v => beBytes 2 1 ++ beBytes 4 v
  | .enablePush v => beBytes 2 2 ++ beBytes 4 v
  | .maxConcurrentStreams v => beBytes 2 3 ++ beBytes 4 v
  | .initialWindowSize v => beBytes 2 4 ++ beBytes 4 v
  | .maxFrameSize v => beBytes 2 5 ++ beBytes 4 v
  | .maxHeaderListSize v => beBytes 2 6 ++ beBytes 4 v
  | .enableConnectProtocol v => beBytes 2 8 ++ beBytes 4 v

/-- src/http/http2/frame/settings.rs:236-277: the body of the loop, for one parsed setting. -/
def Settings.apply (s : Settings) : Option Setting → Res Settings
  | some (.headerTableSize v) => .ok { s with headerTableSize := some v }
  | some (.enablePush v) =>
    if v = 0 ∨ v = 1 then .ok { s with enablePush := some v } else .err .invalidSettingValue
  | some (.maxConcurrentStreams v) => .ok { s with maxConcurrentStreams := some v }
  | some (.initialWindowSize v) =>
    if v > 2 ^ 31 - 1 then .err .invalidSettingValue
    else .ok { s with initialWindowSize := some v }
  | some (.maxFrameSize v) =>
    if 16384 ≤ v ∧ v ≤ 2 ^ 24 - 1 then .ok { s with maxFrameSize := some v }
    else .err .invalidSettingValue
  | some (.maxHeaderListSize v) => .ok { s with maxHeaderListSize := some v }
  | some (.enableConnectProtocol v) =>
    if v = 0 ∨ v = 1 then .ok { s with enableConnectProtocol := some v }
    else .err .invalidSettingValue
  | none => .ok s

/-- src/http/http2/frame/settings.rs:234-278: `len` rounds of the loop, each reading six bytes. -/
def Settings.parseLoop : Nat → Settings → Bytes → Res Settings
  | 0, s, _ => .ok s
  | len + 1, s, buf => do
    let s ← s.apply (Setting.fromId (beNat (buf.take 2)) (beNat ((buf.drop 2).take 4)))
    Settings.parseLoop len s (buf.drop 6)

/-- src/http/http2/frame/settings.rs:223-280 (`parse_setting`). -/
def Settings.parseSetting (payload : Bytes) : Res Settings :=
  if payload.length % 6 ≠ 0 then .err .invalidPayloadLength
  else Settings.parseLoop (payload.length / 6) {} payload

/-- src/http/http2/frame/settings.rs:147-152 (`Settings::ack`). -/
def Settings.ack : Settings := { flags := 1 }

/-- src/http/http2/frame/settings.rs:282-303 (`Settings::parse`). -/
def Settings.parse (head : FrameHeader) (payload : Bytes) : Res Settings :=
  if head.id ≠ 0 then .err .invalidStreamId
  else if flagIsEndStream head.flag then
    if payload ≠ [] then .err .invalidPayloadLength else .ok Settings.ack
  else Settings.parseSetting payload

/-- src/http/http2/frame/settings.rs:349-379 (`for_each`): the settings visited, in order. -/
def Settings.forEach (s : Settings) : List Setting :=
  (s.headerTableSize.map Setting.headerTableSize).toList ++
  (s.enablePush.map Setting.enablePush).toList ++
  (s.maxConcurrentStreams.map Setting.maxConcurrentStreams).toList ++
  (s.initialWindowSize.map Setting.initialWindowSize).toList ++
  (s.maxFrameSize.map Setting.maxFrameSize).toList ++
  (s.maxHeaderListSize.map Setting.maxHeaderListSize).toList ++
  (s.enableConnectProtocol.map Setting.enableConnectProtocol).toList

/-- src/http/http2/frame/settings.rs:305-309 (`payload_len`). -/
def Settings.payloadLen (s : Settings) : Nat := s.forEach.length * 6

/-- src/http/http2/frame/settings.rs:334-347 (`Settings::encode`): bytes appended and size returned. -/
def Settings.encode (s : Settings) : Bytes × Nat :=
  (FrameHeader.encode { length := s.payloadLen, kind := .settings, flag := s.flags, id := 0 }
    ++ s.forEach.flatMap Setting.encode, 9 + s.forEach.length * 6)

/-! ## DATA -/

/-- src/http/http2/frame/data.rs:19-25 (`Data`); `pad_len` is always `None`. -/
structure DataFrame where
  streamId : Nat
  data : Bytes
  flags : UInt8
  deriving DecidableEq, Repr

/-- src/http/http2/frame/data.rs:28-37 (`Data::new`): `assert!` on a zero stream. -/
def DataFrame.new (head : FrameHeader) (payload : Bytes) : Res DataFrame :=
  if head.id = 0 then .panic
  else .ok { streamId := head.id, data := payload, flags := head.flag }

/-- src/http/http2/frame/data.rs:93-112 (`Data::encode`), at most `fuel` rounds of the loop: bytes appended and size
returned; `none` if the loop has not ended (with `max_frame_size = 0` it never does). -/
def DataFrame.encodeRun : (fuel : Nat) → (maxFrameSize : Nat) → DataFrame → Option (Bytes × Nat)
  | 0, _, _ => none
  | fuel + 1, m, d =>
    let nowLen := min d.data.length m
    let head : FrameHeader := { length := nowLen, kind := .data, flag := d.flags, id := d.streamId }
    if nowLen < d.data.length then
      let head := { head with flag := flagUnsetEndStream head.flag }
      match DataFrame.encodeRun fuel m { d with data := d.data.drop nowLen } with
      | none => none
      | some (out, size) => some (head.encode ++ d.data.take nowLen ++ out, 9 + nowLen + size)
    else some (head.encode ++ d.data, 9 + d.data.length)

end Webparse
