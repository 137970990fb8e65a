import Verif.Model.Utf8

/-!
# WebSocket frames and messages

/repo/src/ws/frame_header.rs, dataframe.rs, mask.rs, message.rs
-/

namespace Webparse

/-- src/ws/frame_header.rs:27-28: the masking key `[u8; 4]`. -/
structure MaskKey where
  k0 : UInt8
  k1 : UInt8
  k2 : UInt8
  k3 : UInt8
  deriving DecidableEq, Repr

/-- src/ws/frame_header.rs:62-64: the key as a slice. -/
def MaskKey.toList (k : MaskKey) : Bytes := [k.k0, k.k1, k.k2, k.k3]

/-! ## Headers -/

/-- src/ws/frame_header.rs:21-31 (`WsFrameHeader`); `flags` are the bits of `WsFrameFlags` (5-18), `len` is
a `u64`. -/
structure WsHeader where
  flags : UInt8
  opcode : UInt8
  mask : Option MaskKey
  len : Nat
  deriving DecidableEq, Repr

/-- src/ws/frame_header.rs:8-17: FIN. -/
def wsFin : UInt8 := 0x80
/-- src/ws/frame_header.rs:8-17: RSV1. -/
def wsRsv1 : UInt8 := 0x40
/-- src/ws/frame_header.rs:8-17: RSV2. -/
def wsRsv2 : UInt8 := 0x20
/-- src/ws/frame_header.rs:8-17: RSV3. -/
def wsRsv3 : UInt8 := 0x10

/-- src/ws/frame_header.rs:77: `from_bits_truncate` of `WsFrameFlags`: unnamed bits are dropped. -/
def wsFlagsTruncate (b : UInt8) : UInt8 := b &&& (wsFin ||| wsRsv1 ||| wsRsv2 ||| wsRsv3)

/-- src/ws/frame_header.rs:62-64: the key, if any. -/
def maskBytes : Option MaskKey → Bytes
  | some m => m.toList
  | none => []

/-- src/ws/frame_header.rs:34-67 (`write_header`): the bytes appended. -/
def wsWriteHeader (h : WsHeader) : Res Bytes :=
  if h.opcode > 0xF then .err .wsDataFrame
  else if h.opcode ≥ 8 ∧ h.len ≥ 126 then .err .wsDataFrame
  else
    let byte0 := h.flags ||| h.opcode
    let byte1 := (if h.mask.isSome then 0x80 else 0x00) |||
      (if h.len ≤ 125 then UInt8.ofNat h.len else if h.len ≤ 65535 then 126 else 127)
    let ext := if h.len ≥ 126 ∧ h.len ≤ 65535 then beBytes 2 h.len
      else if h.len > 65535 then beBytes 8 h.len else []
    .ok (byte0 :: byte1 :: (ext ++ maskBytes h.mask))

/-- src/ws/frame_header.rs:83, 90: `try_get_u16`, `try_get_u64` for `k = 2, 8` (external crate): an I/O error if fewer than `k`
bytes are left. -/
def tryGetBe (k : Nat) (buf : Bytes) : Res (Nat × Bytes) :=
  if buf.length < k then .err .io else .ok (beNat (buf.take k), buf.drop k)

/-- src/ws/frame_header.rs:80-97: the payload length. -/
def wsReadLen (byte1 : UInt8) (buf : Bytes) : Res (Nat × Bytes) :=
  let short := byte1 &&& 0x7F
  if short ≤ 125 then .ok (short.toNat, buf)
  else if short = 126 then do
    let (len, buf) ← tryGetBe 2 buf
    if len ≤ 125 then .err .wsDataFrame else .ok (len, buf)
  else do
    let (len, buf) ← tryGetBe 8 buf
    if len ≤ 65535 then .err .wsDataFrame else .ok (len, buf)

/-- src/ws/frame_header.rs:108-117: the masking key. -/
def wsReadMask (byte1 : UInt8) (buf : Bytes) : Res (Option MaskKey × Bytes) :=
  if byte1 &&& 0x80 = 0x80 then
    match buf with
    | a :: b :: c :: d :: rest => .ok (some ⟨a, b, c, d⟩, rest)
    | _ => .err .io
  else .ok (none, buf)

/-- src/ws/frame_header.rs:70-125 (`read_header`): the header and the unread bytes. -/
def wsReadHeader (buf : Bytes) : Res (WsHeader × Bytes) :=
  match buf with
  | byte0 :: byte1 :: rest => do
    let flags := wsFlagsTruncate byte0
    let opcode := byte0 &&& 0x0F
    let (len, rest) ← wsReadLen byte1 rest
    if opcode ≥ 8 ∧ len ≥ 126 then .err .wsDataFrame
    else if opcode ≥ 8 ∧ flags &&& wsFin ≠ wsFin then .err .wsProtocol
    else do
      let (mask, rest) ← wsReadMask byte1 rest
      .ok (⟨flags, opcode, mask, len⟩, rest)
  | _ => .err .io

/-! ## Masking -/

/-- src/ws/mask.rs:57-64 (`Masker::put_slice`): the bytes handed on and the position afterwards.  Indexing
`key[pos]` out of range would panic. -/
def maskerPut (key : MaskKey) : (pos : Nat) → Bytes → Res (Bytes × Nat)
  | pos, [] => .ok ([], pos)
  | pos, b :: bs =>
    match key.toList[pos]? with
    | none => .panic
    | some k => do
      let (out, pos) ← maskerPut key ((pos + 1) % 4) bs
      .ok ((b ^^^ k) :: out, pos)

/-- src/ws/mask.rs:68-75: `data.iter().zip(mask.iter().cycle())`; `cur` is what is left of this turn
through the key. -/
def maskGo (key : Bytes) : (cur : Bytes) → Bytes → Bytes
  | _, [] => []
  | k :: cur, b :: bs => (b ^^^ k) :: maskGo key cur bs
  | [], b :: bs =>
    match key with
    | [] => []
    | k :: cur => (b ^^^ k) :: maskGo key cur bs

/-- src/ws/mask.rs:68-75 (`mask_data`). -/
def maskData (key : MaskKey) (data : Bytes) : Bytes := maskGo key.toList key.toList data

/-! ## Data frames -/

/-- src/ws/dataframe.rs:228-263 (`Opcode`). -/
inductive Opcode where
  | continuation | text | binary
  | nonControl1 | nonControl2 | nonControl3 | nonControl4 | nonControl5
  | close | ping | pong
  | control1 | control2 | control3 | control4 | control5
  deriving DecidableEq, Repr

/-- src/ws/dataframe.rs:268-288 (`Opcode::new`). -/
def Opcode.new (op : UInt8) : Option Opcode :=
  if op = 0 then some .continuation
  else if op = 1 then some .text
  else if op = 2 then some .binary
  else if op = 3 then some .nonControl1
  else if op = 4 then some .nonControl2
  else if op = 5 then some .nonControl3
  else if op = 6 then some .nonControl4
  else if op = 7 then some .nonControl5
  else if op = 8 then some .close
  else if op = 9 then some .ping
  else if op = 10 then some .pong
  else if op = 11 then some .control1
  else if op = 12 then some .control2
  else if op = 13 then some .control3
  else if op = 14 then some .control4
  else if op = 15 then some .control5
  else none

/-- `opcode as u8`: the position in the enum (src/ws/dataframe.rs:228-263). -/
def Opcode.toByte : Opcode → UInt8
  | .continuation => 0 | .text => 1 | .binary => 2
  | .nonControl1 => 3 | .nonControl2 => 4 | .nonControl3 => 5 | .nonControl4 => 6 | .nonControl5 => 7
  | .close => 8 | .ping => 9 | .pong => 10
  | .control1 => 11 | .control2 => 12 | .control3 => 13 | .control4 => 14 | .control5 => 15

/-- src/ws/dataframe.rs:10-20 (`DataFrame`). -/
structure WsFrame where
  finished : Bool
  reserved : Bool × Bool × Bool
  opcode : Opcode
  data : Bytes
  deriving DecidableEq, Repr

/-- What the trait `DataFrameable` (src/ws/dataframe.rs:114-190) lets a caller see of a value: the getters,
the slices `write_payload` puts one after the other, and `take_payload`. -/
structure Frameable where
  isLast : Bool
  opcode : UInt8
  reserved : Bool × Bool × Bool
  size : Nat
  pieces : List Bytes
  taken : Bytes
  deriving DecidableEq, Repr

/-- src/ws/dataframe.rs:193-225 (`DataFrameable for DataFrame`). -/
def WsFrame.toFrameable (f : WsFrame) : Frameable :=
  { isLast := f.finished, opcode := f.opcode.toByte, reserved := f.reserved, size := f.data.length,
    pieces := [f.data], taken := f.data }

/-- src/ws/dataframe.rs:52-65: the payload, unmasked if there is a key. -/
def unmask (key : Option MaskKey) (body : Bytes) : Bytes :=
  match key with
  | some mask => maskData mask body
  | none => body

/-- src/ws/dataframe.rs:37-73 (`read_dataframe_body`); `expect` panics on an opcode above 15. -/
def wsReadBody (header : WsHeader) (body : Bytes) : Res WsFrame :=
  match Opcode.new header.opcode with
  | none => .panic
  | some opcode =>
    .ok {
      finished := header.flags &&& wsFin = wsFin
      reserved := (header.flags &&& wsRsv1 = wsRsv1, header.flags &&& wsRsv2 = wsRsv2,
        header.flags &&& wsRsv3 = wsRsv3)
      opcode
      data := unmask header.mask body }

/-- src/ws/dataframe.rs:76-86 (`read_dataframe`): the frame and the unread bytes. -/
def wsRead (buf : Bytes) : Res (WsFrame × Bytes) := do
  let (header, rest) ← wsReadHeader buf
  if rest.length < header.len then .err .io
  else do
    let f ← wsReadBody header (rest.take header.len)
    .ok (f, rest.drop header.len)

/-- src/ws/dataframe.rs:89-111 (`read_dataframe_with_limit`). -/
def wsReadLimit (limit : Nat) (buf : Bytes) : Res (WsFrame × Bytes) := do
  let (header, rest) ← wsReadHeader buf
  if header.len > limit then .err .io
  else if rest.length < header.len then .err .io
  else do
    let f ← wsReadBody header (rest.take header.len)
    .ok (f, rest.drop header.len)

/-- src/ws/dataframe.rs:127-144 (`frame_size`). -/
def Frameable.frameSize (f : Frameable) (masked : Bool) : Nat :=
  1 + (if f.size ≤ 125 then 1 else if f.size ≤ 65535 then 3 else 9) + (if masked then 4 else 0) + f.size

/-- src/ws/dataframe.rs:181-184: the payload through the masking writer. -/
def maskerPutAll (key : MaskKey) : (pos : Nat) → List Bytes → Res Bytes
  | _, [] => .ok []
  | pos, p :: ps => do
    let (out, pos) ← maskerPut key pos p
    let rest ← maskerPutAll key pos ps
    .ok (out ++ rest)

/-- src/ws/dataframe.rs:154-169: the flags. -/
def Frameable.flags (f : Frameable) : UInt8 :=
  (if f.isLast then wsFin else 0) ||| (if f.reserved.1 then wsRsv1 else 0) |||
    (if f.reserved.2.1 then wsRsv2 else 0) ||| (if f.reserved.2.2 then wsRsv3 else 0)

/-- src/ws/dataframe.rs:153-190 (`write_to`): the bytes appended and the number returned. -/
def Frameable.writeTo (f : Frameable) (key : Option MaskKey) : Res (Bytes × Nat) := do
  let head ← wsWriteHeader { flags := f.flags, opcode := f.opcode, mask := key, len := f.size }
  match key with
  | some key => do
    let body ← maskerPutAll key 0 f.pieces
    .ok (head ++ body, 0)
  | none => .ok (head ++ f.pieces.flatten, 0)

/-! ## Messages -/

/-- src/ws/message.rs:16-27 (`Type`). -/
inductive MsgType where
  | text | binary | ping | pong | close
  deriving DecidableEq, Repr

/-- `opcode as u8` (src/ws/message.rs:16-27). -/
def MsgType.toByte : MsgType → UInt8
  | .text => 1 | .binary => 2 | .ping => 9 | .pong => 10 | .close => 8

/-- src/ws/message.rs:38-46 (`Message`); the status code is a `u16`. -/
structure Message where
  opcode : MsgType
  status : Option Nat
  payload : Bytes
  deriving DecidableEq, Repr

/-- src/ws/message.rs:485-492 (`CloseData`); the reason is a `String`. -/
structure CloseData where
  status : Nat
  reason : Bytes
  deriving DecidableEq, Repr

/-- src/ws/message.rs:512-519 (`CloseData::into_bytes`). -/
def CloseData.intoBytes (c : CloseData) : Bytes := beBytes 2 c.status ++ c.reason

/-- src/ws/message.rs:255-272 (`OwnedMessage`); the text is a `String`. -/
inductive OwnedMessage where
  | text (s : Bytes)
  | binary (b : Bytes)
  | close (c : Option CloseData)
  | ping (b : Bytes)
  | pong (b : Bytes)
  deriving DecidableEq, Repr

/-- src/ws/message.rs:133-173 (`DataFrameable for Message`). -/
def Message.toFrameable (m : Message) : Frameable :=
  { isLast := true, opcode := m.opcode.toByte, reserved := (false, false, false)
    size := m.payload.length + (if m.status.isSome then 2 else 0)
    pieces := match m.status with
      | some s => [beBytes 2 s, m.payload]
      | none => [m.payload]
    taken := match m.status with
      | some s => beBytes 2 s ++ m.payload
      | none => m.payload }

/-- src/ws/message.rs:125-132 (`into_pong`): the message afterwards; `err` stands for `Err(())`. -/
def Message.intoPong (m : Message) : Res Message :=
  if m.opcode = .ping then .ok { m with opcode := .pong } else .err .extension

/-- src/ws/message.rs:352-435 (`DataFrameable for OwnedMessage`). -/
def OwnedMessage.toFrameable : OwnedMessage → Frameable
  | .text s => ⟨true, MsgType.text.toByte, (false, false, false), s.length, [s], s⟩
  | .binary b => ⟨true, MsgType.binary.toByte, (false, false, false), b.length, [b], b⟩
  | .ping b => ⟨true, MsgType.ping.toByte, (false, false, false), b.length, [b], b⟩
  | .pong b => ⟨true, MsgType.pong.toByte, (false, false, false), b.length, [b], b⟩
  | .close (some c) => ⟨true, MsgType.close.toByte, (false, false, false), c.reason.length + 2,
      [beBytes 2 c.status, c.reason], beBytes 2 c.status ++ c.reason⟩
  | .close none => ⟨true, MsgType.close.toByte, (false, false, false), 0, [], []⟩

/-- src/ws/message.rs:206-216: the loop; `first` is `i == 0`. -/
def collectFrames : (first : Bool) → List Frameable → Res Bytes
  | _, [] => .ok []
  | first, f :: fs =>
    if first = false ∧ f.opcode ≠ Opcode.continuation.toByte then .err .wsProtocol
    else if f.reserved ≠ (false, false, false) then .err .wsProtocol
    else do
      let rest ← collectFrames false fs
      .ok (f.taken ++ rest)

/-- src/ws/message.rs:218-242: the message for an opcode and the collected data. -/
def messageOf (opcode : Option Opcode) (data : Bytes) : Res Message :=
  match opcode with
  | some .text => if utf8Valid data then .ok ⟨.text, none, data⟩ else .err .extension
  | some .binary => .ok ⟨.binary, none, data⟩
  | some .close =>
    if data ≠ [] then do
      let (status, _) ← tryGetBe 2 data
      if utf8Valid (data.drop 2) then .ok ⟨.close, some status, data.drop 2⟩ else .err .extension
    else .ok ⟨.close, none, []⟩
  | some .ping => .ok ⟨.ping, none, data⟩
  | some .pong => .ok ⟨.pong, none, data⟩
  | _ => .err .wsProtocol

/-- src/ws/message.rs:187-243 (`Message::from_dataframes`). -/
def Message.fromFrames (frames : List Frameable) : Res Message :=
  match frames with
  | [] => .err .wsProtocol
  | f :: fs => do
    let data ← collectFrames true (f :: fs)
    messageOf (Opcode.new f.opcode) data

/-- src/ws/message.rs:449-468 (`From<Message> for OwnedMessage`). -/
def OwnedMessage.ofMessage (m : Message) : OwnedMessage :=
  match m.opcode with
  | .text => .text (utf8Lossy m.payload)
  | .close =>
    match m.status with
    | some s => .close (some ⟨s, utf8Lossy m.payload⟩)
    | none => .close none
  | .binary => .binary m.payload
  | .ping => .ping m.payload
  | .pong => .pong m.payload

/-- src/ws/message.rs:470-483 (`From<OwnedMessage> for Message`). -/
def OwnedMessage.toMessage : OwnedMessage → Message
  | .text s => ⟨.text, none, s⟩
  | .binary b => ⟨.binary, none, b⟩
  | .close (some c) => ⟨.close, some c.status, c.reason⟩
  | .close none => ⟨.close, none, []⟩
  | .ping b => ⟨.ping, none, b⟩
  | .pong b => ⟨.pong, none, b⟩

/-- src/ws/message.rs:358-363 (`OwnedMessage::from_dataframes`). -/
def OwnedMessage.fromFrames (frames : List Frameable) : Res OwnedMessage := do
  let m ← Message.fromFrames frames
  .ok (OwnedMessage.ofMessage m)

/-! ## Close codes -/

/-- src/ws/message.rs:550-630 (`CloseCode`). -/
inductive CloseCode where
  | normal | away | protocol | unsupported | status | abnormal | invalid | policy | size | extension
  | error | restart | again | tls | empty
  | other (code : Nat)
  deriving DecidableEq, Repr

/-- src/ws/message.rs:632-653 (`Into<u16>`). -/
def CloseCode.toNat : CloseCode → Nat
  | .normal => 1000 | .away => 1001 | .protocol => 1002 | .unsupported => 1003 | .status => 1005
  | .abnormal => 1006 | .invalid => 1007 | .policy => 1008 | .size => 1009 | .extension => 1010
  | .error => 1011 | .restart => 1012 | .again => 1013 | .tls => 1015 | .empty => 0
  | .other code => code

/-- src/ws/message.rs:655-676 (`From<u16>`). -/
def CloseCode.ofNat (code : Nat) : CloseCode :=
  if code = 1000 then .normal
  else if code = 1001 then .away
  else if code = 1002 then .protocol
  else if code = 1003 then .unsupported
  else if code = 1005 then .status
  else if code = 1006 then .abnormal
  else if code = 1007 then .invalid
  else if code = 1008 then .policy
  else if code = 1009 then .size
  else if code = 1010 then .extension
  else if code = 1011 then .error
  else if code = 1012 then .restart
  else if code = 1013 then .again
  else if code = 1015 then .tls
  else if code = 0 then .empty
  else .other code

end Webparse
