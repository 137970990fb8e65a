import Verif.Model.FrameHeaders

/-! RFC 9113 framing, written without the model's encoders, and reading frames off a byte stream. -/

namespace Webparse.Spec

/-- Byte `i` (0 = least significant) of a number. -/
def byteAt (n i : Nat) : UInt8 := UInt8.ofNat (n / 256 ^ i % 256)

/-- RFC 9113 4.1: 24-bit length, type, flags, reserved bit 0 and 31-bit stream id, payload. -/
def wireFrame (kind flags : UInt8) (id : Nat) (payload : Bytes) : Bytes :=
  [byteAt payload.length 2, byteAt payload.length 1, byteAt payload.length 0, kind, flags,
    byteAt id 3, byteAt id 2, byteAt id 1, byteAt id 0] ++ payload

/-- A number as four bytes, most significant first. -/
def u32Bytes (n : Nat) : Bytes := [byteAt n 3, byteAt n 2, byteAt n 1, byteAt n 0]

/-- Read one frame off a byte stream the way a connection does: the header, then as many bytes as
it announces.  A missing byte is an error. -/
def readFrame (t : HeaderIndex) (maxHeaderListSize : Nat) (stream : Bytes) :
    Option (Res (Frame × HeaderIndex × Bytes)) :=
  match FrameHeader.parse stream with
  | .err e => some (.err e)
  | .panic => some .panic
  | .ok (head, rest) =>
    if rest.length < head.length then some (.err .short)
    else
      match Frame.parse head (rest.take head.length) t maxHeaderListSize with
      | none => none
      | some (.err e) => some (.err e)
      | some .panic => some .panic
      | some (.ok (f, t)) => some (.ok (f, t, rest.drop head.length))

/-- Read frames until the stream is used up; `fuel` bounds the number of frames. -/
def readFrames (maxHeaderListSize : Nat) : (fuel : Nat) → HeaderIndex → Bytes → Option (Res (List Frame))
  | _, _, [] => some (.ok [])
  | 0, _, _ :: _ => none
  | fuel + 1, t, stream =>
    match readFrame t maxHeaderListSize stream with
    | none => none
    | some (.err e) => some (.err e)
    | some .panic => some .panic
    | some (.ok (f, t, rest)) =>
      match readFrames maxHeaderListSize fuel t rest with
      | some (.ok fs) => some (.ok (f :: fs))
      | r => r

/-- A raw frame: kind, flags, stream id, payload. -/
abbrev RawFrame := UInt8 × UInt8 × Nat × Bytes

/-- The bytes of a sequence of raw frames. -/
def wireFrames (fs : List RawFrame) : Bytes :=
  fs.flatMap fun f => wireFrame f.1 f.2.1 f.2.2.1 f.2.2.2

/-- Setting parameters (identifier, value) of a SETTINGS payload, six bytes each. -/
def settingEntries : Bytes → List (Nat × Nat)
  | a :: b :: c :: d :: e :: f :: rest =>
    (a.toNat * 256 + b.toNat,
      ((c.toNat * 256 + d.toNat) * 256 + e.toNat) * 256 + f.toNat) :: settingEntries rest
  | _ => []

/-- RFC 9113 6.5.2 and RFC 8441: values that are not allowed for a known parameter. -/
def LegalSetting (e : Nat × Nat) : Prop :=
  (e.1 = 2 → e.2 ≤ 1) ∧ (e.1 = 4 → e.2 ≤ 2 ^ 31 - 1) ∧
  (e.1 = 5 → 2 ^ 14 ≤ e.2 ∧ e.2 ≤ 2 ^ 24 - 1) ∧ (e.1 = 8 → e.2 ≤ 1)

/-- The last value given for a parameter. -/
def lastValue (id : Nat) (es : List (Nat × Nat)) : Option Nat :=
  ((es.filter fun e => e.1 == id).getLast?).map (·.2)

/-- Take `n` identifiers one after the other; the identifiers and the state left. -/
def takeIds : Nat → Nat → Res (List Nat × Nat)
  | 0, id => .ok ([], id)
  | n + 1, id => do
    let (x, id) ← nextId id
    let (xs, id) ← takeIds n id
    .ok (x :: xs, id)

/-- RFC 9113 6.5.2: the size of a header list. -/
def headerListSize (hs : List Header) : Nat := (hs.map fun h => h.1.length + h.2.length + 32).sum

end Webparse.Spec

namespace Webparse.Spec

/-- An optional parameter is absent or satisfies `P`. -/
def OptAll (o : Option Nat) (P : Nat → Prop) : Prop := ∀ v, o = some v → P v

/-- Settings that RFC 9113 lets an endpoint send: an empty ACK, or parameters in their ranges. -/
def LegalSettings (s : Settings) : Prop :=
  s = { flags := 1 } ∨
  (s.flags = 0 ∧ OptAll s.headerTableSize (· < 2 ^ 32) ∧ OptAll s.enablePush (· ≤ 1) ∧
    OptAll s.maxConcurrentStreams (· < 2 ^ 32) ∧ OptAll s.initialWindowSize (· ≤ 2 ^ 31 - 1) ∧
    OptAll s.maxFrameSize (fun v => 2 ^ 14 ≤ v ∧ v ≤ 2 ^ 24 - 1) ∧
    OptAll s.maxHeaderListSize (· < 2 ^ 32) ∧ OptAll s.enableConnectProtocol (· ≤ 1))

/-- A control frame whose fields fit their wire widths and are allowed by RFC 9113. -/
def ControlFrameOk : Frame → Prop
  | .ping p => p.payload.length = 8
  | .goAway g => g.lastStreamId < 2 ^ 31 ∧ g.errorCode < 2 ^ 32 ∧ 8 + g.debugData.length < 2 ^ 24
  | .windowUpdate w => w.streamId < 2 ^ 31 ∧ 1 ≤ w.sizeIncrement ∧ w.sizeIncrement < 2 ^ 31
  | .reset r => r.streamId < 2 ^ 31 ∧ r.errorCode < 2 ^ 32
  | .settings s => LegalSettings s
  | _ => False

/-- Write frames one after the other with one encoder. -/
def writeFrames (maxFrameSize : Nat) (t : HeaderIndex) : List Frame → Option (Res (Bytes × HeaderIndex))
  | [] => some (.ok ([], t))
  | f :: fs =>
    match Frame.encode maxFrameSize t f with
    | some (.ok (b, _, t)) =>
      match writeFrames maxFrameSize t fs with
      | some (.ok (bs, t)) => some (.ok (b ++ bs, t))
      | r => r
    | some (.err e) => some (.err e)
    | some .panic => some .panic
    | none => none

/-- Frames that carry a body of `parts`: DATA frames on one stream, `last` flags on the last. -/
def dataFrames (id : Nat) (more last : UInt8) : List Bytes → List RawFrame
  | [] => []
  | [b] => [(0, last, id, b)]
  | b :: bs => (0, more, id, b) :: dataFrames id more last bs

end Webparse.Spec
