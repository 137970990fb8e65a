import Verif.Model.Frame

/-!
# HEADERS, PUSH_PROMISE and the frame dispatcher

/repo/src/http/http2/frame/headers.rs, /repo/src/http/http2/frame/frame.rs
-/

namespace Webparse

/-- src/http/http2/frame/headers.rs:62-72 (`Parts`). -/
structure Parts where
  method : Option Method := none
  scheme : Option Scheme := none
  authority : Option Bytes := none
  path : Option Bytes := none
  status : Option Nat := none
  deriving DecidableEq, Repr

/-- src/http/http2/frame/headers.rs:31-43 (`Headers`), with `HeaderBlock` (74-84) inlined; `is_over_size` is never set
and is left out. -/
structure HeadersFrame where
  streamId : Nat
  streamDep : Option StreamDependency := none
  fields : HeaderMap := []
  parts : Parts := {}
  flags : UInt8
  deriving DecidableEq, Repr

/-- src/http/name.rs:112-117 (`is_spec`). -/
def isSpec (name : Bytes) : Bool := name.head? == some 58

/-- src/http/http2/frame/headers.rs:147-169: what is done with one decoded header after the size check. -/
def HeadersFrame.addField (f : HeadersFrame) (h : Header) : Res HeadersFrame :=
  if isSpec h.1 then
    let value := utf8Lossy h.2
    if h.1 = asciiBytes ":authority" then
      .ok { f with parts := { f.parts with authority := some value } }
    else if h.1 = asciiBytes ":method" then do
      let m ← Method.tryFrom value
      .ok { f with parts := { f.parts with method := some m } }
    else if h.1 = asciiBytes ":path" then
      .ok { f with parts := { f.parts with path := some value } }
    else if h.1 = asciiBytes ":scheme" then do
      let s ← Scheme.tryFrom value
      .ok { f with parts := { f.parts with scheme := some s } }
    else if h.1 = asciiBytes ":status" then do
      let s ← statusFromBytes value
      .ok { f with parts := { f.parts with status := some s } }
    else .ok { f with fields := f.fields.insert h.1 h.2 }
  else .ok { f with fields := f.fields.insert h.1 h.2 }

/-- src/http/http2/frame/headers.rs:141-172: the loop over the decoded headers. -/
def HeadersFrame.addFields (maxHeaderListSize : Nat) :
    (headerSize : Nat) → HeadersFrame → List Header → Res HeadersFrame
  | _, f, [] => .ok f
  | headerSize, f, h :: hs =>
    let headerSize := headerSize + (h.1.length + h.2.length + 32)
    if headerSize > maxHeaderListSize then .err .headerIndexOutOfBounds
    else do
      let f ← f.addField h
      HeadersFrame.addFields maxHeaderListSize headerSize f hs

/-- src/http/http2/frame/headers.rs:135-138: the priority fields, read only if the flag is set; the frame and the unread
bytes. -/
def HeadersFrame.loadDep (f : HeadersFrame) (buf : Bytes) : Res (HeadersFrame × Bytes) :=
  if flagIsPriority f.flags then do
    let (dep, rest) ← StreamDependency.load buf
    .ok ({ f with streamDep := some dep }, rest)
  else .ok (f, buf)

/-- src/http/http2/frame/headers.rs:129-175 (`Headers::parse`): the frame and the decoder's table; `none` if decoding
does not end.  On an error neither is returned here (`Frame::parse` drops the frame); for the table see `HeadersFrame.tableAfter`
(`Model/AfterError.lean`). -/
def HeadersFrame.parse (f : HeadersFrame) (buf : Bytes) (t : HeaderIndex)
    (maxHeaderListSize : Nat) : Option (Res (HeadersFrame × HeaderIndex)) :=
  match f.loadDep buf with
  | .err e => some (.err e)
  | .panic => some .panic
  | .ok (f, buf) =>
    match decode t buf with
    | none => none
    | some (.err e) => some (.err e)
    | some .panic => some .panic
    | some (.ok (hs, t)) => some do
      let f ← HeadersFrame.addFields maxHeaderListSize 0 f hs
      .ok (f, t)

/-- src/http/http2/frame/headers.rs:570-584: one `if let Some(x) = self.field.take() { header.insert(name, x) }`. -/
def insertOpt (m : HeaderMap) (name : Bytes) : Option Bytes → HeaderMap
  | some v => m.insert name v
  | none => m

/-- src/http/http2/frame/headers.rs:569-585 (`Parts::encode_header`): the header map afterwards (the parts are all
taken). -/
def Parts.encodeHeader (p : Parts) (m : HeaderMap) : Res HeaderMap :=
  let m := insertOpt m (asciiBytes ":method") (p.method.map Method.asStr)
  let m := insertOpt m (asciiBytes ":authority") p.authority
  let m := insertOpt m (asciiBytes ":scheme") (p.scheme.map Scheme.asStr)
  let m := insertOpt m (asciiBytes ":path") p.path
  match p.status with
  | some x => do
    let s ← statusAsStr x
    .ok (m.insert (asciiBytes ":status") s)
  | none => .ok m

/-- src/http/http2/frame/headers.rs:610-622: the loop that cuts the block into fragments; `cur` is `binary`. -/
def blockFragments (maxFrameSize : Nat) :
    HeaderIndex → (cur : Bytes) → List Header → Res (List Bytes × HeaderIndex)
  | t, cur, [] => .ok ([cur], t)
  | t, cur, h :: hs =>
    if h.1.length + h.2.length + cur.length > maxFrameSize then do
      let (b, t) ← encodeHeader t h
      let (rest, t) ← blockFragments maxFrameSize t b hs
      .ok (cur :: rest, t)
    else do
      let (b, t) ← encodeHeader t h
      blockFragments maxFrameSize t (cur ++ b) hs

/-- src/http/http2/frame/headers.rs:634-646: the CONTINUATION frames for fragments 1, 2, ... -/
def continuationFrames (flags : UInt8) (id : Nat) : List Bytes → Bytes
  | [] => []
  | [b] =>
    FrameHeader.encode { length := b.length, kind := .continuation, flag := flagSetEndHeaders flags, id } ++ b
  | b :: rest =>
    FrameHeader.encode { length := b.length, kind := .continuation, flag := 0, id } ++ b ++
      continuationFrames flags id rest

/-- src/http/http2/frame/headers.rs:624-648: the frames for the fragments. -/
def fragmentFrames (flags : UInt8) (id : Nat) : List Bytes → Bytes
  | [] => []
  | [b] =>
    FrameHeader.encode { length := b.length, kind := .headers, flag := flagSetEndHeaders flags, id } ++ b
  | b :: rest =>
    FrameHeader.encode { length := b.length, kind := .headers, flag := 0, id } ++ b ++
      continuationFrames flags id rest

/-- src/http/http2/frame/headers.rs:602-650 (`HeaderBlock::encode`): bytes appended, size returned, encoder's table. -/
def blockEncode (maxFrameSize : Nat) (t : HeaderIndex) (flags : UInt8) (id : Nat) (fields : HeaderMap) :
    Res (Bytes × Nat × HeaderIndex) := do
  let (frags, t) ← blockFragments maxFrameSize t [] fields
  .ok (fragmentFrames flags id frags, (frags.map fun b => 9 + b.length).sum, t)

/-- src/http/http2/frame/headers.rs:297-303 (`Headers::encode`): `parts` are not written. -/
def HeadersFrame.encode (f : HeadersFrame) (maxFrameSize : Nat) (t : HeaderIndex) :
    Res (Bytes × Nat × HeaderIndex) :=
  blockEncode maxFrameSize t f.flags f.streamId f.fields

/-- src/http/http2/frame/headers.rs:45-58 (`PushPromise`). -/
structure PushPromise where
  streamId : Nat
  promisedId : Nat
  fields : HeaderMap := []
  parts : Parts := {}
  flags : UInt8
  deriving DecidableEq, Repr

/-- src/http/http2/frame/headers.rs:444-455 (`PushPromise::parse`): the header block is ignored. -/
def PushPromise.parse (head : FrameHeader) (payload : Bytes) : PushPromise :=
  { streamId := head.id, promisedId := (readU31 payload).1, flags := head.flag }

/-- src/http/http2/frame/headers.rs:467-482: encode one pseudo-header, if present, and remove it from the fields. -/
def takeHeader (name : Bytes) (m : HeaderMap) (t : HeaderIndex) :
    Res (Bytes × HeaderMap × HeaderIndex) :=
  match m.remove name with
  | (some v, m) => do
    let (b, t) ← encodeHeader t (name, v)
    .ok (b, m, t)
  | (none, m) => .ok ([], m, t)

/-- src/http/http2/frame/headers.rs:461-497 (`PushPromise::encode`). -/
def PushPromise.encode (p : PushPromise) (maxFrameSize : Nat) (t : HeaderIndex) :
    Res (Bytes × Nat × HeaderIndex) := do
  let m ← p.parts.encodeHeader p.fields
  let (b1, m, t) ← takeHeader (asciiBytes ":method") m t
  let (b2, m, t) ← takeHeader (asciiBytes ":authority") m t
  let (b3, m, t) ← takeHeader (asciiBytes ":scheme") m t
  let (b4, m, t) ← takeHeader (asciiBytes ":path") m t
  let binary := b1 ++ b2 ++ b3 ++ b4
  let head : FrameHeader :=
    { length := binary.length + 4, kind := .pushPromise, flag := flagSetEndHeaders p.flags,
      id := p.streamId }
  let (out, size, t) ← blockEncode maxFrameSize t p.flags p.promisedId m
  .ok (head.encode ++ beBytes 4 p.promisedId ++ binary ++ out, 9 + 4 + binary.length + size, t)

/-! ## Dispatch -/

/-- src/http/http2/frame/frame.rs:37-48 (`Frame`). -/
inductive Frame where
  | data (d : DataFrame)
  | headers (h : HeadersFrame)
  | priority (p : Priority)
  | pushPromise (p : PushPromise)
  | settings (s : Settings)
  | ping (p : Ping)
  | goAway (g : GoAway)
  | windowUpdate (w : WindowUpdate)
  | reset (r : Reset)
  deriving DecidableEq, Repr

/-- src/http/http2/frame/frame.rs:51-62 (`trim_padding`): the buffer afterwards; only the pad-length byte is dropped. -/
def trimPadding (head : FrameHeader) (buf : Bytes) : Res Bytes :=
  if flagIsPadded head.flag then
    match buf with
    | [] => .ok []
    | padLength :: rest => if padLength.toNat > head.length then .err .tooMuchPadding else .ok rest
  else .ok buf

/-- src/http/http2/frame/frame.rs:155-187, the arms of the `match`: wrap the result of parsing one kind of frame that leaves the decoder alone. -/
def wrapFrame {α : Type} (t : HeaderIndex) (mk : α → Frame) : Res α → Option (Res (Frame × HeaderIndex))
  | .ok a => some (.ok (mk a, t))
  | .err e => some (.err e)
  | .panic => some .panic

/-- src/http/http2/frame/frame.rs:155-187 (`Frame::parse`): the frame and the decoder's table. -/
def Frame.parse (head : FrameHeader) (buf : Bytes) (t : HeaderIndex) (maxHeaderListSize : Nat) :
    Option (Res (Frame × HeaderIndex)) :=
  match trimPadding head buf with
  | .err e => some (.err e)
  | .panic => some .panic
  | .ok buf =>
    match head.kind with
    | .data => wrapFrame t .data (DataFrame.new head buf)
    | .headers =>
      match HeadersFrame.parse { streamId := head.id, flags := head.flag } buf t maxHeaderListSize with
      | none => none
      | some (.ok (f, t)) => some (.ok (.headers f, t))
      | some (.err e) => some (.err e)
      | some .panic => some .panic
    | .priority => wrapFrame t .priority (Priority.parse head buf)
    | .reset => wrapFrame t .reset (Reset.parse head buf)
    | .settings => wrapFrame t .settings (Settings.parse head buf)
    | .pushPromise => some (.ok (.pushPromise (PushPromise.parse head buf), t))
    | .ping => wrapFrame t .ping (Ping.parse head buf)
    | .goAway => wrapFrame t .goAway (GoAway.parse buf)
    | .windowUpdate => wrapFrame t .windowUpdate (WindowUpdate.parse head buf)
    | .continuation => some (.err .extension)
    | .unregistered => some (.err .extension)

/-- src/http/http2/frame/frame.rs:136-151 (`Frame::encode`): bytes appended, size returned and encoder's table; `none`
if the DATA loop does not end within `body length + 1` rounds (it never ends then, C19). -/
def Frame.encode (maxFrameSize : Nat) (t : HeaderIndex) : Frame → Option (Res (Bytes × Nat × HeaderIndex))
  | .data d =>
    match d.encodeRun (d.data.length + 1) maxFrameSize with
    | some (out, size) => some (.ok (out, size, t))
    | none => none
  | .headers h => some (h.encode maxFrameSize t)
  | .priority p => some (.ok (p.encode.1, p.encode.2, t))
  | .pushPromise p => some (p.encode maxFrameSize t)
  | .settings s => some (.ok (s.encode.1, s.encode.2, t))
  | .ping p => some (.ok (p.encode.1, p.encode.2, t))
  | .goAway g => some (.ok (g.encode.1, g.encode.2, t))
  | .windowUpdate w => some (.ok (w.encode.1, w.encode.2, t))
  | .reset r => some (.ok (r.encode.1, r.encode.2, t))

end Webparse
