import Verif.Model.Url
import Verif.Model.HeaderMap
import Verif.Model.Status

/-!
# HTTP/1 messages

/repo/src/helper.rs (headers and chunks), /repo/src/http/request.rs, /repo/src/http/response.rs,
/repo/src/http/value.rs (numbers), /repo/src/serialize.rs.
-/

namespace Webparse

/-! ## Header lines -/

/-- src/helper.rs:295-301 (`parse_header_name`).  `HeaderName::from_bytes` never fails; the token is ASCII. -/
def parseHeaderName (buf : Bytes) : Res Bytes × Bytes :=
  thenRead (parseTokenBy isHeaderNameToken .headerName buf) fun token buf => (.ok (headerNameFromBytes token), buf)

/-- src/helper.rs:304-307 (`parse_header_value`). -/
def parseHeaderValue (buf : Bytes) : Res Bytes × Bytes :=
  parseTokenEmpty isHeaderValueToken .headerValue true buf

/-- src/helper.rs:370-389, one round of the loop of `parse_header`: `none` at the end of the headers. -/
def parseHeaderLine (buf : Bytes) : Res (Option Header) × Bytes :=
  thenRead (peekByte buf) fun b buf =>
    if b = 13 then thenRead (nextByte buf) fun _ buf => thenRead (expectByte 10 .newLine buf) fun _ buf => (.ok none, buf)
    else if b = 10 then thenRead (nextByte buf) fun _ buf => (.ok none, buf)
    else
      thenRead (parseHeaderName buf) fun name buf =>
        thenRead (skipSpaces buf) fun _ buf =>
          thenRead (expectByte 58 .headerName buf) fun _ buf =>
            thenRead (skipSpaces buf) fun _ buf =>
              thenRead (parseHeaderValue buf) fun value buf =>
                thenRead (skipNewLine buf) fun _ buf => (.ok (some (name, value)), buf)

/-- The `?` operator (src/http/request.rs:552-598, src/http/response.rs:706-725) where other state than the buffer is at hand: `s` is what it is if `x` failed. -/
def thenDo {α β σ : Type} (x : Res α × Bytes) (s : σ) (f : α → Bytes → Res β × σ × Bytes) : Res β × σ × Bytes :=
  match x with
  | (.ok a, buf) => f a buf
  | (.err e, buf) => (.err e, s, buf)
  | (.panic, buf) => (.panic, s, buf)

/-- src/helper.rs:367-390, what a round of the loop does with its line. -/
def onLine (m : HeaderMap) (next : HeaderMap → Bytes → Res Unit × HeaderMap × Bytes) :
    Option Header → Bytes → Res Unit × HeaderMap × Bytes
  | none, buf => (.ok (), m, buf)
  | some h, buf => next (m.insert h.1 h.2) buf

/-- src/helper.rs:367-390 (`parse_header`), the loop.  Every round that goes on consumes a byte, so the
fuel of `parseHeader` is never used up (`parseHeader_no_panic`). -/
def parseHeaderLoop : (fuel : Nat) → HeaderMap → Bytes → Res Unit × HeaderMap × Bytes
  | 0, m, buf => (.panic, m, buf)
  | fuel + 1, m, buf => thenDo (parseHeaderLine buf) m (onLine m (parseHeaderLoop fuel))

/-- src/helper.rs:367-390 (`parse_header`): the map is cleared first. -/
def parseHeader (_ : HeaderMap) (buf : Bytes) : Res Unit × HeaderMap × Bytes :=
  parseHeaderLoop (buf.length + 1) [] buf

/-! ## Start lines -/

/-- src/helper.rs:218-236, a conversion of the token just read. -/
def onToken {α : Type} (x : Res Bytes × Bytes) (f : Bytes → Res α) : Res α × Bytes :=
  thenRead x fun token buf => (f token, buf)

/-- src/helper.rs:218-221 (`parse_method`). -/
def parseMethod (buf : Bytes) : Res Method × Bytes := onToken (parseToken buf) Method.tryFrom

/-- src/helper.rs:223-229 (`parse_status`). -/
def parseStatus (buf : Bytes) : Res Nat × Bytes := onToken (parseToken buf) statusFromBytes

/-- src/helper.rs:233-241, the match of `parse_version`. -/
def versionOfToken (s : Bytes) : Res Version :=
  if s = asciiBytes "HTTP/1.0" then .ok .http10
  else if s = asciiBytes "HTTP/1.1" then .ok .http11
  else if s = asciiBytes "HTTP/2" then .ok .http2
  else if s = asciiBytes "HTTP/3" then .ok .http3
  else .err .httpVersion

/-- src/helper.rs:231-243 (`parse_version`). -/
def parseVersion (buf : Bytes) : Res Version × Bytes := onToken (parseToken buf) versionOfToken

/-! ## Responses -/

/-- src/http/response.rs:27-34 (`Response`, `Parts`): status, version, headers and the flag `partial`.  Simplified:
body and extensions are left out; the body is an argument where it matters. -/
structure Response where
  status : Nat := 200
  version : Version := .http11
  header : HeaderMap := []
  isPartial : Bool := false
  deriving DecidableEq, Repr

/-- src/http/response.rs:706-722 (`parse_buffer`) without the count. -/
def Response.parseHead (r : Response) (buf : Bytes) : Res Unit × Response × Bytes :=
  let r := { r with isPartial := true }
  thenDo (skipEmptyLines buf) r fun _ buf =>
  thenDo (parseVersion buf) r fun version buf =>
  let r := { r with version := version }
  thenDo (skipSpaces buf) r fun _ buf =>
  thenDo (parseStatus buf) r fun status buf =>
  let r := { r with status := status }
  thenDo (skipSpaces buf) r fun _ buf =>
  thenDo (parseStatusToken buf) r fun _ buf =>
  thenDo (skipNewLine buf) r fun _ buf =>
  let x := parseHeader r.header buf
  let r := { r with header := x.2.1 }
  thenDo (x.1, x.2.2) r fun _ buf =>
  (.ok (), { r with isPartial := false }, buf)

/-- src/http/request.rs:597, src/http/response.rs:706-725: `Ok(len - buffer.remaining())`. -/
def countRead {σ : Type} (buf : Bytes) (x : Res Unit × σ × Bytes) : Res Nat × σ × Bytes :=
  match x with
  | (.ok _, s, rest) => (.ok (buf.length - rest.length), s, rest)
  | (.err e, s, rest) => (.err e, s, rest)
  | (.panic, s, rest) => (.panic, s, rest)

/-- src/http/response.rs:706-722 (`parse_buffer`). -/
def Response.parseBuffer (r : Response) (buf : Bytes) : Res Nat × Response × Bytes :=
  countRead buf (r.parseHead buf)

/-- src/http/response.rs:691-698 (`encode_header`): the bytes appended and the size returned. -/
def Response.encodeHeader (r : Response) : Res (Bytes × Nat) := do
  let v ← r.version.encode
  let s ← statusEncode r.status
  let h := r.header.encode
  .ok (v ++ [32] ++ s ++ h, v.length + 1 + s.length + h.length)

/-- src/http/response.rs:778-791 (`Serialize for Response`) with the bytes of the body. -/
def Response.serialize (r : Response) (body : Bytes) : Res (Bytes × Nat) := do
  let v ← r.version.encode
  let s ← statusEncode r.status
  let h := r.header.encode
  .ok (v ++ [32] ++ s ++ h ++ body, v.length + 1 + s.length + h.length + body.length)

/-! ## Requests -/

/-- src/http/request.rs:25-42 (`Request`, `Parts`).  Simplified: as for `Response`. -/
structure Request where
  method : Method := .none
  header : HeaderMap := []
  version : Version := .http11
  url : Url := Url.new
  isPartial : Bool := false
  deriving DecidableEq, Repr

/-- src/http/request.rs:538: `str::split(":")`. -/
def splitColon : Bytes → List Bytes
  | [] => [[]]
  | b :: r =>
    match splitColon r with
    | [] => [[]]
    | p :: ps => if b = 58 then [] :: p :: ps else (b :: p) :: ps

/-- src/http/request.rs:536-550 (`parse_connect_by_host`): the domain is set even if the port is bad, but the
URL is dropped then. -/
def connectByHost (url : Url) (h : Bytes) : Res Url :=
  match splitColon h with
  | [d] => .ok { url with domain := some d, port := some 80 }
  | [d, p] =>
    match parseUnsigned (2 ^ 16) p with
    | some n => .ok { url with domain := some d, port := some n }
    | none => .err .extension
  | _ => .err .intoError

/-- src/http/request.rs:574-581, the domain from `Host`. -/
def fillHost (header : HeaderMap) (url : Url) : Res Url :=
  if url.domain.isNone then
    match header.host with
    | some h => connectByHost url h
    | none => .ok url
  else .ok url

/-- src/http/request.rs:583-594, the scheme. -/
def fillScheme (header : HeaderMap) (url : Url) : Url :=
  if url.scheme = .none then
    match header.get? (asciiBytes ":scheme") with
    | some v =>
      match Scheme.tryFrom (utf8Lossy v) with
      | .ok s => { url with scheme := s }
      | _ => { url with scheme := .http }
    | none => { url with scheme := .http }
  else url

/-- src/http/request.rs:563-596, the URL. -/
def requestUrl (method : Method) (header : HeaderMap) (path : Bytes) : Res Url :=
  if method = .connect then connectByHost Url.new path
  else do
    let url ← Url.parse path
    let url ← fillHost header url
    .ok (fillScheme header url)

/-- The head parsed, the URL is worked out from it (src/http/request.rs:562-597): the message counts as complete
before. -/
def Request.finishUrl (r : Request) (path buf : Bytes) : Res Unit × Request × Bytes :=
  thenDo (requestUrl r.method r.header path, buf) r fun url buf => (.ok (), { r with url := url }, buf)

/-- src/http/request.rs:552-598 (`parse_buffer`) without the count. -/
def Request.parseHead (r : Request) (buf : Bytes) : Res Unit × Request × Bytes :=
  let r := { r with isPartial := true }
  thenDo (skipEmptyLines buf) r fun _ buf =>
  thenDo (parseMethod buf) r fun method buf =>
  let r := { r with method := method }
  thenDo (skipSpaces buf) r fun _ buf =>
  thenDo (parseToken buf) r fun path buf =>
  thenDo (skipSpaces buf) r fun _ buf =>
  thenDo (parseVersion buf) r fun version buf =>
  let r := { r with version := version }
  thenDo (skipNewLine buf) r fun _ buf =>
  let x := parseHeader r.header buf
  let r := { r with header := x.2.1 }
  thenDo (x.1, x.2.2) r fun _ buf =>
  Request.finishUrl { r with isPartial := false } path buf

/-- src/http/request.rs:552-598 (`parse_buffer`). -/
def Request.parseBuffer (r : Request) (buf : Bytes) : Res Nat × Request × Bytes :=
  countRead buf (r.parseHead buf)

/-- src/http/request.rs:640-650 (`encode_header`): the bytes appended and the size returned. -/
def Request.encodeHeader (r : Request) : Res (Bytes × Nat) := do
  let m ← r.method.encode
  let v ← r.version.encode
  let h := r.header.encode
  .ok (m ++ [32] ++ r.url.path ++ [32] ++ v ++ [13, 10] ++ h,
    m.length + 1 + r.url.path.length + 1 + v.length + 2 + h.length)

/-- src/http/request.rs:625-630 (`http1_data`) with the bytes of the body. -/
def Request.http1Data (r : Request) (body : Bytes) : Res Bytes := do
  let x ← r.encodeHeader
  .ok (x.1 ++ body)

/-! ## Chunks -/

/-- src/helper.rs:392-407 (`parse_chunk_data`): the length of the chunk header and of the data.  The
buffer is not advanced.  `from_str_radix(..).unwrap()` panics if the number does not fit, `num + 2`
on overflow (with overflow checks, as in debug builds). -/
def parseChunkData (buf : Bytes) : Res (Nat × Nat) :=
  (thenRead (parseHex buf) fun num val =>
    if digitsVal 16 num ≥ 2 ^ 64 then (.panic, val)
    else thenRead (skipNewLine val) fun _ val =>
      if digitsVal 16 num + 2 ≥ 2 ^ 64 then (.panic, val)
      else if digitsVal 16 num + 2 > val.length then (.err .partialData, val)
      else (.ok (buf.length - val.length, digitsVal 16 num), val)).1

/-- src/helper.rs:409-416 (`encode_chunk_data`): the bytes appended and the size returned. -/
def encodeChunkData (data : Bytes) : Bytes × Nat :=
  (hexLower data.length ++ [13, 10] ++ data ++ [13, 10], (hexLower data.length).length + 2 + data.length + 2)

/-! ## Numbers in header values -/

/-- src/http/value.rs:113-126, the loop of `TryInto<usize>`: a product that does not fit is an error, a sum
that does not fit a panic (with overflow checks). -/
def usizeLoop : (result : Nat) → Bytes → Res Nat
  | result, [] => .ok result
  | result, b :: r =>
    if !isDigit b then .err .intoError
    else if result * 10 ≥ 2 ^ 64 then .err .intoError
    else if result * 10 + (b - 48).toNat ≥ 2 ^ 64 then .panic
    else usizeLoop (result * 10 + (b - 48).toNat) r

/-- src/http/value.rs:107-130 (`TryInto<usize>`). -/
def HeaderValue.toUsize : HeaderValue → Res Nat
  | .stand s => Res.ofOption (parseUnsigned (2 ^ 64) s) .extension
  | .value v => usizeLoop 0 v

/-- src/http/value.rs:138-157, the loop of `TryInto<isize>`; `result` is never negative. -/
def isizeLoop : (result : Nat) → (isNeg : Bool) → Bytes → Res (Nat × Bool)
  | result, isNeg, [] => .ok (result, isNeg)
  | result, isNeg, b :: r =>
    if !isDigit b then
      if b = 45 ∧ result = 0 then isizeLoop result true r else .err .intoError
    else if result * 10 ≥ 2 ^ 63 then .err .intoError
    else if result * 10 + (b - 48).toNat ≥ 2 ^ 63 then .panic
    else isizeLoop (result * 10 + (b - 48).toNat) isNeg r

/-- src/http/value.rs:132-164 (`TryInto<isize>`). -/
def HeaderValue.toIsize : HeaderValue → Res Int
  | .stand s => Res.ofOption (parseSigned s) .extension
  | .value v => do
    let r ← isizeLoop 0 false v
    .ok (if r.2 then -(r.1 : Int) else r.1)

/-- src/http/value.rs:192-197 (`TryFrom<usize>`). -/
def HeaderValue.ofUsize (n : Nat) : HeaderValue := .value (decimal n)

/-- src/http/value.rs:199-204 (`TryFrom<isize>`). -/
def HeaderValue.ofIsize (n : Int) : HeaderValue :=
  .value (if n < 0 then [45] ++ decimal n.natAbs else decimal n.natAbs)

/-- src/http/header.rs:222-233 (`get_body_len`) where the header is held as bytes (`HeaderValue::Value`, as
all parsed headers are): 0 if the header is missing or not a number. -/
def HeaderMap.bodyLen (m : HeaderMap) : Res Int :=
  match m.get? (asciiBytes "content-length") with
  | none => .ok 0
  | some v =>
    match (HeaderValue.value v).toIsize with
    | .ok n => .ok n
    | .err _ => .ok 0
    | .panic => .panic

end Webparse
