import Verif.Model.Http1
import Verif.Model.FrameHeaders
import Verif.Model.HttpSettings

/-!
# Builders

/repo/src/http/request.rs:44-352, /repo/src/http/response.rs:44-345, and the conversion of a received HEADERS frame,
/repo/src/http/http2/frame/headers.rs:274-295.
-/

namespace Webparse

/-- src/http/request.rs:44-47 (`request::Builder`): `WebResult<Parts>`.  Simplified: the parts are held in a
`Request` (whose `isPartial` is not used before `body`). -/
abbrev RequestBuilder := Res Request

/-- src/http/request.rs:345-352 (`Default for Builder`). -/
def RequestBuilder.new : RequestBuilder := .ok { method := .get }

/-- src/http/request.rs:335-342 (`and_then`). -/
def RequestBuilder.andThen (b : RequestBuilder) (f : Request → Res Request) : RequestBuilder := b.bind f

/-- src/http/request.rs:104-114 (`method`) with a string. -/
def RequestBuilder.method (b : RequestBuilder) (t : Bytes) : RequestBuilder :=
  b.andThen fun r => do
    let m ← Method.tryFrom t
    .ok { r with method := m }

/-- src/http/request.rs:104-114 (`method`) with a `Method`. -/
def RequestBuilder.methodIs (b : RequestBuilder) (m : Method) : RequestBuilder :=
  b.andThen fun r => .ok { r with method := m }

/-- src/http/request.rs:153-156: the URL and the `Host` header. -/
def Request.putUrl (r : Request) (u : Url) : Request :=
  { r with
    url := u
    header := match u.connectUrl with
      | some c => r.header.insert (asciiBytes "Host") c
      | none => r.header }

/-- src/http/request.rs:147-160 (`url`) with a string. -/
def RequestBuilder.url (b : RequestBuilder) (t : Bytes) : RequestBuilder :=
  b.andThen fun r => do
    let u ← Url.parse t
    .ok (r.putUrl u)

/-- src/http/request.rs:147-160 (`url`) with a `Url`. -/
def RequestBuilder.urlIs (b : RequestBuilder) (u : Url) : RequestBuilder := b.andThen fun r => .ok (r.putUrl u)

/-- src/http/request.rs:190-195 (`version`). -/
def RequestBuilder.version (b : RequestBuilder) (v : Version) : RequestBuilder :=
  b.andThen fun r => .ok { r with version := v }

/-- src/http/request.rs:227-238 (`header`).  The conversions of strings to names and values never fail. -/
def RequestBuilder.header (b : RequestBuilder) (n v : Bytes) : RequestBuilder :=
  b.andThen fun r => .ok { r with header := r.header.insert n v }

/-- src/http/request.rs:243-245, src/http/response.rs:154-156: the loop of `headers`. -/
def HeaderMap.insertAll (m : HeaderMap) (hs : HeaderMap) : HeaderMap := hs.foldl (fun m e => m.insert e.1 e.2) m

/-- src/http/request.rs:241-248 (`headers`). -/
def RequestBuilder.headers (b : RequestBuilder) (hs : HeaderMap) : RequestBuilder :=
  b.andThen fun r => .ok { r with header := r.header.insertAll hs }

/-- src/http/request.rs:325-333 (`upgrade_http2`). -/
def RequestBuilder.upgradeHttp2 (b : RequestBuilder) (s : Settings) : RequestBuilder :=
  b.andThen fun r => .ok { r with header := r.header.upgradeHttp2 s }

/-- src/http/request.rs:303-306, src/http/response.rs:284-287: a header set only if it is missing. -/
def HeaderMap.insertMissing (m : HeaderMap) (n v : Bytes) : HeaderMap := if m.contains n then m else m.insert n v

/-- src/http/request.rs:298-313 (`body`).  Simplified: the body itself is left out. -/
def RequestBuilder.body (b : RequestBuilder) : Res Request :=
  b.bind fun r => .ok { r with
    header := r.header.insertMissing (asciiBytes "User-Agent") (asciiBytes "wenmeng"), isPartial := true }

/-- src/http/request.rs:67-90 (`from_req`): the path copied first is overwritten with the whole URL. -/
def RequestBuilder.fromReq (q : Request) : RequestBuilder :=
  .ok
    { method := if q.method ≠ .none then q.method else .get
      version := if q.version ≠ .none then q.version else .http11
      url := q.url }

/-- src/http/request.rs:385-393 (`set_url`). -/
def Request.setUrl (r : Request) (u : Url) : Request :=
  { r with
    header := match u.connectUrl with
      | some c => r.header.insertMissing (asciiBytes "Host") c
      | none => r.header
    url := u }

/-- src/http/request.rs:669-674 (`Parts::get_host`), and 467-469. -/
def Request.getHost (r : Request) : Option Bytes :=
  if r.url.domain.isSome then r.url.domain else r.header.host

/-! ## Responses -/

/-- src/http/response.rs:44-47 (`response::Builder`).  Simplified: as for requests; extensions are left out (see
`Model/Extensions.lean`). -/
abbrev ResponseBuilder := Res Response

/-- src/http/response.rs:317-324 (`Default for Builder`). -/
def ResponseBuilder.new : ResponseBuilder := .ok {}

/-- src/http/response.rs:307-314 (`and_then`). -/
def ResponseBuilder.andThen (b : ResponseBuilder) (f : Response → Res Response) : ResponseBuilder := b.bind f

/-- src/http/response.rs:82-91 (`status`) with a number. -/
def ResponseBuilder.status (b : ResponseBuilder) (n : Nat) : ResponseBuilder :=
  b.andThen fun r => do
    let s ← statusFromU16 n
    .ok { r with status := s }

/-- src/http/response.rs:82-91 (`status`) with a `StatusCode`. -/
def ResponseBuilder.statusIs (b : ResponseBuilder) (s : Nat) : ResponseBuilder :=
  b.andThen fun r => .ok { r with status := s }

/-- src/http/response.rs:93-98 (`method`). -/
def ResponseBuilder.method (b : ResponseBuilder) (m : Bytes) : ResponseBuilder :=
  b.andThen fun r => .ok { r with header := r.header.insert (asciiBytes ":method") m }

/-- src/http/response.rs:114-119 (`version`). -/
def ResponseBuilder.version (b : ResponseBuilder) (v : Version) : ResponseBuilder :=
  b.andThen fun r => .ok { r with version := v }

/-- src/http/response.rs:138-149 (`header`). -/
def ResponseBuilder.header (b : ResponseBuilder) (n v : Bytes) : ResponseBuilder :=
  b.andThen fun r => .ok { r with header := r.header.insert n v }

/-- src/http/response.rs:152-159 (`headers`). -/
def ResponseBuilder.headers (b : ResponseBuilder) (hs : HeaderMap) : ResponseBuilder :=
  b.andThen fun r => .ok { r with header := r.header.insertAll hs }

/-- src/http/response.rs:282-294 (`body`). -/
def ResponseBuilder.body (b : ResponseBuilder) : Res Response :=
  b.bind fun r => .ok { r with
    header := r.header.insertMissing (asciiBytes "Server") (asciiBytes "wenmeng"), isPartial := false }

/-! ## From HTTP/2 -/

/-- src/http/http2/frame/headers.rs:587-599 (`Parts::build_url`). -/
def Parts.buildUrl (p : Parts) : Res Url :=
  match p.authority with
  | none => .err .invalidRequestUrl
  | some a => Url.parse ((p.scheme.getD .http).asStr ++ [58, 47, 47] ++ a ++ p.path.getD [47])

/-- src/http/http2/frame/headers.rs:278-280: the method, if there is one. -/
def RequestBuilder.methodOpt (b : RequestBuilder) : Option Method → RequestBuilder
  | some m => b.methodIs m
  | none => b

/-- src/http/http2/frame/headers.rs:274-283 (`Headers::into_request`). -/
def HeadersFrame.intoRequest (f : HeadersFrame) (b : RequestBuilder) : Res RequestBuilder := do
  let url ← f.parts.buildUrl
  .ok (((b.urlIs url).methodOpt f.parts.method).headers f.fields)

/-- src/http/http2/frame/headers.rs:287-289: the method, if there is one. -/
def ResponseBuilder.methodOpt (b : ResponseBuilder) : Option Method → ResponseBuilder
  | some m => b.method m.asStr
  | none => b

/-- src/http/http2/frame/headers.rs:290-292: the status, if there is one. -/
def ResponseBuilder.statusOpt (b : ResponseBuilder) : Option Nat → ResponseBuilder
  | some s => b.statusIs s
  | none => b

/-- src/http/http2/frame/headers.rs:285-295 (`Headers::into_response`). -/
def HeadersFrame.intoResponse (f : HeadersFrame) (b : ResponseBuilder) : Res ResponseBuilder :=
  .ok (((b.methodOpt f.parts.method).statusOpt f.parts.status).headers f.fields)

end Webparse
