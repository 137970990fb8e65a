import Verif.Spec.Http1
import Verif.Spec.Url
import Verif.Spec.FrameHeaders

/-! # Several messages on one connection -/

namespace Webparse.Spec

/-- A caller that reads one message with its body: parse the head, then take the body as `is_chunked` and
`get_body_len` say.  `parse` is `parse_buffer` of the message, `header` gives its headers. -/
def receive {σ : Type} (parse : σ → Bytes → Res Nat × σ × Bytes) (header : σ → HeaderMap) (object : σ) (buf : Bytes) :
    Res (σ × Bytes × Bytes) :=
  match parse object buf with
  | (.ok _, m, rest) =>
    if (header m).isChunked then do
      let (pieces, rest) ← readChunks (rest.length + 1) rest
      .ok (m, pieces.flatten, rest)
    else do
      let len ← (header m).bodyLen
      if len < 0 then .err .intoError
      else if rest.length < len.toNat then .err .partialData
      else .ok (m, rest.take len.toNat, rest.drop len.toNat)
  | (.err e, _, _) => .err e
  | (.panic, _, _) => .panic

/-- A caller that reads messages until it gets no more, reusing the message object: the messages with their
bodies, and what it got instead of another one.  `fuel` bounds the number of messages. -/
def converse {σ : Type} (parse : σ → Bytes → Res Nat × σ × Bytes) (header : σ → HeaderMap) :
    (fuel : Nat) → (object : σ) → Bytes → List (σ × Bytes) × Res Unit
  | 0, _, _ => ([], .ok ())
  | fuel + 1, object, buf =>
    match receive parse header object buf with
    | .ok (m, body, rest) =>
      ((m, body) :: (converse parse header fuel m rest).1, (converse parse header fuel m rest).2)
    | .err e => ([], .err e)
    | .panic => ([], .panic)

/-- How a body follows a head: nothing or as many bytes as `Content-Length` says, or chunks without a last
empty piece if `Transfer-Encoding` is `chunked`. -/
inductive Framed (header : HeaderMap) : (body wire : Bytes) → Prop
  | none : header.get? (asciiBytes "transfer-encoding") = none → header.get? (asciiBytes "content-length") = none →
      Framed header [] []
  | length {s body} : header.get? (asciiBytes "transfer-encoding") = none → header.get? (asciiBytes "content-length") = some s →
      IsNumeral s body.length → body.length < 2 ^ 63 → Framed header body body
  | chunks {pieces : List Bytes} : header.get? (asciiBytes "transfer-encoding") = some (asciiBytes "chunked") →
      (∀ d ∈ pieces, d ≠ [] ∧ d.length < 2 ^ 63) →
      Framed header pieces.flatten (pieces.flatMap (fun d => (encodeChunkData d).1) ++ (encodeChunkData []).1)

/-- A response to send, with its body as sent. -/
structure SentResponse where
  status : Nat
  version : Version
  ops : List HeaderOp
  body : Bytes
  wireBody : Bytes

/-- The response as a receiver should hold it. -/
def SentResponse.message (s : SentResponse) : Response :=
  { status := s.status, version := s.version, header := runOps s.ops, isPartial := false }

/-- It goes over the wire as these bytes. -/
structure SentResponse.Wire (s : SentResponse) (wire : Bytes) : Prop where
  clean : ∀ e ∈ runOps s.ops, CleanHeader e
  framed : Framed (runOps s.ops) s.body s.wireBody
  bytes : ∃ n, s.message.serialize s.wireBody = .ok (wire, n)

/-- A request to send, with its body, and its body as sent. -/
structure SentRequest where
  request : Request
  ops : List HeaderOp
  body : Bytes
  wireBody : Bytes

/-- It goes over the wire as these bytes: clean headers, a readable `Host`, a registered method other than
CONNECT, a path of printable characters other than `%`, `?` and `@`, no query. -/
structure SentRequest.Wire (s : SentRequest) (wire : Bytes) : Prop where
  header : s.request.header = runOps s.ops
  clean : ∀ e ∈ s.request.header, CleanHeader e
  host : ∀ x, s.request.header.host = some x → HostValue x
  method : s.request.method ≠ .connect ∧ ∃ e ∈ methodNames, e.1 = s.request.method
  slash : s.request.url.path.head? = some 47
  path : ∀ b ∈ s.request.url.path, IsPrint b ∧ b ∉ asciiBytes "%?@"
  query : s.request.url.query = none
  framed : Framed s.request.header s.body s.wireBody
  bytes : s.request.http1Data s.wireBody = .ok wire

end Webparse.Spec
