import Verif.Spec.Conversation

/-! # The requests that HTTP/1 text carries -/

namespace Webparse.Spec

/-- The requests that are read as they were written: a registered method; a path that starts with `/`, of printable characters other
than `%`, `?` and `@`; no query; with CONNECT no path but `/`, otherwise a `Host` that can be read if there is one. -/
structure CarriedRequest (r : Request) : Prop where
  method : ∃ e ∈ methodNames, e.1 = r.method
  slash : r.url.path.head? = some 47
  path : ∀ b ∈ r.url.path, IsPrint b ∧ b ∉ asciiBytes "%?@"
  query : r.url.query = none
  connect : r.method = .connect → r.url.path = [47]
  host : r.method ≠ .connect → ∀ x, r.header.host = some x → HostValue x

/-- A request with clean headers and a body framed as its headers say goes over the wire as these bytes. -/
structure SentRequest.Sends (s : SentRequest) (wire : Bytes) : Prop where
  header : s.request.header = runOps s.ops
  clean : ∀ e ∈ s.request.header, CleanHeader e
  framed : Framed s.request.header s.body s.wireBody
  bytes : s.request.http1Data s.wireBody = .ok wire

end Webparse.Spec
