import Verif.Model.Http1

/-!
# Checking a request before it is promised

/repo/src/http/http2/frame/headers.rs:412-434
-/

namespace Webparse

/-- src/http/http2/frame/headers.rs:430-434 (`safe_and_cacheable`). -/
def safeAndCacheable (m : Method) : Bool := m == .get || m == .head

/-- src/http/http2/frame/headers.rs:412-428 (`PushPromise::validate_request`), with `Request::get_body_len`
(src/http/request.rs:491-493); the headers are held as bytes, as in `HeaderMap.bodyLen`. -/
def validateRequest (r : Request) : Res Unit := do
  let n ← r.header.bodyLen
  if n = 0 then .err .payloadLengthTooShort
  else if !safeAndCacheable r.method then .err .payloadLengthTooShort
  else .ok ()

end Webparse
