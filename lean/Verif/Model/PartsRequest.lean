import Verif.Model.Builder

/-!
# HTTP/2 parts of a request or response

/repo/src/http/http2/frame/headers.rs:519-550
-/

namespace Webparse

/-- src/http/http2/frame/headers.rs:520-540 (`Parts::request`). -/
def Parts.request (method : Method) (uri : Url) (protocol : Option Scheme) : Parts :=
  { method := some method
    scheme := if uri.scheme ≠ .none then some uri.scheme else protocol
    authority := uri.domain
    path := if uri.path = [] then none else some uri.path
    status := none }

/-- src/http/http2/frame/headers.rs:542-550 (`Parts::response`). -/
def Parts.response (status : Nat) : Parts :=
  { method := none, scheme := none, authority := none, path := none, status := some status }

end Webparse
