import Verif.Model.Http1

/-! Printing requests and responses: `Display` for messages, headers, status codes. -/

namespace Webparse

/-- src/http/header.rs:366-376 (`Display for HeaderMap`); values are printed with `from_utf8_lossy`
(src/http/value.rs:98-105), which leaves static strings as they are because they are valid UTF-8. -/
def HeaderMap.display : HeaderMap → Bytes
  | [] => [13, 10]
  | e :: m => e.1 ++ [58, 32] ++ utf8Lossy e.2 ++ [13, 10] ++ HeaderMap.display m

/-- src/http/status.rs:226-235 (`Display for StatusCode`). -/
def statusDisplay (code : Nat) : Bytes :=
  decimal code ++ [32] ++ (canonicalReason code).getD (asciiBytes "<unknown status code>")

/-- src/http/request.rs:703-717 (`Display for Request`) with the text of the body. -/
def Request.display (r : Request) (body : Bytes) : Bytes :=
  r.method.asStr ++ [32] ++ r.url.path ++ [32] ++ r.version.asStr ++ [13, 10] ++ r.header.display ++ body

/-- src/http/response.rs:793-806 (`Display for Response`) with the text of the body. -/
def Response.display (r : Response) (body : Bytes) : Bytes :=
  r.version.asStr ++ [32] ++ statusDisplay r.status ++ [13, 10] ++ r.header.display ++ body

end Webparse
