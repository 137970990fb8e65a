import Verif.Model.Basic

/-!
# Methods, versions and schemes

/repo/src/http/method.rs, /repo/src/http/version.rs, /repo/src/url/scheme.rs
-/

namespace Webparse

/-- src/http/method.rs:18-30 (`Method`). -/
inductive Method where
  | none | options | get | post | put | delete | head | trace | connect | patch
  | extension (s : Bytes)
  deriving DecidableEq, Repr

/-- src/http/method.rs:92-106 (`Method::as_str`). -/
def Method.asStr : Method → Bytes
  | .options => asciiBytes "OPTIONS"
  | .get => asciiBytes "GET"
  | .post => asciiBytes "POST"
  | .put => asciiBytes "PUT"
  | .delete => asciiBytes "DELETE"
  | .head => asciiBytes "HEAD"
  | .trace => asciiBytes "TRACE"
  | .connect => asciiBytes "CONNECT"
  | .patch => asciiBytes "PATCH"
  | .none => asciiBytes "None"
  | .extension s => s

/-- src/http/method.rs:108-113 (`Method::encode`): the bytes appended. -/
def Method.encode : Method → Res Bytes
  | .none => .err .serialize
  | m => .ok m.asStr

/-- src/http/method.rs:73-81 (`Method::is_nobody`). -/
def Method.isNobody : Method → Bool
  | .get | .head | .options | .connect => true
  | _ => false

/-- src/http/method.rs:83-90 (`Method::res_nobody`). -/
def Method.resNobody : Method → Bool
  | .head | .options | .connect => true
  | _ => false

/-- src/http/method.rs:120-137 (`TryFrom<&str> for Method`). -/
def Method.tryFrom (s : Bytes) : Res Method :=
  if s = asciiBytes "GET" then .ok .get
  else if s = asciiBytes "POST" then .ok .post
  else if s = asciiBytes "PUT" then .ok .put
  else if s = asciiBytes "DELETE" then .ok .delete
  else if s = asciiBytes "HEAD" then .ok .head
  else if s = asciiBytes "OPTIONS" then .ok .options
  else if s = asciiBytes "CONNECT" then .ok .connect
  else if s = asciiBytes "PATCH" then .ok .patch
  else if s = asciiBytes "TRACE" then .ok .trace
  else .err .httpMethod

/-- src/url/scheme.rs:156 and src/http/method.rs:144: `str::to_uppercase` on ASCII bytes.  Simplified: other characters are kept; for all of
Unicode see `Model/UpperCase.lean`. -/
def toUpperAscii (s : Bytes) : Bytes := s.map fun b => if 97 ≤ b && b ≤ 122 then b - 32 else b

/-- src/http/method.rs:139-144 (`FromStr for Method`). -/
def Method.fromStr (s : Bytes) : Res Method := Method.tryFrom (toUpperAscii s)

/-- src/http/version.rs:17-24 (`Version`). -/
inductive Version where
  | none | http10 | http11 | http2 | http3
  deriving DecidableEq, Repr

/-- src/http/version.rs:39-47 (`Version::as_str`). -/
def Version.asStr : Version → Bytes
  | .http10 => asciiBytes "HTTP/1.0"
  | .http11 => asciiBytes "HTTP/1.1"
  | .http2 => asciiBytes "HTTP/2"
  | .http3 => asciiBytes "HTTP/3"
  | .none => asciiBytes "None"

/-- src/http/version.rs:49-54 (`Version::encode`): the bytes appended. -/
def Version.encode : Version → Res Bytes
  | .none => .err .serialize
  | v => .ok v.asStr

/-- src/http/version.rs:71-81 (`From<&str> for Version`). -/
def Version.ofStr (s : Bytes) : Version :=
  if s = asciiBytes "HTTP/1.0" then .http10
  else if s = asciiBytes "HTTP/1.1" then .http11
  else if s = asciiBytes "HTTP/2" then .http2
  else if s = asciiBytes "HTTP/3" then .http3
  else .none

/-- src/url/scheme.rs:18-27 (`Scheme`). -/
inductive Scheme where
  | none | http | https | ws | wss | ftp
  | extension (s : Bytes)
  deriving DecidableEq, Repr

/-- src/url/scheme.rs:71-81 (`Scheme::as_str`). -/
def Scheme.asStr : Scheme → Bytes
  | .http => asciiBytes "http"
  | .https => asciiBytes "https"
  | .ws => asciiBytes "ws"
  | .wss => asciiBytes "wss"
  | .ftp => asciiBytes "ftp"
  | .extension s => s
  | .none => []

/-- src/url/scheme.rs:135-151 (`TryFrom<&str> for Scheme`). -/
def Scheme.tryFrom (s : Bytes) : Res Scheme :=
  if s.length > 64 then .err .urlInvalid
  else if s = asciiBytes "http" then .ok .http
  else if s = asciiBytes "https" then .ok .https
  else if s = asciiBytes "ws" then .ok .ws
  else if s = asciiBytes "wss" then .ok .wss
  else if s = asciiBytes "ftp" then .ok .ftp
  else .ok (.extension s)

/-- src/url/scheme.rs:153-158 (`FromStr for Scheme`). -/
def Scheme.fromStr (s : Bytes) : Res Scheme := Scheme.tryFrom (toUpperAscii s)

end Webparse
