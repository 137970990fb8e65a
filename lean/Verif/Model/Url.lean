import Verif.Model.Helper
import Verif.Model.Method
import Verif.Model.Utf8

/-!
# URLs

/repo/src/url/url.rs, /repo/src/url/scheme.rs, /repo/src/url/builder.rs
-/

namespace Webparse

/-- src/url/url.rs:19-28 (`Url`).  Strings are byte strings; the port is a 16-bit number. -/
structure Url where
  scheme : Scheme
  path : Bytes
  username : Option Bytes
  password : Option Bytes
  domain : Option Bytes
  port : Option Nat
  query : Option Bytes
  deriving DecidableEq, Repr

/-- src/url/url.rs:34-44 (`Url::new`). -/
def Url.new : Url :=
  { scheme := .none, path := [47], username := none, password := none, domain := none, port := none,
    query := none }

/-- src/url/url.rs:51-73 (`Url::merge`), one field: taken if it is given and different. -/
def mergeField {α : Type} [DecidableEq α] (given : Bool) (mine other : α) : α :=
  if given = true ∧ mine ≠ other then other else mine

/-- src/url/url.rs:51-73 (`Url::merge`). -/
def Url.merge (self other : Url) : Url :=
  { scheme := mergeField (other.scheme ≠ .none) self.scheme other.scheme
    path := mergeField (other.path ≠ [47]) self.path other.path
    username := mergeField (other.username ≠ none) self.username other.username
    password := mergeField (other.password ≠ none) self.password other.password
    domain := mergeField (other.domain ≠ none) self.domain other.domain
    port := mergeField (other.port ≠ none ∧ other.port ≠ some 0) self.port other.port
    query := mergeField (other.query ≠ none) self.query other.query }

/-- src/url/url.rs:75-103 (`parse_url_token` with `can_convert`, which is how it is always called), the
loop. -/
def urlTokenLoop : Bytes → Res Bytes
  | [] => .ok []
  | b :: r =>
    if b = 37 then
      match r with
      | x :: y :: r =>
        match convertHex x, convertHex y with
        | some t, some u => do
          let v ← urlTokenLoop r
          .ok ((t * 16 + u) :: v)
        | _, _ => .err .urlInvalid
      | _ => .err .partialData
    else do
      let v ← urlTokenLoop r
      .ok (b :: v)

/-- src/url/url.rs:75-103 (`parse_url_token`). -/
def parseUrlToken (raw : Bytes) : Res Bytes := do
  let result ← urlTokenLoop raw
  if utf8Valid result then .ok result else .err .urlInvalid

/-- src/url/scheme.rs:63-69 and src/helper.rs:310-313 (`Scheme::parse_scheme`, `Helper::parse_scheme`). -/
def parseScheme (buf : Bytes) : Res Scheme × Bytes :=
  thenRead (parseTokenBy isSchemeToken .headerValue buf) fun scheme buf =>
    if scheme.length > 64 then (.err .schemeTooLong, buf) else (Scheme.tryFrom scheme, buf)

/-- The local variables of `Url::parse` (src/url/url.rs:105-131). -/
structure UrlState where
  username : Option Bytes := none
  password : Option Bytes := none
  domain : Option Bytes := none
  port : Option Bytes := none
  path : Option Bytes := none
  query : Option Bytes := none
  isFirstSlash : Bool := false
  hasDomain : Bool := true
  val : Bytes := []
  deriving DecidableEq, Repr

/-- src/url/url.rs:140-157, the end of the input. -/
def UrlState.finish (s : UrlState) : UrlState :=
  if s.path.isSome then { s with query := some s.val, val := [] }
  else if s.domain.isSome then
    if !s.isFirstSlash then { s with port := some s.val, val := [] }
    else { s with path := some s.val, val := [] }
  else if s.hasDomain then { s with domain := some s.val, val := [] }
  else { s with path := some s.val, val := [] }

/-- src/url/url.rs:159-212, one byte. -/
def UrlState.step (s : UrlState) (b : UInt8) : Res UrlState :=
  if b = 58 then
    if !s.isFirstSlash then
      if s.domain.isNone then .ok { s with domain := some s.val, val := [] } else .err .urlInvalid
    else .ok { s with val := s.val ++ [b] }
  else if b = 64 then
    if s.domain.isNone then .err .urlInvalid
    else .ok { s with username := s.domain, domain := none, password := some s.val, val := [] }
  else if b = 47 then
    if !s.isFirstSlash then
      if s.domain.isNone then .ok { s with domain := some s.val, isFirstSlash := true, val := [b] }
      else .ok { s with port := some s.val, isFirstSlash := true, val := [b] }
    else .ok { s with val := s.val ++ [b] }
  else if b = 63 then
    if !s.isFirstSlash then
      if s.domain.isNone && s.hasDomain then .ok { s with domain := some s.val, val := [] } else .ok s
    else if s.path.isNone then .ok { s with path := some s.val, val := [] }
    else .ok { s with val := s.val ++ [b] }
  else if !isToken b then .err .urlInvalid
  else .ok { s with val := s.val ++ [b] }

/-- src/url/url.rs:139-213, the loop. -/
def UrlState.run (s : UrlState) : Bytes → Res UrlState
  | [] => .ok s.finish
  | b :: r => do
    let s ← s.step b
    UrlState.run s r

/-- src/url/url.rs:216-240, an optional part: `parse_url_token` if there is one. -/
def parseOptToken : Option Bytes → Res (Option Bytes)
  | none => .ok none
  | some raw => do
    let v ← parseUrlToken raw
    .ok (some v)

/-- src/url/url.rs:226-234, the port. -/
def parsePort : Option Bytes → Res (Option Nat)
  | none => .ok none
  | some raw => do
    let v ← parseUrlToken raw
    match parseUnsigned (2 ^ 16) v with
    | some p => .ok (some p)
    | none => .err .urlInvalid

/-- src/url/url.rs:236-238, the path. -/
def parsePath : Option Bytes → Res Bytes
  | none => .ok [47]
  | some raw => parseUrlToken raw

/-- src/url/url.rs:244-253, the port of a scheme. -/
def Scheme.defaultPort : Scheme → Nat
  | .http => 80
  | .https => 443
  | .ws => 80
  | .wss => 443
  | .ftp => 21
  | _ => 0

/-- src/url/url.rs:215-255, the parts are decoded in this order. -/
def UrlState.build (scheme : Scheme) (s : UrlState) : Res Url := do
  let username ← parseOptToken s.username
  let password ← parseOptToken s.password
  let domain ← parseOptToken s.domain
  let port ← parsePort s.port
  let path ← parsePath s.path
  let query ← parseOptToken s.query
  .ok ⟨scheme, path, username, password, domain, some (port.getD scheme.defaultPort), query⟩

/-- src/url/url.rs:118-122, the scheme and `://`. -/
def parseSchemePrefix (buf : Bytes) : Res Scheme × Bytes :=
  thenRead (parseScheme buf) fun scheme buf =>
    thenRead (expectByte 58 .urlInvalid buf) fun _ buf =>
      thenRead (expectByte 47 .urlInvalid buf) fun _ buf =>
        thenRead (expectByte 47 .urlInvalid buf) fun _ buf => (.ok scheme, buf)

/-- src/url/url.rs:105-256 (`Url::parse`). -/
def Url.parse (url : Bytes) : Res Url :=
  match url with
  | [] => .err .partialData
  | b :: _ =>
    if isAlpha b then do
      let scheme ← (parseSchemePrefix url).1
      let s ← UrlState.run {} (parseSchemePrefix url).2
      s.build scheme
    else if b = 47 then do
      let s ← UrlState.run { isFirstSlash := true, hasDomain := false } url
      s.build .none
    else .err .urlInvalid

/-- src/url/url.rs:258-272 (`url_encode`).  `from_utf8_lossy` of the result. -/
def urlEncode (val : Bytes) : Bytes :=
  utf8Lossy (val.flatMap fun b => if isNotUritrans b then [b] else [37, toHex (b / 16), toHex (b % 16)])

/-- src/url/url.rs:274-301 (`url_decode`), the loop. -/
def urlDecodeLoop : Bytes → Res Bytes
  | [] => .ok []
  | b :: r =>
    if b = 37 then
      match r with
      | x :: y :: r =>
        match convertHex x, convertHex y with
        | some t, some u => do
          let v ← urlDecodeLoop r
          .ok ((t * 16 + u) :: v)
        | _, _ => .err .urlCodeInvalid
      | _ => .err .urlCodeInvalid
    else do
      let v ← urlDecodeLoop r
      .ok (b :: v)

/-- src/url/url.rs:274-301 (`url_decode`). -/
def urlDecode (val : Bytes) : Res Bytes := do
  let v ← urlDecodeLoop val
  .ok (utf8Lossy v)

/-- The port as `Display` and `get_authority` write it (src/url/url.rs:304-312, 357-363): nothing for the
default ports of http and https. -/
def portSuffix (scheme : Scheme) (port : Option Nat) : Bytes :=
  if scheme ≠ .none then
    match port with
    | some p =>
      if scheme = .http ∧ p = 80 then []
      else if scheme = .https ∧ p = 443 then []
      else [58] ++ decimal p
    | none => []
  else []

/-- src/url/url.rs:303-322 (`get_authority`). -/
def Url.authority (u : Url) : Bytes :=
  match u.domain with
  | some d => d ++ portSuffix u.scheme u.port
  | none => []

/-- src/url/url.rs:328-338 (`get_connect_url`). -/
def Url.connectUrl (u : Url) : Option Bytes :=
  match u.domain, u.port with
  | some d, some p => some (d ++ [58] ++ decimal p)
  | _, _ => none

/-- src/url/url.rs:343-345, scheme. -/
def schemeText (s : Scheme) : Bytes := if s ≠ .none then s.asStr ++ [58, 47, 47] else []

/-- src/url/url.rs:346-352, user information. -/
def userText (username password : Option Bytes) : Bytes :=
  if username.isSome ∨ password.isSome then
    urlEncode (username.getD []) ++ [58] ++ urlEncode (password.getD []) ++ [64]
  else []

/-- src/url/url.rs:365-370, query. -/
def queryText : Option Bytes → Bytes
  | some q => [63] ++ urlEncode q
  | none => []

/-- src/url/url.rs:341-372 (`Display for Url`). -/
def Url.display (u : Url) : Bytes :=
  schemeText u.scheme ++ userText u.username u.password ++ u.domain.getD [] ++ portSuffix u.scheme u.port ++
    urlEncode u.path ++ queryText u.query

end Webparse
