import Verif.Model.Builder
import Verif.Spec.HeaderMap

/-! What a chain of builder calls means: each call sets one thing, the last one counts, the first failing
call decides the error. -/

namespace Webparse.Spec

/-- The last value a list of calls sets, if any. -/
def lastOf {α β : Type} (f : α → Option β) (l : List α) : Option β := (l.filterMap f).getLast?

/-- The value of a conversion that succeeds. -/
def value? {α : Type} : Res α → Option α
  | .ok a => some a
  | _ => none

/-! ## Requests -/

/-- A call on a request builder. -/
inductive RequestCall where
  | method (t : Bytes)
  | methodIs (m : Method)
  | url (t : Bytes)
  | urlIs (u : Url)
  | version (v : Version)
  | header (n v : Bytes)
  | headers (hs : HeaderMap)

/-- The call performed by the code. -/
def RequestCall.run (b : RequestBuilder) : RequestCall → RequestBuilder
  | .method t => b.method t
  | .methodIs m => b.methodIs m
  | .url t => b.url t
  | .urlIs u => b.urlIs u
  | .version v => b.version v
  | .header n v => b.header n v
  | .headers hs => b.headers hs

/-- `Request::builder()`, the calls, and `body(())`. -/
def buildRequest (calls : List RequestCall) : Res Request := (calls.foldl RequestCall.run RequestBuilder.new).body

/-- The call fails with an error: only conversions of texts can. -/
def RequestCall.Fails (c : RequestCall) (e : Error) : Prop :=
  (∃ t, c = .method t ∧ Method.tryFrom t = .err e) ∨ (∃ t, c = .url t ∧ Url.parse t = .err e)

/-- The method a call sets. -/
def RequestCall.methodSet : RequestCall → Option Method
  | .method t => value? (Method.tryFrom t)
  | .methodIs m => some m
  | _ => none

/-- The URL a call sets. -/
def RequestCall.urlSet : RequestCall → Option Url
  | .url t => value? (Url.parse t)
  | .urlIs u => some u
  | _ => none

/-- The version a call sets. -/
def RequestCall.versionSet : RequestCall → Option Version
  | .version v => some v
  | _ => none

/-- The header `Host: name:port` of a URL that has both. -/
def hostOps (u : Url) : List HeaderOp :=
  match u.domain, u.port with
  | some d, some p => [.insert (asciiBytes "Host") (d ++ [58] ++ decimal p)]
  | _, _ => []

/-- The headers a call sets. -/
def RequestCall.headerOps : RequestCall → List HeaderOp
  | .header n v => [.insert n v]
  | .headers hs => hs.map fun e => .insert e.1 e.2
  | .url t => match value? (Url.parse t) with | some u => hostOps u | none => []
  | .urlIs u => hostOps u
  | _ => []

/-! ## Responses -/

/-- A call on a response builder. -/
inductive ResponseCall where
  | status (n : Nat)
  | statusIs (s : Nat)
  | method (m : Bytes)
  | version (v : Version)
  | header (n v : Bytes)
  | headers (hs : HeaderMap)

/-- The call performed by the code. -/
def ResponseCall.run (b : ResponseBuilder) : ResponseCall → ResponseBuilder
  | .status n => b.status n
  | .statusIs s => b.statusIs s
  | .method m => b.method m
  | .version v => b.version v
  | .header n v => b.header n v
  | .headers hs => b.headers hs

/-- `Response::builder()`, the calls, and `body(())`. -/
def buildResponse (calls : List ResponseCall) : Res Response := (calls.foldl ResponseCall.run ResponseBuilder.new).body

/-- The status a call sets. -/
def ResponseCall.statusSet : ResponseCall → Option Nat
  | .status n => some n
  | .statusIs s => some s
  | _ => none

/-- The version a call sets. -/
def ResponseCall.versionSet : ResponseCall → Option Version
  | .version v => some v
  | _ => none

/-- The headers a call sets. -/
def ResponseCall.headerOps : ResponseCall → List HeaderOp
  | .header n v => [.insert n v]
  | .headers hs => hs.map fun e => .insert e.1 e.2
  | .method m => [.insert (asciiBytes ":method") m]
  | _ => []

/-! ## From HTTP/2 -/

/-- `Headers::into_request` with `Request::builder()`, then `body(())`. -/
def requestOf (f : HeadersFrame) : Res Request := (f.intoRequest RequestBuilder.new).bind RequestBuilder.body

/-- `Headers::into_response` with `Response::builder()`, then `body(())`. -/
def responseOf (f : HeadersFrame) : Res Response := (f.intoResponse ResponseBuilder.new).bind ResponseBuilder.body

end Webparse.Spec
