import Verif.Model.UrlBuilder
import Verif.Spec.Builder
import Verif.Spec.Url

/-! What a chain of calls on a URL builder means, and what its user expects of the text. -/

namespace Webparse.Spec

/-- A call on a URL builder. -/
inductive UrlCall where
  | scheme (t : Bytes)
  | username (t : Bytes)
  | password (t : Bytes)
  | domain (t : Bytes)
  | port (n : Nat)
  | path (t : Bytes)
  | query (t : Bytes)

/-- The call performed by the code. -/
def UrlCall.run (b : UrlBuilder) : UrlCall → UrlBuilder
  | .scheme t => b.scheme t
  | .username t => b.username t
  | .password t => b.password t
  | .domain t => b.domain t
  | .port n => b.port n
  | .path t => b.path t
  | .query t => b.query t

/-- `Url::builder()`, the calls, and `build()`. -/
def buildUrl (calls : List UrlCall) : Res Url := (calls.foldl UrlCall.run UrlBuilder.new).build

/-- The scheme with a name. -/
def schemeNamed (t : Bytes) : Scheme :=
  match schemeNames.find? fun e => asciiBytes e.2 = t with
  | some e => e.1
  | none => .extension t

/-- What a call sets. -/
def UrlCall.schemeSet : UrlCall → Option Bytes
  | .scheme t => some t
  | _ => none
def UrlCall.usernameSet : UrlCall → Option Bytes
  | .username t => some t
  | _ => none
def UrlCall.passwordSet : UrlCall → Option Bytes
  | .password t => some t
  | _ => none
def UrlCall.domainSet : UrlCall → Option Bytes
  | .domain t => some t
  | _ => none
def UrlCall.portSet : UrlCall → Option Nat
  | .port n => some n
  | _ => none
def UrlCall.pathSet : UrlCall → Option Bytes
  | .path t => some t
  | _ => none
def UrlCall.querySet : UrlCall → Option Bytes
  | .query t => some t
  | _ => none

/-- What the types guarantee: strings are UTF-8 and ports have 16 bits. -/
def UrlCall.Typed : UrlCall → Prop
  | .scheme t | .username t | .password t | .domain t | .path t | .query t => utf8Valid t = true
  | .port n => n < 65536

/-- The last scheme given is the text of a scheme and the last host given is made of printable characters
that do not end a host. -/
def HostGiven (calls : List UrlCall) : Prop :=
  (∃ t, lastOf UrlCall.schemeSet calls = some t ∧ SchemeText t) ∧
  ∃ d, lastOf UrlCall.domainSet calls = some d ∧ ∀ b ∈ d, IsPrint b ∧ b ∉ asciiBytes "%/:?@"

/-- The URL with the default port of its scheme if it has none. -/
def withDefaultPort (u : Url) : Url := { u with port := some (u.port.getD (defaultPort u.scheme)) }

/-- The URL has a user name and a password, or neither. -/
def UserComplete (u : Url) : Prop := u.username.isSome = u.password.isSome

end Webparse.Spec
