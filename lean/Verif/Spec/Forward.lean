import Verif.Spec.Conversation
import Verif.Spec.Builder
import Verif.Spec.BodyKind

/-! # Requests and responses received over HTTP/2 and sent on over HTTP/1.1 -/

namespace Webparse.Spec

/-- The last value of a field of a header list, by its name in lower case. -/
def lastSent (fields : HeaderMap) (name : Bytes) : Option Bytes :=
  ((fields.filter fun e => lower e.1 == name).map (·.2)).getLast?

/-- A request whose head survives being written and read (C41), so that only its body is in question: clean headers, a readable
`Host`, a registered method other than CONNECT, a path of printable characters other than `%`, `?` and `@`, no query. -/
structure Forwardable (r : Request) : Prop where
  clean : ∀ e ∈ r.header, CleanHeader e
  host : ∀ x, r.header.host = some x → HostValue x
  method : r.method ≠ .connect ∧ ∃ e ∈ methodNames, e.1 = r.method
  slash : r.url.path.head? = some 47
  path : ∀ b ∈ r.url.path, IsPrint b ∧ b ∉ asciiBytes "%?@"
  query : r.url.query = none

/-- The names of the framing fields, of the fields the code adds, and of the fields given: none is taken for another. -/
def FramingClear (fields : HeaderMap) : Prop :=
  NamesUnambiguous (asciiBytes "transfer-encoding" :: asciiBytes "content-length" :: asciiBytes "Host" :: asciiBytes "User-Agent" ::
    asciiBytes "Server" :: fields.map (·.1))

end Webparse.Spec
