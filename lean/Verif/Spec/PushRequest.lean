import Verif.Spec.Http1
import Verif.Spec.HeaderMap

/-! # RFC 9113 8.4: which requests a server may promise -/

namespace Webparse.Spec

/-- RFC 9110 9.2.1 -/
def safeMethods : List Method := [.get, .head, .options, .trace]

/-- RFC 9110 9.2.3 -/
def cacheableMethods : List Method := [.get, .head, .post]

/-- The method is safe and cacheable. -/
def PromisableMethod (m : Method) : Prop := m ∈ safeMethods ∧ m ∈ cacheableMethods

/-- The headers announce no content: there is no `Content-Length` other than 0. -/
def NoContent (m : HeaderMap) : Prop := ∀ h ∈ m, lower h.1 = asciiBytes "content-length" → IsNumeral h.2 0

/-- RFC 9113 8.4: promised requests are safe, cacheable and without content. -/
def Promisable (r : Request) : Prop := PromisableMethod r.method ∧ NoContent r.header

/-- At most one `Content-Length`, a numeral below 2^63, and no name that the code takes for it. -/
def OneContentLength (m : HeaderMap) : Prop :=
  (∀ h ∈ m, Unambiguous h.1 (asciiBytes "content-length")) ∧
  (∀ h ∈ m, lower h.1 = asciiBytes "content-length" → ∃ n, IsNumeral h.2 n ∧ n < 2 ^ 63) ∧
  ∀ h ∈ m, ∀ h' ∈ m, lower h.1 = asciiBytes "content-length" → lower h'.1 = asciiBytes "content-length" → h = h'

end Webparse.Spec
