import Verif.Spec.ResponseStream
import Verif.Spec.Conversation

/-! Responses of RFC 9112 with none of what the crate is known to take otherwise (C73, C81, C105). -/

namespace Webparse.Spec

/-- No body, a body with its length in the last `Content-Length` line, or chunks without extensions and trailer fields that are
announced in lower case. -/
inductive PlainAnswerBody (code : Nat) (fields : List (Header × Bytes × Bytes)) : (body text : Bytes) → Prop
  | bodyless : BodylessStatus code → valuesOf fields (asciiBytes "transfer-encoding") = [] →
      valuesOf fields (asciiBytes "content-length") = [] → PlainAnswerBody code fields [] []
  | empty : responseBody code fields = .length 0 → PlainAnswerBody code fields [] []
  | length {body t : Bytes} : responseBody code fields = .length body.length →
      (valuesOf fields (asciiBytes "content-length")).getLast? = some t → IsNumeral t body.length → body.length < 2 ^ 63 →
      PlainAnswerBody code fields body body
  | chunks {chunks : List SizedChunk} {last : SizedChunk} {t : Bytes} : responseBody code fields = .chunked →
      (valuesOf fields (asciiBytes "transfer-encoding")).getLast? = some t → asciiBytes "chunked" <:+: t →
      (∀ c ∈ chunks, c.Ok ∧ c.data ≠ []) → last.Ok → last.data = [] →
      PlainAnswerBody code fields (chunks.map SizedChunk.data).flatten (chunks.flatMap SizedChunk.wire ++ last.wire)

/-- Responses with a reason of printable characters, spaces only before the values, and no names that are confused. -/
inductive PlainResponses : List HeardAnswer → Bytes → Prop
  | done : PlainResponses [] []
  | more {reason head body text rest : Bytes} {v : Version} {code : Nat} {fields : List (Header × Bytes × Bytes)} {l : List HeardAnswer} :
      IsResponseHead v code reason fields head → IsPlainReason reason → (∀ f ∈ fields, TidyBlanks f) →
      NamesUnambiguous (asciiBytes "transfer-encoding" :: asciiBytes "content-length" :: fields.map (·.1.1)) →
      PlainAnswerBody code fields body text → PlainResponses l rest →
      PlainResponses (⟨v, code, fields.map (·.1), body⟩ :: l) (head ++ (text ++ rest))

end Webparse.Spec
