import Verif.Spec.RequestStream
import Verif.Spec.Conversation

/-! Requests of RFC 9112 with none of what the crate is known to take otherwise (C73, C81, C96). -/

namespace Webparse.Spec

/-- No body, a body with its length in the last `Content-Length` line, or chunks without extensions and trailer fields that are
announced in lower case. -/
inductive PlainBody (fields : List (Header × Bytes × Bytes)) : (body text : Bytes) → Prop
  | none : requestBody fields = .length 0 → PlainBody fields [] []
  | length {body t : Bytes} : requestBody fields = .length body.length →
      (valuesOf fields (asciiBytes "content-length")).getLast? = some t → IsNumeral t body.length → body.length < 2 ^ 63 →
      PlainBody fields body body
  | chunks {chunks : List SizedChunk} {last : SizedChunk} {t : Bytes} : requestBody fields = .chunked →
      (valuesOf fields (asciiBytes "transfer-encoding")).getLast? = some t → asciiBytes "chunked" <:+: t →
      (∀ c ∈ chunks, c.Ok ∧ c.data ≠ []) → last.Ok → last.data = [] →
      PlainBody fields (chunks.map SizedChunk.data).flatten (chunks.flatMap SizedChunk.wire ++ last.wire)

/-- Requests with a registered method and a target that can be read, spaces only before the values, and no names that are
confused. -/
inductive PlainRequests : List HeardMessage → Bytes → Prop
  | done : PlainRequests [] []
  | more {method target head body text rest : Bytes} {v : Version} {fields : List (Header × Bytes × Bytes)} {l : List HeardMessage}
      {m : Method} {url : Url} : IsRequestHead method target v fields head → (∃ k ∈ methodNames, k.1 = m ∧ asciiBytes k.2 = method) →
      requestUrl m (storeAll (fields.map receivedField)) target = .ok url → (∀ f ∈ fields, TidyBlanks f) →
      NamesUnambiguous (asciiBytes "transfer-encoding" :: asciiBytes "content-length" :: fields.map (·.1.1)) →
      PlainBody fields body text → PlainRequests l rest →
      PlainRequests (⟨method, target, v, fields.map (·.1), body⟩ :: l) (head ++ (text ++ rest))

end Webparse.Spec
