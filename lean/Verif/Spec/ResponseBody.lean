import Verif.Spec.BodyKind

/-! # RFC 9112 6.3: where the body of a response ends -/

namespace Webparse.Spec

/-- No body, in chunks, in that many bytes, all that comes until the connection is closed, or the response has to be refused. -/
inductive ResponseBodyKind where
  | none
  | chunked
  | length (n : Nat)
  | untilClose
  | invalid
deriving DecidableEq

/-- The statuses that never have a body. -/
def BodylessStatus (code : Nat) : Prop := (100 ≤ code ∧ code < 200) ∨ code = 204 ∨ code = 304

instance (code : Nat) : Decidable (BodylessStatus code) := by unfold BodylessStatus; infer_instance

/-- RFC 9112 6.3, items 1 and 4 to 8, for the response to a request other than HEAD and CONNECT.  If there is
`Transfer-Encoding`, the body ends with the last chunk if the last coding is `chunked`, and with the connection otherwise.
Otherwise all values of `Content-Length` have to be one decimal numeral.  With neither it ends with the connection. -/
def responseBody (code : Nat) (fields : List (Header × Bytes × Bytes)) : ResponseBodyKind :=
  if BodylessStatus code then .none
  else if valuesOf fields (asciiBytes "transfer-encoding") ≠ [] then
    match (elementsOf (valuesOf fields (asciiBytes "transfer-encoding"))).getLast? with
    | some coding => if lower coding = asciiBytes "chunked" then .chunked else .untilClose
    | Option.none => .untilClose
  else if valuesOf fields (asciiBytes "content-length") = [] then .untilClose
  else
    match elementsOf (valuesOf fields (asciiBytes "content-length")) with
    | [] => .invalid
    | s :: ss => if isDecimalText s && ss.all (· == s) then .length (decVal s) else .invalid

/-- What `is_chunked` and `get_body_len` say of the headers of an accepted response.  A body that ends with the connection
must not be taken for an empty one; a response that has to be refused must not have been accepted. -/
def TakesResponseBodyAs (m : HeaderMap) : ResponseBodyKind → Prop
  | .none => m.isChunked = false ∧ m.bodyLen = .ok 0
  | .chunked => m.isChunked = true
  | .length n => m.isChunked = false ∧ m.bodyLen = .ok n
  | .untilClose => m.isChunked = false ∧ m.bodyLen ≠ .ok 0
  | .invalid => False

end Webparse.Spec
