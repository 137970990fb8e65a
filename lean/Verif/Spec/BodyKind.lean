import Verif.Spec.Grammar
import Verif.Spec.Options
import Verif.Spec.Chunk

/-! # RFC 9112 6.3: where the body of a request ends -/

namespace Webparse.Spec

/-- In chunks, in that many bytes, or the request has to be refused. -/
inductive BodyKind where
  | chunked
  | length (n : Nat)
  | invalid
deriving DecidableEq

/-- `1*DIGIT` -/
def isDecimalText (s : Bytes) : Bool := !s.isEmpty && s.all fun b => 48 ≤ b.toNat && b.toNat ≤ 57

/-- The elements of the lists on all lines of a field (RFC 9110 5.6.1.2: empty ones do not count). -/
def elementsOf (values : List Bytes) : List Bytes := (values.flatMap listElements).filter (· ≠ [])

/-- RFC 9112 6.3, items 3 to 7 for requests.  If there is `Transfer-Encoding`, its last coding has to be `chunked`.  Otherwise
all values of `Content-Length` have to be one decimal numeral.  With neither there is no body. -/
def requestBody (fields : List (Header × Bytes × Bytes)) : BodyKind :=
  if valuesOf fields (asciiBytes "transfer-encoding") ≠ [] then
    match (elementsOf (valuesOf fields (asciiBytes "transfer-encoding"))).getLast? with
    | some coding => if lower coding = asciiBytes "chunked" then .chunked else .invalid
    | none => .invalid
  else if valuesOf fields (asciiBytes "content-length") = [] then .length 0
  else
    match elementsOf (valuesOf fields (asciiBytes "content-length")) with
    | [] => .invalid
    | s :: ss => if isDecimalText s && ss.all (· == s) then .length (decVal s) else .invalid

/-- What `is_chunked` and `get_body_len` say of the headers of an accepted request; one that has to be refused must not have
been accepted. -/
def TakesBodyAs (m : HeaderMap) : BodyKind → Prop
  | .chunked => m.isChunked = true
  | .length n => m.isChunked = false ∧ m.bodyLen = .ok n
  | .invalid => False

/-- None of the names is taken for another one of them that is different. -/
def NamesUnambiguous (names : List Bytes) : Prop := ∀ a ∈ names, ∀ b ∈ names, Unambiguous a b

/-- Headers as field lines with one space before the value. -/
def spaced (hs : List Header) : List (Header × Bytes × Bytes) := hs.map fun h => (h, [32], [])

/-- A POST request for `/` with these headers. -/
def postHead (hs : List Header) : Bytes := asciiBytes "POST / HTTP/1.1\r\n" ++ hs.flatMap (fun h => h.1 ++ [58, 32] ++ h.2 ++ [13, 10]) ++ [13, 10]

end Webparse.Spec
