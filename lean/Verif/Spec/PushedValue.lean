import Verif.Spec.BodyKind

/-! # Several values of one field (RFC 9110 5.2, 5.3) -/

namespace Webparse.Spec

/-- The parts between semicolons. -/
def splitSemicolon : Bytes → List Bytes
  | [] => [[]]
  | b :: r =>
    if b = 59 then [] :: splitSemicolon r
    else
      match splitSemicolon r with
      | [] => [[b]]
      | p :: ps => (b :: p) :: ps

/-- The pairs of a `Cookie` field, or a value and its parameters (RFC 6265 4.2.1, RFC 9110 5.6.6); quoted strings are not
looked at. -/
def semicolonParts (v : Bytes) : List Bytes := (splitSemicolon v).map trimOws

/-- The values that a field has after some were pushed to it, one after the other. -/
def pushAll (m : HeaderMap) (n : Bytes) (vs : List Bytes) : HeaderMap := vs.foldl (fun m v => m.push n v) m

end Webparse.Spec
