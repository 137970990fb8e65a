import Verif.Model.HeaderVariants
import Verif.Spec.HeaderMap
import Verif.Spec.Http1

/-! Histories of a header map whose names and values are static or owned strings. -/

namespace Webparse.Spec

/-- The operations that change a header map. -/
inductive TaggedOp where
  | insert (n : HeaderName) (v : HeaderValue)
  | push (n : HeaderName) (v : HeaderValue)
  | remove (n : Bytes)
  | assign (n : Bytes) (v : HeaderValue)
  | clear
  deriving DecidableEq, Repr

/-- The operation performed by the code: the bytes of the value it returns, if it returns one, and the map. -/
def TaggedOp.run (m : TaggedMap) : TaggedOp → Res (Option Bytes × TaggedMap)
  | .insert n v => .ok (none, m.insert n v)
  | .push n v => .ok (none, m.push n v)
  | .remove n => .ok ((m.remove n).1.map HeaderValue.asBytes, (m.remove n).2)
  | .assign n v => (m.assign n v).bind fun m => .ok (none, m)
  | .clear => .ok (none, m.clear)

/-- The values returned by a history, and the map after it. -/
def runTagged (m : TaggedMap) : List TaggedOp → Res (List (Option Bytes) × TaggedMap)
  | [] => .ok ([], m)
  | op :: ops =>
    (op.run m).bind fun r => (runTagged r.2 ops).bind fun rs => .ok (r.1 :: rs.1, rs.2)

/-- A static string is UTF-8. -/
def StaticText : HeaderValue → Prop
  | .stand s => utf8Valid s = true
  | .value _ => True

/-- Static strings in the history are UTF-8. -/
def TaggedOp.Static : TaggedOp → Prop
  | .insert _ v | .push _ v | .assign _ v => StaticText v
  | _ => True

/-- The operation on bytes: which variants were used is forgotten. -/
def TaggedOp.plain : TaggedOp → HeaderOp
  | .insert n v => .insert n.asBytes v.asBytes
  | .push n v => .push n.asBytes v.asBytes
  | .remove n => .remove n
  | .assign n v => .insert n v.asBytes
  | .clear => .clear

/-- The values that a history of operations on bytes returns, and the map. -/
def runPlain (m : HeaderMap) : List HeaderOp → List (Option Bytes) × HeaderMap
  | [] => ([], m)
  | op :: ops =>
    ((match op with | .remove n => (m.remove n).1 | _ => none) :: (runPlain (op.run m) ops).1,
      (runPlain (op.run m) ops).2)

/-- The map of bytes. -/
def plainMap (m : TaggedMap) : HeaderMap := m.map fun e => (e.1.asBytes, e.2.asBytes)

end Webparse.Spec
