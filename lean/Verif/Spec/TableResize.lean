import Verif.Spec.Rfc7541
import Verif.Spec.HpackReach
import Verif.Spec.HeaderMap

/-!
# A connection on which the size of the compression table changes
-/

namespace Webparse.Spec

/-- What the owner of an encoder does: send a header list, or change the size of the table (`set_max_table_size`, as when the peer has sent
another SETTINGS_HEADER_TABLE_SIZE). -/
inductive TableEvent where
  | send (hs : List Header)
  | resize (limit : Nat)

/-- The header lists sent, names in lower case as HTTP/2 has them. -/
def listsSent : List TableEvent → List (List Header)
  | [] => []
  | .send hs :: es => hs.map lowerHeader :: listsSent es
  | .resize _ :: es => listsSent es

/-- The blocks that the code writes for them, in this order. -/
def runEvents (t : HeaderIndex) : List TableEvent → Res (List Bytes × HeaderIndex)
  | [] => .ok ([], t)
  | .send hs :: es => do
    let (b, t) ← encodeHeaders t hs
    let (bs, t) ← runEvents t es
    .ok (b :: bs, t)
  | .resize n :: es => do
    let t ← setMaxTableSize t n
    runEvents t es

/-- A set of names that the encoder writes as they are (C67). -/
def SafeNames (S : Bytes → Prop) : Prop :=
  (∀ a, S a → lower a ≠ asciiBytes "accept-") ∧ ∀ a b, S a → S b → ¬ StaticName b → Unambiguous a b

/-- All names sent are in the set. -/
def NamesFrom (S : Bytes → Prop) (es : List TableEvent) : Prop := ∀ hs, .send hs ∈ es → ∀ h ∈ hs, S h.1

end Webparse.Spec
