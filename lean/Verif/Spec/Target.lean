import Verif.Spec.Url

/-! Notions used to state how the URL of a request follows from its target and its `Host` header. -/

namespace Webparse.Spec

/-- `x` is written `d` (then the port is 80) or `d:port` with a decimal port of 16 bits (a plus sign is
let through). -/
def HostIs (x d : Bytes) (p : Nat) : Prop :=
  ((58 : UInt8) ∉ x ∧ d = x ∧ p = 80) ∨
  ∃ q, x = d ++ 58 :: q ∧ (58 : UInt8) ∉ d ∧ (IsNumeral q p ∨ ∃ t, q = 43 :: t ∧ IsNumeral t p) ∧ p < 65536

/-- The value of the first header of that (lower-case) name. -/
def headerNamed (name : String) (hs : List Header) : Option Bytes :=
  (hs.find? fun e => lower e.1 == asciiBytes name).map (·.2)

/-- A request line and what follows it. -/
def requestText (method target version rest : Bytes) : Bytes :=
  method ++ [32] ++ target ++ [32] ++ version ++ [13, 10] ++ rest

/-- Header lines and the empty line after them. -/
def headerText : List Header → Bytes
  | [] => [13, 10]
  | e :: hs => e.1 ++ [58, 32] ++ e.2 ++ [13, 10] ++ headerText hs

end Webparse.Spec
