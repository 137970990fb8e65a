import Verif.Spec.Ascii
import Verif.Model.HeaderMap

/-! # Lists in header values (RFC 9110 5.6.1, 7.6.1; RFC 9112 6.1) -/

namespace Webparse.Spec

/-- The parts between commas. -/
def splitComma : Bytes → List Bytes
  | [] => [[]]
  | b :: r =>
    if b = 44 then [] :: splitComma r
    else
      match splitComma r with
      | [] => [[b]]
      | p :: ps => (b :: p) :: ps

/-- Space or tab. -/
def isOws (b : UInt8) : Bool := b == 32 || b == 9

/-- Without white space at both ends. -/
def trimOws (s : Bytes) : Bytes := ((s.dropWhile isOws).reverse.dropWhile isOws).reverse

/-- The elements of a list. -/
def listElements (v : Bytes) : List Bytes := (splitComma v).map trimOws

/-- An element, in upper or lower case. -/
def Lists (v option : Bytes) : Prop := ∃ e ∈ listElements v, lower e = lower option

/-- The option is spelled so wherever it occurs, and no other element has it inside. -/
def SpelledAs (v option : Bytes) : Prop :=
  (∀ e ∈ listElements v, lower e = lower option → e = option) ∧ ∀ e ∈ listElements v, option <:+: e → e = option

end Webparse.Spec
