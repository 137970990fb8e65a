import Verif.Spec.Url

/-! # One spelling of percent-encoded text -/

namespace Webparse.Spec

/-- The digits of RFC 3986 2.1 in upper case. -/
def isUpperHex (x : UInt8) : Bool := (asciiBytes "0123456789ABCDEF").contains x

/-- Text in which the characters the encoder keeps stand for themselves and all others are escaped with digits in upper
case. -/
inductive Canonical : Bytes → Prop
  | nil : Canonical []
  | kept {b : UInt8} {s : Bytes} : isKept b = true → Canonical s → Canonical (b :: s)
  | escape {x y : UInt8} {t u : Nat} {s : Bytes} : isUpperHex x = true → isUpperHex y = true → hexDigit? x = some t → hexDigit? y = some u →
      isKept (UInt8.ofNat (16 * t + u)) = false → Canonical s → Canonical (37 :: x :: y :: s)

/-- User information as it is written. -/
def userPart : Option (Bytes × Bytes) → Bytes
  | some (n, w) => n ++ 58 :: w ++ [64]
  | none => []

/-- A port as it is written. -/
def portPart : Option Bytes → Bytes
  | some p => 58 :: p
  | none => []

/-- The port that `http` and `https` imply is not written; any other is written as a numeral without leading zeros. -/
def PortCanonical (s : Scheme) (n : Nat) : Option Bytes → Prop
  | none => (s = .http ∧ n = 80) ∨ (s = .https ∧ n = 443)
  | some p => ¬((s = .http ∧ n = 80) ∨ (s = .https ∧ n = 443)) ∧ IsNumeral p n ∧ (p.head? ≠ some 48 ∨ p = [48])

end Webparse.Spec
