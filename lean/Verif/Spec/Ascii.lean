import Verif.Model.Basic

/-! ASCII case, written independently of the code. -/

namespace Webparse.Spec

/-- ASCII lower case of one byte. -/
def lowerByte (b : UInt8) : UInt8 := if 65 ≤ b.toNat ∧ b.toNat ≤ 90 then UInt8.ofNat (b.toNat + 32) else b

/-- ASCII lower case of a byte string. -/
def lower (s : Bytes) : Bytes := s.map lowerByte

end Webparse.Spec

namespace Webparse.Spec

/-- RFC 9110 `tchar`: the characters of a header name. -/
def isTchar (b : UInt8) : Bool :=
  (asciiBytes "!#$%&'*+-.^_`|~0123456789abcdefghijklmnopqrstuvwxyzABCDEFGHIJKLMNOPQRSTUVWXYZ").contains b

/-- Characters of lower-case header names and pseudo-header names, `~` excepted. -/
def isPlainNameByte (b : UInt8) : Bool :=
  (isTchar b || b == 58) && !(65 ≤ b.toNat && b.toNat ≤ 90) && b != 126

/-- A lower-case (pseudo-)header name without `~`. -/
def IsPlainName (n : Bytes) : Prop := ∀ b ∈ n, isPlainNameByte b = true

end Webparse.Spec
