import Verif.Model.Basic

/-! RFC 3629, written without the model of the standard library: the scalar values and their bytes. -/

namespace Webparse.Spec

/-- RFC 3629 section 3: the code points that UTF-8 encodes. -/
def IsScalar (c : Nat) : Prop := c < 0x110000 ∧ ¬ (0xD800 ≤ c ∧ c ≤ 0xDFFF)

/-- RFC 3629 section 3: the bytes of a code point. -/
def encodeScalar (c : Nat) : Bytes :=
  if c < 0x80 then [UInt8.ofNat c]
  else if c < 0x800 then [UInt8.ofNat (0xC0 + c / 64), UInt8.ofNat (0x80 + c % 64)]
  else if c < 0x10000 then
    [UInt8.ofNat (0xE0 + c / 4096), UInt8.ofNat (0x80 + c / 64 % 64), UInt8.ofNat (0x80 + c % 64)]
  else
    [UInt8.ofNat (0xF0 + c / 262144), UInt8.ofNat (0x80 + c / 4096 % 64), UInt8.ofNat (0x80 + c / 64 % 64), UInt8.ofNat (0x80 + c % 64)]

/-- The bytes are UTF-8: the code points of a text, one after the other. -/
def IsUtf8 (b : Bytes) : Prop := ∃ cs : List Nat, (∀ c ∈ cs, IsScalar c) ∧ b = cs.flatMap encodeScalar

end Webparse.Spec
