import Verif.Spec.Grammar

/-! # The connection preface of HTTP/2 -/

namespace Webparse.Spec

/-- RFC 9113 3.4: the 24 octets a client sends first, `PRI * HTTP/2.0`, an empty line, `SM` and an empty line. -/
def preface : Bytes :=
  [0x50, 0x52, 0x49, 0x20, 0x2a, 0x20, 0x48, 0x54, 0x54, 0x50, 0x2f, 0x32, 0x2e, 0x30, 0x0d, 0x0a, 0x0d, 0x0a, 0x53, 0x4d, 0x0d, 0x0a, 0x0d, 0x0a]

/-- A word: printable characters without spaces. -/
def IsWord (w : Bytes) : Prop := w ≠ [] ∧ ∀ b ∈ w, 32 < b.toNat ∧ b.toNat < 127

/-- A character that ends a word. -/
def EndsWord (c : UInt8) : Prop := ¬(32 < c.toNat ∧ c.toNat < 127)

end Webparse.Spec
