import Verif.Spec.Frame
import Verif.Spec.Huffman
import Verif.Spec.HpackState

/-!
# How long a header block may get

The size of a header list is that of RFC 9113 section 6.5.2 (`headerListSize` in Spec/Frame.lean): name, value and 32 for each field.
-/

namespace Webparse.Spec

/-- The number of digits of a number written with seven bits in each. -/
def digits128 (v : Nat) : Nat := if v < 128 then 1 else digits128 (v / 128) + 1
termination_by v

/-- RFC 7541 section 5.1: the octets that a number takes behind a prefix of `p` bits. -/
def integerOctets (p v : Nat) : Nat := if v < 2 ^ p - 1 then 1 else 1 + digits128 (v - (2 ^ p - 1))

/-- The bits of a text in the code of RFC 7541 Appendix B. -/
def huffmanBits (s : Bytes) : Nat := (codesBits (byteSyms s)).length

/-- The octets that these take. -/
def huffmanOctets (s : Bytes) : Nat := (huffmanBits s + 7) / 8

/-- Lengths that there can be in memory (an allocation is less than `2 ^ 63`). -/
def InMemory (hs : List Header) : Prop := ∀ h ∈ hs, h.1.length + h.2.length < 2 ^ 63

end Webparse.Spec
