import Verif.Model.Basic
import Verif.Model.HuffmanTable

/-!
# RFC 7541, section 5.2: Huffman coding

Only the code table (RFC 7541 Appendix B) is shared with the model.
-/

namespace Webparse.Spec

/-- The `w` low bits of `n`, most significant first. -/
def toBits : Nat → Nat → List Bool
  | 0, _ => []
  | w + 1, n => (n / 2 ^ w % 2 == 1) :: toBits w n

/-- All bits of a byte string, most significant bit of each byte first. -/
def bitsOf (bs : Bytes) : List Bool := bs.flatMap fun b => toBits 8 b.toNat

/-- The code word of a symbol (0..255 bytes, 256 EOS) as bits. -/
def codeBits (sym : Nat) : List Bool :=
  let e := huffmanCodeArray.getD sym (0, 0)
  toBits e.2 e.1

/-- The code words of a list of symbols one after the other. -/
def codesBits (syms : List Nat) : List Bool := syms.flatMap codeBits

/-- `bs` is the Huffman encoding of the symbols: code words, then fewer than eight one bits up to
the byte boundary. -/
def IsHuffmanOf (bs : Bytes) (syms : List Nat) : Prop :=
  ∃ k, k < 8 ∧ bitsOf bs = codesBits syms ++ List.replicate k true

/-- The byte strings are sequences of the symbols 0..255. -/
def byteSyms (s : Bytes) : List Nat := s.map UInt8.toNat

/-- The canonical code for a list of code lengths: code words are given out in order of
increasing length, within one length in order of the symbol number.  This is how RFC 7541
describes the table. -/
def canonicalCode (lens : List Nat) (sym : Nat) : Nat :=
  let l := lens.getD sym 0
  -- all code words of shorter length, scaled to length `l`, come before
  let shorter := (lens.filter (· < l)).foldl (fun a k => a + 2 ^ (l - k)) 0
  let before := ((lens.take sym).filter (· == l)).length
  shorter + before

end Webparse.Spec
