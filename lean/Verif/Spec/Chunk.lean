import Verif.Spec.Http1

/-! RFC 9112 7.1: chunks. -/

namespace Webparse.Spec

/-- `1*HEXDIG` -/
def ChunkSize (s : Bytes) : Prop := s ≠ [] ∧ ∀ b ∈ s, (hexDigit? b).isSome = true

/-- Chunk extensions (7.1.1), by what tells them from the rest of the line: they start with `;` (blanks may
come before it) and contain no line end. -/
def ChunkExt (e : Bytes) : Prop :=
  e = [] ∨ ∃ blanks r, e = blanks ++ 59 :: r ∧ (∀ b ∈ blanks, b = 32 ∨ b = 9) ∧ ∀ b ∈ r, b ≠ 13 ∧ b ≠ 10

/-- `buf` starts with the chunk `data`, whose line takes `head` bytes. -/
def StartsWithChunk (buf : Bytes) (head : Nat) (data : Bytes) : Prop :=
  ∃ size ext rest, ChunkSize size ∧ ChunkExt ext ∧ hexVal size = data.length ∧
    buf = size ++ ext ++ [13, 10] ++ data ++ [13, 10] ++ rest ∧ head = size.length + ext.length + 2

/-- A chunk with the size written in any way. -/
structure SizedChunk where
  size : Bytes
  data : Bytes

def SizedChunk.Ok (c : SizedChunk) : Prop :=
  ChunkSize c.size ∧ hexVal c.size = c.data.length ∧ c.data.length < 2 ^ 63

def SizedChunk.wire (c : SizedChunk) : Bytes := wireChunk c.size c.data

end Webparse.Spec
