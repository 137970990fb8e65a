import Verif.Model.Http1
import Verif.Spec.HeaderMap

/-! Notions used to state properties of HTTP/1 messages. -/

namespace Webparse.Spec

/-- A header that HTTP/1 text can carry unchanged: a name of token characters (RFC 9110 5.6.2), a
value without CR and without a leading space. -/
structure CleanHeader (h : Header) : Prop where
  name_ne : h.1 ≠ []
  name : ∀ b ∈ h.1, isTchar b = true
  value : (13 : UInt8) ∉ h.2
  lead : h.2.head? ≠ some 32

/-- A header whose name is a token and whose value has no CR. -/
structure LineHeader (h : Header) : Prop where
  name_ne : h.1 ≠ []
  name : ∀ b ∈ h.1, isTchar b = true
  value : (13 : UInt8) ∉ h.2

/-- A value without its leading spaces. -/
def trimLeft : Bytes → Bytes
  | [] => []
  | b :: r => if b = 32 then trimLeft r else b :: r

/-- The headers without leading spaces in values. -/
def trimValues (m : HeaderMap) : HeaderMap := m.map fun e => (e.1, trimLeft e.2)

/-! ## Numbers -/

/-- The value of a decimal numeral. -/
def decVal : Bytes → Nat
  | [] => 0
  | b :: r => (b.toNat - 48) * 10 ^ r.length + decVal r

/-- Decimal digits. -/
def AllDigits (s : Bytes) : Prop := ∀ b ∈ s, 48 ≤ b.toNat ∧ b.toNat ≤ 57

/-- `s` is a decimal numeral for `n`. -/
def IsNumeral (s : Bytes) (n : Nat) : Prop := s ≠ [] ∧ AllDigits s ∧ decVal s = n

/-- `s` is a decimal numeral, with a minus sign or without, for `n`. -/
def IsSignedNumeral (s : Bytes) (n : Int) : Prop :=
  (∃ k, IsNumeral s k ∧ n = k) ∨ ∃ t k, s = 45 :: t ∧ IsNumeral t k ∧ n = -(k : Int)

/-- The value of one hexadecimal digit. -/
def hexDigit? (b : UInt8) : Option Nat :=
  if 48 ≤ b.toNat ∧ b.toNat ≤ 57 then some (b.toNat - 48)
  else if 65 ≤ b.toNat ∧ b.toNat ≤ 70 then some (b.toNat - 55)
  else if 97 ≤ b.toNat ∧ b.toNat ≤ 102 then some (b.toNat - 87)
  else none

/-- The value of a hexadecimal numeral. -/
def hexVal : Bytes → Nat
  | [] => 0
  | b :: r => (hexDigit? b).getD 0 * 16 ^ r.length + hexVal r

/-! ## Chunks -/

/-- A chunk of RFC 9112 7.1 without extensions, the length written as `len`. -/
def wireChunk (len data : Bytes) : Bytes := len ++ [13, 10] ++ data ++ [13, 10]

/-- The reader of a chunked body as a caller uses `parse_chunk_data`: take the data out of each chunk
at the reported offsets, skip the line end, until the chunk of length 0.  `fuel` bounds the number of
chunks. -/
def readChunks : (fuel : Nat) → Bytes → Res (List Bytes × Bytes)
  | 0, _ => .err .partialData
  | fuel + 1, buf => do
    let (offset, len) ← parseChunkData buf
    let data := (buf.drop offset).take len
    let rest := buf.drop (offset + len + 2)
    if len = 0 then .ok ([], rest)
    else do
      let (ds, rest) ← readChunks fuel rest
      .ok (data :: ds, rest)

/-! ## Names -/

/-- The registered methods of RFC 9110 and RFC 5789. -/
def methodNames : List (Method × String) :=
  [(.options, "OPTIONS"), (.get, "GET"), (.post, "POST"), (.put, "PUT"), (.delete, "DELETE"), (.head, "HEAD"),
    (.trace, "TRACE"), (.connect, "CONNECT"), (.patch, "PATCH")]

/-- The version names. -/
def versionNames : List (Version × String) :=
  [(.http10, "HTTP/1.0"), (.http11, "HTTP/1.1"), (.http2, "HTTP/2"), (.http3, "HTTP/3")]

end Webparse.Spec
