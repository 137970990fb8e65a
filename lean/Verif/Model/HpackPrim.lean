import Verif.Model.Basic
import Verif.Model.HuffmanTable

/-!
# HPACK: integers and Huffman strings

/repo/src/http/http2/hpack/{encoder,decoder,huffman}.rs
-/

namespace Webparse

/-! ## Integers -/

/-- The prefix mask.  src/http/http2/hpack/encoder.rs:155-159 and src/http/http2/hpack/decoder.rs:197-201: `0xFF` for a prefix of 8 bits,
otherwise `(1u8 << prefix_size) - 1` (wrapping). -/
def prefixMask (prefixSize : Nat) : UInt8 :=
  if prefixSize ≥ 8 then 0xFF else (1 <<< UInt8.ofNat prefixSize) - 1

/-- src/http/http2/hpack/encoder.rs:168-173: the continuation octets. -/
def encodeIntegerTail (value : Nat) : Bytes :=
  if 128 ≤ value then UInt8.ofNat (value % 128 + 128) :: encodeIntegerTail (value / 128)
  else [UInt8.ofNat value]
termination_by value

/-- src/http/http2/hpack/encoder.rs:149-175 (`Encoder::encode_integer_into`): the octets appended to the writer. -/
def encodeInteger (value prefixSize : Nat) (leadingBits : UInt8) : Bytes :=
  let mask := prefixMask prefixSize
  let leadingBits := leadingBits &&& ~~~mask
  if value < mask.toNat then [leadingBits ||| UInt8.ofNat value]
  else (leadingBits ||| mask) :: encodeIntegerTail (value - mask.toNat)

/-- src/http/http2/hpack/decoder.rs:208-229: the loop over the continuation octets.  `octet_limit` is 5. -/
def decodeIntegerTail : Bytes → (value m total : Nat) → Res (Nat × Nat)
  | [], _, _, _ => .err .intNotEnoughOctets
  | b :: bs, value, m, total =>
    let total := total + 1
    let value := value + (b &&& 127).toNat * 2 ^ m
    let m := m + 7
    if b &&& 128 ≠ 128 then .ok (value, total)
    else if total = 5 then .err .intTooManyOctets
    else decodeIntegerTail bs value m total

/-- src/http/http2/hpack/decoder.rs:184-236 (`Decoder::decode_integer`): value and number of octets used. -/
def decodeInteger (buf : Bytes) (prefixSize : Nat) : Res (Nat × Nat) :=
  if prefixSize < 1 ∨ prefixSize > 8 then .err .intInvalidPrefix
  else match buf with
    | [] => .err .intNotEnoughOctets
    | b :: rest =>
      let mask := prefixMask prefixSize
      let value := (b &&& mask).toNat
      if value < mask.toNat then .ok (value, 1)
      else decodeIntegerTail rest value 0 1

/-! ## Huffman strings -/

/-- src/http/http2/hpack/huffman.rs:162-171, 193-202: the inner `while bits_left <= 32` loop: bytes pushed, then the
new `bits` (u64, the shift drops the top bits) and `bits_left`. -/
def huffEmit (bits bitsLeft : Nat) : Bytes × Nat × Nat :=
  if bitsLeft ≤ 32 then
    let r := huffEmit (bits * 256 % 2 ^ 64) (bitsLeft + 8)
    (UInt8.ofNat (bits / 2 ^ 32) :: r.1, r.2)
  else ([], bits, bitsLeft)
termination_by 40 - bitsLeft

/-- src/http/http2/hpack/huffman.rs:155-179 after `result`/`bits`/`bits_left` initialisation: the loop over the source
bytes and the final padding.  `bits_left - nbits` cannot underflow: `bits_left ≥ 33` at the top of
the loop and `nbits ≤ 30` (lemmas `huffEmit_left` and `huff_len_le`). -/
def huffEncodeLoop : Bytes → (bits bitsLeft : Nat) → Bytes
  | [], bits, bitsLeft =>
    if bitsLeft ≠ 40 then
      let bits := bits ||| (2 ^ bitsLeft - 1)
      [UInt8.ofNat (bits / 2 ^ 32)]
    else []
  | b :: src, bits, bitsLeft =>
    let (code, nbits) := huffmanCodeArray.getD b.toNat (0, 0)
    let bits := bits ||| code * 2 ^ (bitsLeft - nbits)
    let bitsLeft := bitsLeft - nbits
    let e := huffEmit bits bitsLeft
    e.1 ++ huffEncodeLoop src e.2.1 e.2.2

/-- src/http/http2/hpack/huffman.rs:155-179 (`HuffmanEncoder::encode`). -/
def huffEncode (src : Bytes) : Bytes := huffEncodeLoop src 0 40

/-- src/http/http2/hpack/huffman.rs:181-210 (`HuffmanEncoder::encode_lower`): the same loop with `A`-`Z` replaced by
`a`-`z` before the table lookup. -/
def huffEncodeLowerLoop : Bytes → (bits bitsLeft : Nat) → Bytes
  | [], bits, bitsLeft =>
    if bitsLeft ≠ 40 then
      let bits := bits ||| (2 ^ bitsLeft - 1)
      [UInt8.ofNat (bits / 2 ^ 32)]
    else []
  | b :: src, bits, bitsLeft =>
    let b := if b ≥ 65 && b ≤ 90 then b + 32 else b
    let (code, nbits) := huffmanCodeArray.getD b.toNat (0, 0)
    let bits := bits ||| code * 2 ^ (bitsLeft - nbits)
    let bitsLeft := bitsLeft - nbits
    let e := huffEmit bits bitsLeft
    e.1 ++ huffEncodeLowerLoop src e.2.1 e.2.2

/-- src/http/http2/hpack/huffman.rs:181-210. -/
def huffEncodeLower (src : Bytes) : Bytes := huffEncodeLowerLoop src 0 40

/-- src/http/http2/hpack/huffman.rs:479-487 (`HUFFMAN_CODE_MAP`): later entries override earlier ones, and the symbol
is truncated to a byte (`symbol as u8`), so EOS (256) becomes 0. -/
def huffLookup (code len : Nat) : Option UInt8 :=
  (huffmanCodeArray.zipIdx.reverse.find? fun e => e.1 == (code, len)).map
    fun e => UInt8.ofNat e.2

/-- src/http/http2/hpack/huffman.rs:101-148 (`BitIterator`): the bits of a byte, most significant first. -/
def byteBits (b : UInt8) : List Bool :=
  [7, 6, 5, 4, 3, 2, 1, 0].map fun i : UInt8 => b &&& (1 <<< i) == 1 <<< i

/-- src/http/http2/hpack/huffman.rs:101-148: all bits of the buffer in the order the iterator yields them. -/
def bytesBits (bs : Bytes) : List Bool := bs.flatMap byteBits

/-- src/http/http2/hpack/huffman.rs:49-70: decoder state `current` (u32), `current_len` (u8), `all_true`, `result`. -/
structure HuffState where
  current : Nat := 0
  currentLen : Nat := 0
  allTrue : Bool := true
  result : Bytes := []
  deriving DecidableEq, Repr

/-- src/http/http2/hpack/huffman.rs:54-74: one bit.  `current_len += 1` overflows (panics) at 255; `current <<= 1`
drops the top bit of the u32. -/
def huffDecodeBit (s : HuffState) (b : Bool) : Res HuffState :=
  if s.currentLen = 255 then .panic
  else
    let currentLen := s.currentLen + 1
    let current := s.current * 2 % 2 ^ 32
    let current := if b then current ||| 1 else current
    let allTrue := if b then s.allTrue else false
    match huffLookup current currentLen with
    | some v => .ok { current := 0, currentLen := 0, allTrue := true, result := s.result ++ [v] }
    | none => .ok { current, currentLen, allTrue, result := s.result }

/-- src/http/http2/hpack/huffman.rs:54-74: the loop over the bits. -/
def huffDecodeBits : HuffState → List Bool → Res HuffState
  | s, [] => .ok s
  | s, b :: bs => do
    let s ← huffDecodeBit s b
    huffDecodeBits s bs

/-- src/http/http2/hpack/huffman.rs:48-89 (`HuffmanDecoder::decode`). -/
def huffDecode (buf : Bytes) : Res Bytes := do
  let s ← huffDecodeBits {} (bytesBits buf)
  if s.currentLen > 7 then .err .huffPaddingTooLarge
  else if !s.allTrue then .err .huffPaddingTooLarge
  else .ok s.result

end Webparse
