import Verif.Model.Basic

/-!
# Byte classes, numerals and the primitive readers

/repo/src/helper.rs, /repo/src/macros.rs, /repo/src/url/scheme.rs.

A reader takes the unread bytes and returns its result together with the bytes then unread, also
when it fails: the buffer of the Rust code has been advanced by then.
-/

namespace Webparse

/-! ## Byte classes -/

/-- src/helper.rs:34-36 (`is_token`). -/
def isToken (b : UInt8) : Bool := b > 0x1F && b < 0x7F && b != 32

/-- src/helper.rs:40-42 (`is_status_token`). -/
def isStatusToken (b : UInt8) : Bool := b > 0x1F && b < 0x7F

/-- src/helper.rs:45-53 (`is_alpha`). -/
def isAlpha (b : UInt8) : Bool := if b ≥ 65 && b ≤ 90 then true else if b ≥ 97 && b ≤ 122 then true else false

/-- src/helper.rs:58-64 (`is_digit`). -/
def isDigit (b : UInt8) : Bool := if b ≥ 48 && b ≤ 57 then true else false

/-- src/helper.rs:67-77 (`is_hex`). -/
def isHex (b : UInt8) : Bool :=
  if b ≥ 48 && b ≤ 57 then true
  else if b ≥ 65 && b ≤ 70 then true
  else if b ≥ 97 && b ≤ 102 then true
  else false

/-- src/helper.rs:79-81, 96-97 (`to_hex`, `HEX_MAP`): an index out of range is a panic, which the only
caller (`b / 16` and `b % 16`) cannot reach; here 0. -/
def toHex (b : UInt8) : UInt8 := (asciiBytes "0123456789ABCDEF").getD b.toNat 0

/-- src/helper.rs:84-94 (`convert_hex`). -/
def convertHex (b : UInt8) : Option UInt8 :=
  if b ≥ 48 && b ≤ 57 then some (b - 48)
  else if b ≥ 65 && b ≤ 70 then some (b - 65 + 10)
  else if b ≥ 97 && b ≤ 102 then some (b - 97 + 10)
  else none

/-- src/macros.rs:13-18 (`byte_map!`). -/
def byteMap (t : List Nat) (b : UInt8) : Bool := t.getD b.toNat 0 != 0

/-- src/helper.rs:101-127 (`URI_MAP`). -/
def uriMap : List Nat := [
  0, 0, 0, 0, 0, 0, 0, 0, 0, 0, 0, 0, 0, 0, 0, 0,
  0, 0, 0, 0, 0, 0, 0, 0, 0, 0, 0, 0, 0, 0, 0, 0,
  0, 1, 1, 1, 1, 1, 1, 1, 1, 1, 1, 1, 1, 1, 1, 1,
  1, 1, 1, 1, 1, 1, 1, 1, 1, 1, 1, 1, 0, 1, 0, 1,
  1, 1, 1, 1, 1, 1, 1, 1, 1, 1, 1, 1, 1, 1, 1, 1,
  1, 1, 1, 1, 1, 1, 1, 1, 1, 1, 1, 1, 1, 1, 1, 1,
  1, 1, 1, 1, 1, 1, 1, 1, 1, 1, 1, 1, 1, 1, 1, 1,
  1, 1, 1, 1, 1, 1, 1, 1, 1, 1, 1, 1, 1, 1, 1, 0,
  0, 0, 0, 0, 0, 0, 0, 0, 0, 0, 0, 0, 0, 0, 0, 0,
  0, 0, 0, 0, 0, 0, 0, 0, 0, 0, 0, 0, 0, 0, 0, 0,
  0, 0, 0, 0, 0, 0, 0, 0, 0, 0, 0, 0, 0, 0, 0, 0,
  0, 0, 0, 0, 0, 0, 0, 0, 0, 0, 0, 0, 0, 0, 0, 0,
  0, 0, 0, 0, 0, 0, 0, 0, 0, 0, 0, 0, 0, 0, 0, 0,
  0, 0, 0, 0, 0, 0, 0, 0, 0, 0, 0, 0, 0, 0, 0, 0,
  0, 0, 0, 0, 0, 0, 0, 0, 0, 0, 0, 0, 0, 0, 0, 0,
  0, 0, 0, 0, 0, 0, 0, 0, 0, 0, 0, 0, 0, 0, 0, 0]

/-- src/helper.rs:130-132 (`is_uri_token`). -/
def isUriToken (b : UInt8) : Bool := byteMap uriMap b

/-- src/helper.rs:136-162 (`URITRANS_MAP`). -/
def uritransMap : List Nat := [
  0, 0, 0, 0, 0, 0, 0, 0, 0, 0, 0, 0, 0, 0, 0, 0,
  0, 0, 0, 0, 0, 0, 0, 0, 0, 0, 0, 0, 0, 0, 0, 0,
  0, 0, 0, 0, 0, 0, 1, 0, 0, 0, 0, 0, 0, 1, 1, 1,
  1, 1, 1, 1, 1, 1, 1, 1, 1, 1, 1, 0, 0, 1, 0, 1,
  1, 1, 1, 1, 1, 1, 1, 1, 1, 1, 1, 1, 1, 1, 1, 1,
  1, 1, 1, 1, 1, 1, 1, 1, 1, 1, 1, 0, 0, 0, 0, 1,
  0, 1, 1, 1, 1, 1, 1, 1, 1, 1, 1, 1, 1, 1, 1, 1,
  1, 1, 1, 1, 1, 1, 1, 1, 1, 1, 1, 0, 0, 0, 0, 0,
  0, 0, 0, 0, 0, 0, 0, 0, 0, 0, 0, 0, 0, 0, 0, 0,
  0, 0, 0, 0, 0, 0, 0, 0, 0, 0, 0, 0, 0, 0, 0, 0,
  0, 0, 0, 0, 0, 0, 0, 0, 0, 0, 0, 0, 0, 0, 0, 0,
  0, 0, 0, 0, 0, 0, 0, 0, 0, 0, 0, 0, 0, 0, 0, 0,
  0, 0, 0, 0, 0, 0, 0, 0, 0, 0, 0, 0, 0, 0, 0, 0,
  0, 0, 0, 0, 0, 0, 0, 0, 0, 0, 0, 0, 0, 0, 0, 0,
  0, 0, 0, 0, 0, 0, 0, 0, 0, 0, 0, 0, 0, 0, 0, 0,
  0, 0, 0, 0, 0, 0, 0, 0, 0, 0, 0, 0, 0, 0, 0, 0]

/-- src/helper.rs:165-167 (`is_not_uritrans`). -/
def isNotUritrans (b : UInt8) : Bool := byteMap uritransMap b

/-- src/helper.rs:169-186 (`HEADER_NAME_MAP`). -/
def headerNameMap : List Nat := [
  0, 0, 0, 0, 0, 0, 0, 0, 0, 0, 0, 0, 0, 0, 0, 0,
  0, 0, 0, 0, 0, 0, 0, 0, 0, 0, 0, 0, 0, 0, 0, 0,
  0, 1, 0, 1, 1, 1, 1, 1, 0, 0, 1, 1, 0, 1, 1, 0,
  1, 1, 1, 1, 1, 1, 1, 1, 1, 1, 0, 0, 0, 0, 0, 0,
  0, 1, 1, 1, 1, 1, 1, 1, 1, 1, 1, 1, 1, 1, 1, 1,
  1, 1, 1, 1, 1, 1, 1, 1, 1, 1, 1, 0, 0, 0, 1, 1,
  1, 1, 1, 1, 1, 1, 1, 1, 1, 1, 1, 1, 1, 1, 1, 1,
  1, 1, 1, 1, 1, 1, 1, 1, 1, 1, 1, 0, 1, 0, 1, 0,
  0, 0, 0, 0, 0, 0, 0, 0, 0, 0, 0, 0, 0, 0, 0, 0,
  0, 0, 0, 0, 0, 0, 0, 0, 0, 0, 0, 0, 0, 0, 0, 0,
  0, 0, 0, 0, 0, 0, 0, 0, 0, 0, 0, 0, 0, 0, 0, 0,
  0, 0, 0, 0, 0, 0, 0, 0, 0, 0, 0, 0, 0, 0, 0, 0,
  0, 0, 0, 0, 0, 0, 0, 0, 0, 0, 0, 0, 0, 0, 0, 0,
  0, 0, 0, 0, 0, 0, 0, 0, 0, 0, 0, 0, 0, 0, 0, 0,
  0, 0, 0, 0, 0, 0, 0, 0, 0, 0, 0, 0, 0, 0, 0, 0,
  0, 0, 0, 0, 0, 0, 0, 0, 0, 0, 0, 0, 0, 0, 0, 0]

/-- src/helper.rs:189-191 (`is_header_name_token`). -/
def isHeaderNameToken (b : UInt8) : Bool := byteMap headerNameMap b

/-- src/helper.rs:193-210 (`HEADER_VALUE_MAP`). -/
def headerValueMap : List Nat := [
  1, 1, 1, 1, 1, 1, 1, 1, 1, 1, 1, 1, 1, 0, 1, 1,
  1, 1, 1, 1, 1, 1, 1, 1, 1, 1, 1, 1, 1, 1, 1, 1,
  1, 1, 1, 1, 1, 1, 1, 1, 1, 1, 1, 1, 1, 1, 1, 1,
  1, 1, 1, 1, 1, 1, 1, 1, 1, 1, 1, 1, 1, 1, 1, 1,
  1, 1, 1, 1, 1, 1, 1, 1, 1, 1, 1, 1, 1, 1, 1, 1,
  1, 1, 1, 1, 1, 1, 1, 1, 1, 1, 1, 1, 1, 1, 1, 1,
  1, 1, 1, 1, 1, 1, 1, 1, 1, 1, 1, 1, 1, 1, 1, 1,
  1, 1, 1, 1, 1, 1, 1, 1, 1, 1, 1, 1, 1, 1, 1, 1,
  1, 1, 1, 1, 1, 1, 1, 1, 1, 1, 1, 1, 1, 1, 1, 1,
  1, 1, 1, 1, 1, 1, 1, 1, 1, 1, 1, 1, 1, 1, 1, 1,
  1, 1, 1, 1, 1, 1, 1, 1, 1, 1, 1, 1, 1, 1, 1, 1,
  1, 1, 1, 1, 1, 1, 1, 1, 1, 1, 1, 1, 1, 1, 1, 1,
  1, 1, 1, 1, 1, 1, 1, 1, 1, 1, 1, 1, 1, 1, 1, 1,
  1, 1, 1, 1, 1, 1, 1, 1, 1, 1, 1, 1, 1, 1, 1, 1,
  1, 1, 1, 1, 1, 1, 1, 1, 1, 1, 1, 1, 1, 1, 1, 1,
  1, 1, 1, 1, 1, 1, 1, 1, 1, 1, 1, 1, 1, 1, 1, 1]

/-- src/helper.rs:214-216 (`is_header_value_token`). -/
def isHeaderValueToken (b : UInt8) : Bool := byteMap headerValueMap b

/-- src/url/scheme.rs:34-58 (`SCHEME_MAP`). -/
def schemeMap : List Nat := [
  0, 0, 0, 0, 0, 0, 0, 0, 0, 0, 0, 0, 0, 0, 0, 0,
  0, 0, 0, 0, 0, 0, 0, 0, 0, 0, 0, 0, 0, 0, 0, 0,
  0, 0, 0, 0, 0, 0, 0, 0, 0, 0, 0, 1, 0, 1, 1, 0,
  1, 1, 1, 1, 1, 1, 1, 1, 1, 1, 0, 0, 0, 0, 0, 0,
  0, 1, 1, 1, 1, 1, 1, 1, 1, 1, 1, 1, 1, 1, 1, 1,
  1, 1, 1, 1, 1, 1, 1, 1, 1, 1, 1, 0, 0, 0, 0, 0,
  0, 1, 1, 1, 1, 1, 1, 1, 1, 1, 1, 1, 1, 1, 1, 1,
  1, 1, 1, 1, 1, 1, 1, 1, 1, 1, 1, 0, 0, 0, 0, 0,
  0, 0, 0, 0, 0, 0, 0, 0, 0, 0, 0, 0, 0, 0, 0, 0,
  0, 0, 0, 0, 0, 0, 0, 0, 0, 0, 0, 0, 0, 0, 0, 0,
  0, 0, 0, 0, 0, 0, 0, 0, 0, 0, 0, 0, 0, 0, 0, 0,
  0, 0, 0, 0, 0, 0, 0, 0, 0, 0, 0, 0, 0, 0, 0, 0,
  0, 0, 0, 0, 0, 0, 0, 0, 0, 0, 0, 0, 0, 0, 0, 0,
  0, 0, 0, 0, 0, 0, 0, 0, 0, 0, 0, 0, 0, 0, 0, 0,
  0, 0, 0, 0, 0, 0, 0, 0, 0, 0, 0, 0, 0, 0, 0, 0,
  0, 0, 0, 0, 0, 0, 0, 0, 0, 0, 0, 0, 0, 0, 0, 0]

/-- src/url/scheme.rs:59-61 (`is_scheme_token`). -/
def isSchemeToken (b : UInt8) : Bool := byteMap schemeMap b

/-! ## Numerals of the standard library (trusted: `format!`, `str::parse`, `from_str_radix`) -/

/-- For src/helper.rs:410 and src/http/value.rs:195, 202 (`format!`): a digit below 16, lower case as in `{:x}`. -/
def digitByte (d : Nat) : UInt8 := (asciiBytes "0123456789abcdef").getD d 0

/-- For src/helper.rs:410 and src/http/value.rs:195, 202 (`format!`): the numeral of `n` in a base, most significant digit first, no leading zeros (`fuel > n` digits at most). -/
def numeralAux (base : Nat) : (fuel : Nat) → Nat → Bytes
  | 0, _ => []
  | fuel + 1, n => if n < base then [digitByte n] else numeralAux base fuel (n / base) ++ [digitByte (n % base)]

/-- src/http/value.rs:195, 202: `format!("{}", n)`. -/
def decimal (n : Nat) : Bytes := numeralAux 10 (n + 1) n

/-- src/helper.rs:410: `format!("{:x}", n)`. -/
def hexLower (n : Nat) : Bytes := numeralAux 16 (n + 1) n

/-- For src/url/url.rs:229 and src/helper.rs:396 (`str::parse`, `from_str_radix`): the value of one decimal or hexadecimal digit (other bytes count 0; callers check first). -/
def digitVal (b : UInt8) : Nat := ((convertHex b).getD 0).toNat

/-- For src/url/url.rs:229 (`str::parse`): the value of a string of digits. -/
def digitsVal (base : Nat) (s : Bytes) : Nat := s.foldl (fun a b => a * base + digitVal b) 0

/-- src/url/url.rs:229, src/http/request.rs:544 and src/http/value.rs:112: `str::parse` for an unsigned type with values below `bound`: one optional `+`, then at least one
digit, and nothing else; too large is an error. -/
def parseUnsigned (bound : Nat) (s : Bytes) : Option Nat :=
  let ds := if s.head? = some 43 then s.drop 1 else s
  if ds ≠ [] ∧ ds.all isDigit = true ∧ digitsVal 10 ds < bound then some (digitsVal 10 ds) else none

/-- src/http/value.rs:137: `str::parse::<isize>`: one optional `+` or `-`, then at least one digit; out of range is an error. -/
def parseSigned (s : Bytes) : Option Int :=
  let neg := s.head? = some 45
  let ds := if s.head? = some 43 ∨ s.head? = some 45 then s.drop 1 else s
  if ds ≠ [] ∧ ds.all isDigit = true then
    let v : Int := if neg then -(digitsVal 10 ds : Int) else digitsVal 10 ds
    if -(2 ^ 63) ≤ v ∧ v < 2 ^ 63 then some v else none
  else none

/-! ## Readers -/

/-- src/macros.rs:20-28 (`next!`). -/
def nextByte : Bytes → Res UInt8 × Bytes
  | [] => (.err .partialData, [])
  | b :: r => (.ok b, r)

/-- src/macros.rs:42-50 (`peek!`). -/
def peekByte : Bytes → Res UInt8 × Bytes
  | [] => (.err .partialData, [])
  | b :: r => (.ok b, b :: r)

/-- src/macros.rs:53-64 (`expect!(buffer.next() == c => Err(e))`). -/
def expectByte (c : UInt8) (e : Error) : Bytes → Res Unit × Bytes
  | [] => (.err .partialData, [])
  | b :: r => if b = c then (.ok (), r) else (.err e, r)

/-- The `?` operator between two readers (e.g. src/helper.rs:367-390). -/
def thenRead {α β : Type} (x : Res α × Bytes) (f : α → Bytes → Res β × Bytes) : Res β × Bytes :=
  match x with
  | (.ok a, buf) => f a buf
  | (.err e, buf) => (.err e, buf)
  | (.panic, buf) => (.panic, buf)

/-- src/helper.rs:246-272 (`parse_token_by_func_empty`): scan while `func` holds (`Partial` if the input
ends first); nothing scanned is an error, or, with `empty`, skips one byte and gives "". -/
def parseTokenEmpty (func : UInt8 → Bool) (err : Error) (empty : Bool) (buf : Bytes) : Res Bytes × Bytes :=
  if buf.all func = true then (.err .partialData, buf)
  else
    let position := (buf.takeWhile func).length
    if position = 0 then
      if empty then thenRead (nextByte buf) fun _ buf => (.ok [], buf) else (.err err, buf)
    else (.ok (buf.take position), buf.drop position)

/-- src/helper.rs:275-277 (`parse_token_by_func`). -/
def parseTokenBy (func : UInt8 → Bool) (err : Error) (buf : Bytes) : Res Bytes × Bytes :=
  parseTokenEmpty func err false buf

/-- src/helper.rs:280-282 (`parse_hex`). -/
def parseHex (buf : Bytes) : Res Bytes × Bytes := parseTokenBy isHex .token buf

/-- src/helper.rs:285-287 (`parse_token`). -/
def parseToken (buf : Bytes) : Res Bytes × Bytes := parseTokenBy isToken .token buf

/-- src/helper.rs:290-292 (`parse_status_token`). -/
def parseStatusToken (buf : Bytes) : Res Bytes × Bytes := parseTokenBy isStatusToken .token buf

/-- src/helper.rs:316-329 (`skip_new_line`). -/
def skipNewLine (buf : Bytes) : Res Unit × Bytes :=
  thenRead (nextByte buf) fun b buf =>
    if b = 13 then expectByte 10 .newLine buf
    else if b = 10 then (.ok (), buf)
    else if b = 32 then (.ok (), buf)
    else (.err .partialData, buf)

/-- src/helper.rs:331-348 (`skip_empty_lines`). -/
def skipEmptyLines : Bytes → Res Unit × Bytes
  | [] => (.err .partialData, [])
  | [b] =>
    if b = 13 then (.err .partialData, [])
    else if b = 10 then (.err .partialData, [])
    else (.ok (), [b])
  | b :: c :: r =>
    if b = 13 then if c = 10 then skipEmptyLines r else (.err .newLine, r)
    else if b = 10 then skipEmptyLines (c :: r)
    else (.ok (), b :: c :: r)

/-- src/helper.rs:351-364 (`skip_spaces`). -/
def skipSpaces : Bytes → Res Unit × Bytes
  | [] => (.err .partialData, [])
  | b :: r => if b = 32 then skipSpaces r else (.ok (), b :: r)

end Webparse
