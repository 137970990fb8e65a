import Verif.Model.HpackPrim
import Verif.Model.Utf8
import Verif.Model.Name

/-!
# HPACK: header table, encoder, decoder

/repo/src/http/http2/hpack/{encoder,decoder,header_index}.rs
-/

namespace Webparse

/-! ## The header table -/

/-- src/http/http2/hpack/header_index.rs:19, `(HeaderName, HeaderValue)`: a header field, name and value bytes. -/
abbrev Header := Bytes × Bytes

/-- src/http/http2/hpack/header_index.rs:172-234 (`STATIC_TABLE_RAW`), transcribed mechanically. -/
def staticTableRaw : List (String × String) := [
  (":authority", ""),
  (":method", "GET"),
  (":method", "POST"),
  (":path", "/"),
  (":path", "/index.html"),
  (":scheme", "http"),
  (":scheme", "https"),
  (":status", "200"),
  (":status", "204"),
  (":status", "206"),
  (":status", "304"),
  (":status", "400"),
  (":status", "404"),
  (":status", "500"),
  ("accept-", ""),
  ("accept-encoding", "gzip, deflate"),
  ("accept-language", ""),
  ("accept-ranges", ""),
  ("accept", ""),
  ("access-control-allow-origin", ""),
  ("age", ""),
  ("allow", ""),
  ("authorization", ""),
  ("cache-control", ""),
  ("content-disposition", ""),
  ("content-encoding", ""),
  ("content-language", ""),
  ("content-length", ""),
  ("content-location", ""),
  ("content-range", ""),
  ("content-type", ""),
  ("cookie", ""),
  ("date", ""),
  ("etag", ""),
  ("expect", ""),
  ("expires", ""),
  ("from", ""),
  ("host", ""),
  ("if-match", ""),
  ("if-modified-since", ""),
  ("if-none-match", ""),
  ("if-range", ""),
  ("if-unmodified-since", ""),
  ("last-modified", ""),
  ("link", ""),
  ("location", ""),
  ("max-forwards", ""),
  ("proxy-authenticate", ""),
  ("proxy-authorization", ""),
  ("range", ""),
  ("referer", ""),
  ("refresh", ""),
  ("retry-after", ""),
  ("server", ""),
  ("set-cookie", ""),
  ("strict-transport-security", ""),
  ("transfer-encoding", ""),
  ("user-agent", ""),
  ("vary", ""),
  ("via", ""),
  ("www-authenticate", "")]

/-- src/http/http2/hpack/header_index.rs:237-246 (`STATIC_TABLE`). -/
def staticTable : List Header := staticTableRaw.map fun e => (asciiBytes e.1, asciiBytes e.2)

/-- src/http/http2/hpack/header_index.rs:17-22 (`HeaderIndex`): `table` is newest first (`push_front`). -/
structure HeaderIndex where
  table : List Header := []
  size : Nat := 0
  maxSize : Nat := 4096
  deriving DecidableEq, Repr

/-- src/http/http2/hpack/header_index.rs:124, 147: the accounted size of an entry. -/
def entrySize (h : Header) : Nat := h.1.length + h.2.length + 32

/-- src/http/http2/hpack/header_index.rs:136-151 (`consolidate_table`).  Running out of entries, or subtracting more
than the recorded size, is a panic. -/
def consolidate (t : HeaderIndex) : Res HeaderIndex :=
  if t.size > t.maxSize then
    match hl : t.table.getLast? with
    | none => .panic
    | some last =>
      if t.size < entrySize last then .panic
      else consolidate { t with size := t.size - entrySize last, table := t.table.dropLast }
  else .ok t
termination_by t.table.length
decreasing_by
  have : t.table ≠ [] := by intro h'; simp [h'] at hl
  have := List.length_pos_iff.mpr this
  simp; omega

/-- src/http/http2/hpack/header_index.rs:123-131 (`add_header`). -/
def addHeader (t : HeaderIndex) (h : Header) : Res HeaderIndex :=
  consolidate { t with size := t.size + entrySize h, table := h :: t.table }

/-- src/http/http2/hpack/header_index.rs:112-116 (`set_max_table_size`). -/
def setMaxTableSize (t : HeaderIndex) (newMax : Nat) : Res HeaderIndex :=
  consolidate { t with maxSize := newMax }

/-- src/http/http2/hpack/header_index.rs:54-72 (`get_from_index`). -/
def getFromIndex (t : HeaderIndex) (index : Nat) : Option Header :=
  if index = 0 then none
  else
    let realIndex := index - 1
    if realIndex < staticTable.length then staticTable[realIndex]?
    else
      let dynamicIndex := realIndex - staticTable.length
      if dynamicIndex < t.table.length then t.table[dynamicIndex]? else none

/-- src/http/http2/hpack/header_index.rs:247-263 (`STATIC_HASH[name]`): the inner map, as the list of `(value, index)`
pairs inserted for this name.  A key is found when it hashes equally (`Hash for HeaderName`) and
compares equally (`PartialEq for HeaderName`). -/
def staticHash (name : Bytes) : List (Bytes × Nat) :=
  (staticTable.zipIdx.filter fun e => nameHashInput e.1.1 == nameHashInput name && nameEq e.1.1 name).map
    fun e => (e.1.2, e.2 + 1)

/-- src/http/http2/hpack/header_index.rs:77-80, inner map lookup: the last inserted pair for the value. -/
def staticHashFind (v : List (Bytes × Nat)) (value : Bytes) : Option Nat :=
  (v.reverse.find? fun e => e.1 == value).map (·.2)

/-- src/http/http2/hpack/header_index.rs:74-90 (`find_header`). -/
def findHeader (t : HeaderIndex) (h : Header) : Option (Nat × Bool) :=
  let v := staticHash h.1
  if v ≠ [] then
    match staticHashFind v h.2 with
    | some i => some (i, true)
    | none =>
      match staticHashFind v [] with
      | some i => some (i, false)
      | none => none
  else
    match t.table.findIdx? (fun e => nameEq e.1 h.1 && e.2 == h.2) with
    | some idx => some (idx + 1 + staticTable.length, true)
    | none => none

/-! ## Encoder -/

/-- src/http/http2/hpack/encoder.rs:119-128 (`encode_string_literal`). -/
def encodeStringLiteral (s : Bytes) : Bytes :=
  let value := huffEncode s
  encodeInteger value.length 7 0x80 ++ value

/-- src/http/http2/hpack/encoder.rs:108-117 (`encode_string_literal_lower`). -/
def encodeStringLiteralLower (s : Bytes) : Bytes :=
  let value := huffEncodeLower s
  encodeInteger value.length 7 0x80 ++ value

/-- src/http/http2/hpack/encoder.rs:94-106 (`encode_literal`, called with `should_index = true`). -/
def encodeLiteral (h : Header) (shouldIndex : Bool) : Bytes :=
  let mask : UInt8 := if shouldIndex then 0x40 else 0x0
  [mask] ++ encodeStringLiteralLower h.1 ++ encodeStringLiteral h.2

/-- src/http/http2/hpack/encoder.rs:130-142 (`encode_indexed_name`). -/
def encodeIndexedName (index : Nat) (value : Bytes) (shouldIndex : Bool) : Bytes :=
  let (mask, pre) : UInt8 × Nat := if shouldIndex then (0x40, 6) else (0x0, 4)
  encodeInteger index pre mask ++ encodeStringLiteral value

/-- src/http/http2/hpack/encoder.rs:144-147 (`encode_indexed`). -/
def encodeIndexed (index : Nat) : Bytes := encodeInteger index 7 0x80

/-- src/http/http2/hpack/encoder.rs:65-92 (`encode_header_into`): bytes appended and the new table. -/
def encodeHeader (t : HeaderIndex) (h : Header) : Res (Bytes × HeaderIndex) :=
  match findHeader t h with
  | none => do
    let out := encodeLiteral h true
    let t ← addHeader t h
    .ok (out, t)
  | some (index, false) => do
    let out := encodeIndexedName index h.2 true
    let t ← addHeader t h
    .ok (out, t)
  | some (index, true) => .ok (encodeIndexed index, t)

/-- src/http/http2/hpack/encoder.rs:42-63 (`encode`, `encode_into`). -/
def encodeHeaders (t : HeaderIndex) : List Header → Res (Bytes × HeaderIndex)
  | [] => .ok ([], t)
  | h :: hs => do
    let (b, t) ← encodeHeader t h
    let (bs, t) ← encodeHeaders t hs
    .ok (b ++ bs, t)

/-! ## Decoder -/

/-- src/http/http2/hpack/decoder.rs:238-264 (`decode_string`). -/
def decodeString (buf : Bytes) : Res (Bytes × Nat) := do
  let (len, consumed) ← decodeInteger buf 7
  if consumed + len > buf.length then .err .strNotEnoughOctets
  else
    let raw := (buf.drop consumed).take len
    if (buf.headD 0) &&& 128 = 128 then do
      let decoded ← huffDecode raw
      .ok (decoded, consumed + len)
    else .ok (raw, consumed + len)

/-- src/http/name.rs:168-177 (`HeaderName::from_bytes`): always `Some`; standard names keep their bytes
(they are ASCII), other names go through `from_utf8_lossy`. -/
def headerNameFromBytes (b : Bytes) : Bytes := utf8Lossy b

/-- src/http/http2/hpack/decoder.rs:274-290 (first half of `decode_literal`): the name, literal or from the table, and
the octets consumed so far. -/
def decodeLiteralName (t : HeaderIndex) (buf : Bytes) (tableIndex consumed : Nat) :
    Res (Bytes × Nat) :=
  if tableIndex = 0 then do
    let (name, nameLen) ← decodeString (buf.drop consumed)
    .ok (headerNameFromBytes name, consumed + nameLen)
  else do
    let (n, _) ← Res.ofOption (getFromIndex t tableIndex) .headerIndexOutOfBounds
    .ok (n, consumed)

/-- src/http/http2/hpack/decoder.rs:266-297 (`decode_literal`). -/
def decodeLiteral (t : HeaderIndex) (buf : Bytes) (index : Bool) : Res (Header × Nat) := do
  let pre := if index then 6 else 4
  let (tableIndex, consumed) ← decodeInteger buf pre
  let (name, consumed) ← decodeLiteralName t buf tableIndex consumed
  let (value, valueLen) ← decodeString (buf.drop consumed)
  .ok ((name, value), consumed + valueLen)

/-- src/http/http2/hpack/decoder.rs:299-310 (`decode_indexed`): only the low seven bits of the first octet. -/
def decodeIndexed (t : HeaderIndex) (octet : UInt8) : Res (Header × Nat) := do
  let h ← Res.ofOption (getFromIndex t (octet &&& 0x7f).toNat) .headerIndexOutOfBounds
  .ok (h, 1)

/-- src/http/http2/hpack/decoder.rs:25-31 (`FieldRepresentation`). -/
inductive FieldRep where
  | indexed | incremental | sizeUpdate | neverIndexed | withoutIndexing
  deriving DecidableEq, Repr

/-- src/http/http2/hpack/decoder.rs:33-52 (`FieldRepresentation::new`). -/
def fieldRep (octet : UInt8) : FieldRep :=
  if octet &&& 128 = 128 then .indexed
  else if octet &&& 64 = 64 then .incremental
  else if octet &&& 32 = 32 then .sizeUpdate
  else if octet &&& 16 = 16 then .neverIndexed
  else .withoutIndexing

/-- src/http/http2/hpack/decoder.rs:119-172: one round of the `while buf.has_remaining()` loop, on a non-empty buffer
starting with `octet`: headers passed to the callback, new table, bytes consumed.
A size update consumes 0 bytes (src/http/http2/hpack/decoder.rs:165-169). -/
def decodeStep (t : HeaderIndex) (octet : UInt8) (rest : Bytes) :
    Res (List Header × HeaderIndex × Nat) :=
  match fieldRep octet with
  | .indexed => do
    let (h, consumed) ← decodeIndexed t octet
    .ok ([h], t, consumed)
  | .incremental => do
    let (h, consumed) ← decodeLiteral t (octet :: rest) true
    let t ← addHeader t h
    .ok ([h], t, consumed)
  | .withoutIndexing => do
    let (h, consumed) ← decodeLiteral t (octet :: rest) false
    .ok ([h], t, consumed)
  | .neverIndexed => do
    let (h, consumed) ← decodeLiteral t (octet :: rest) false
    .ok ([h], t, consumed)
  | .sizeUpdate => .ok ([], t, 0)

/-- src/http/http2/hpack/decoder.rs:107-175 (`decode`, `decode_with_cb`) run for at most `fuel` rounds; `none` means
that the loop has not ended yet.  On an error the headers already passed to the callback and the table changes made so far are not
returned here; `decodeSoFar` (`Model/AfterError.lean`) has them. -/
def decodeRun : (fuel : Nat) → HeaderIndex → Bytes → Option (Res (List Header × HeaderIndex))
  | _, t, [] => some (.ok ([], t))
  | 0, _, _ :: _ => none
  | fuel + 1, t, octet :: rest =>
    match decodeStep t octet rest with
    | .err e => some (.err e)
    | .panic => some .panic
    | .ok (hs, t, consumed) =>
      match decodeRun fuel t ((octet :: rest).drop consumed) with
      | none => none
      | some (.ok (hs', t)) => some (.ok (hs ++ hs', t))
      | some (.err e) => some (.err e)
      | some .panic => some .panic

/-- src/http/http2/hpack/decoder.rs:107-113 (`Decoder::decode`), run for as many rounds as there are bytes; a run that
ends at all ends within that many rounds (`decodeRun_length`). -/
def decode (t : HeaderIndex) (buf : Bytes) : Option (Res (List Header × HeaderIndex)) :=
  decodeRun buf.length t buf

end Webparse
