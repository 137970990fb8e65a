import Verif.Model.HeaderMap
import Verif.Model.Http1

/-!
# Header names and values in their two variants

/repo/src/http/name.rs, /repo/src/http/value.rs, /repo/src/http/header.rs.  Elsewhere a name is its bytes and
so is a value; here `Stand` (a static string) and `Value` (owned) are kept apart, as in the code.
-/

namespace Webparse

/-- src/http/name.rs:22-26 (`HeaderName`). -/
inductive HeaderName where
  | stand (s : Bytes)
  | value (s : Bytes)
  deriving DecidableEq, Repr

/-- src/http/name.rs:126-131 (`as_bytes`); `name` (119-124), `encode` (133-138) and `Display` (147-151) give
the same bytes. -/
def HeaderName.asBytes : HeaderName → Bytes
  | .stand s => s
  | .value s => s

/-- src/http/name.rs:104-109 (`bytes_len`). -/
def HeaderName.bytesLen : HeaderName → Nat
  | .stand s => s.length
  | .value s => s.length

/-- src/http/name.rs:112-117 (`is_spec`). -/
def HeaderName.isSpec : HeaderName → Bool
  | .stand s => List.isPrefixOf [58] s
  | .value s => List.isPrefixOf [58] s

/-- src/http/name.rs:46-52 (`PartialEq`). -/
def HeaderName.eq (a b : HeaderName) : Bool := nameEq a.asBytes b.asBytes

/-- src/http/name.rs:56-72 (`Hash`): the bytes fed to the hasher. -/
def HeaderName.hashInput : HeaderName → Bytes
  | .stand s => nameHashInput s
  | .value s => nameHashInput s

/-- src/http/value.rs:45-50 (`as_bytes`); `encode` (73-78) appends the same bytes. -/
def HeaderValue.asBytes : HeaderValue → Bytes
  | .stand s => s
  | .value v => v

/-- src/http/value.rs:38-43 (`bytes_len`). -/
def HeaderValue.bytesLen : HeaderValue → Nat
  | .stand s => s.length
  | .value v => v.length

/-- src/http/value.rs:52-57 (`as_string`): a static string is one already. -/
def HeaderValue.asString : HeaderValue → Option Bytes
  | .stand s => some s
  | .value v => if utf8Valid v then some v else none

/-- src/http/value.rs:57-71 (`push`). -/
def HeaderValue.push (a b : HeaderValue) : HeaderValue :=
  match a with
  | .stand s => .value (s ++ [59] ++ b.asBytes)
  | .value v => .value (v ++ [59] ++ b.asBytes)

/-- src/http/value.rs:80-82 (`contains`). -/
def HeaderValue.contains (v : HeaderValue) (bytes : Bytes) : Bool := containsBytes v.asBytes bytes

/-- src/http/value.rs:85-96 (`Hash`): the bytes fed to the hasher (`[u8]` and `Vec<u8>` are hashed alike). -/
def HeaderValue.hashInput : HeaderValue → Bytes
  | .stand s => s
  | .value v => v

/-- src/http/value.rs:98-105 (`Display`). -/
def HeaderValue.display : HeaderValue → Bytes
  | .stand s => s
  | .value v => utf8Lossy v

/-- src/http/value.rs:166-175 (`TryInto<String>`), which never fails. -/
def HeaderValue.toText : HeaderValue → Bytes
  | .stand s => s
  | .value v => utf8Lossy v

/-- src/http/value.rs:209-218 (`PartialEq`). -/
def HeaderValue.eq : HeaderValue → HeaderValue → Bool
  | .stand l, .stand r => l == r
  | .value l, .value r => l == r
  | .stand l, .value r => l == r
  | .value l, .stand r => l == r

/-- src/http/header.rs:23-26 (`HeaderMap`) with names and values in their variants.  Simplified: without
`systems`. -/
abbrev TaggedMap := List (HeaderName × HeaderValue)

/-- src/http/header.rs:69-90 (`insert`). -/
def TaggedMap.insert : TaggedMap → HeaderName → HeaderValue → TaggedMap
  | [], n, v => [(n, v)]
  | e :: m, n, v => if e.1.eq n then (e.1, v) :: m else e :: TaggedMap.insert m n v

/-- src/http/header.rs:46-67 (`push`). -/
def TaggedMap.push : TaggedMap → HeaderName → HeaderValue → TaggedMap
  | [], n, v => [(n, v)]
  | e :: m, n, v => if e.1.eq n then (e.1, e.2.push v) :: m else e :: TaggedMap.push m n v

/-- src/http/header.rs:92-100 (`remove`): the value removed and the map left. -/
def TaggedMap.remove : TaggedMap → Bytes → Option HeaderValue × TaggedMap
  | [], _ => (none, [])
  | e :: m, n =>
    if nameEq e.1.asBytes n then (some e.2, m)
    else ((TaggedMap.remove m n).1, e :: (TaggedMap.remove m n).2)

/-- src/http/header.rs:102-104 (`clear`). -/
def TaggedMap.clear (_ : TaggedMap) : TaggedMap := []

/-- src/http/header.rs:106-114 (`contains`). -/
def TaggedMap.contains (m : TaggedMap) (n : Bytes) : Bool := m.any fun e => nameEq e.1.asBytes n

/-- src/http/header.rs:141-149 (`get_option_value`). -/
def TaggedMap.get? (m : TaggedMap) (n : Bytes) : Option HeaderValue :=
  (m.find? fun e => nameEq e.1.asBytes n).map (·.2)

/-- src/http/header.rs:126-139 (`get_mut_value`), then assigning through the reference; `unreachable!()` if
the name is missing. -/
def TaggedMap.setValue : TaggedMap → Bytes → HeaderValue → Res TaggedMap
  | [], _, _ => .panic
  | e :: m, n, v =>
    if nameEq e.1.asBytes n then .ok ((e.1, v) :: m)
    else (TaggedMap.setValue m n v).bind fun m => .ok (e :: m)

/-- src/http/header.rs:321-331 (`index_mut`), then assigning through the reference: `map[name] = value`. -/
def TaggedMap.assign (m : TaggedMap) (n : Bytes) (v : HeaderValue) : Res TaggedMap :=
  if m.contains n then m.setValue n v else TaggedMap.setValue (m.insert (.stand n) (.stand [])) n v

/-- src/http/header.rs:222-233 (`get_body_len`): 0 if the header is missing or not a number. -/
def TaggedMap.bodyLen (m : TaggedMap) : Res Int :=
  match m.get? (asciiBytes "content-length") with
  | none => .ok 0
  | some v =>
    match v.toIsize with
    | .ok n => .ok n
    | .err _ => .ok 0
    | .panic => .panic

/-- src/http/header.rs:198-220 (`get_referer`, `get_user_agent`, `get_cookie`). -/
def TaggedMap.text (m : TaggedMap) (n : Bytes) : Option Bytes := (m.get? n).map HeaderValue.toText

/-- src/http/header.rs:181-196 (`get_host`). -/
def TaggedMap.host (m : TaggedMap) : Option Bytes :=
  match m.get? (asciiBytes "host") with
  | some v => some v.toText
  | none =>
    match m.get? (asciiBytes ":authority") with
    | some v => some v.toText
    | none => none

/-- src/http/header.rs:251-265 (`get_upgrade_protocol`). -/
def TaggedMap.upgradeProtocol (m : TaggedMap) : Option Bytes :=
  match m.get? (asciiBytes "connection") with
  | some v =>
    if containsBytes v.asBytes (asciiBytes "Upgrade") then
      match m.get? (asciiBytes "upgrade") with
      | some u => u.asString
      | none => none
    else none
  | none => none

/-- src/http/header.rs:287-297 (`encode`): the bytes appended. -/
def TaggedMap.encode : TaggedMap → Bytes
  | [] => [13, 10]
  | e :: m => e.1.asBytes ++ [58, 32] ++ e.2.asBytes ++ [13, 10] ++ TaggedMap.encode m

/-- src/http/header.rs:22 (derived `PartialEq`): entry by entry. -/
def TaggedMap.eq : TaggedMap → TaggedMap → Bool
  | [], [] => true
  | a :: m, b :: m' => a.1.eq b.1 && a.2.eq b.2 && TaggedMap.eq m m'
  | _, _ => false

/-- What can be asked of a map: src/http/header.rs:106-114 (`contains`), 116-124 and 141-149 (`get_value`,
`get_option_value`, observed by its bytes, its display and its hash), 151-159 (`get_str_value`), 161-169
(`is_contains`), 171-179 (`is_equal`), 181-196 (`get_host`), 198-220 (`get_referer`, `get_user_agent`,
`get_cookie`), 222-233 (`get_body_len`), 235-241 (`is_keep_alive`), 243-249 (`is_chunked`), 251-265
(`get_upgrade_protocol`), 267-273 (`len`, `is_empty`), 287-297 (`encode`). -/
inductive HeaderQuery where
  | contains (n : Bytes)
  | bytes (n : Bytes)
  | display (n : Bytes)
  | hash (n : Bytes)
  | str (n : Bytes)
  | isContains (n v : Bytes)
  | isEqual (n v : Bytes)
  | host
  | text (n : Bytes)
  | bodyLen
  | keepAlive
  | chunked
  | upgrade
  | len
  | encode
  deriving DecidableEq, Repr

/-- An answer to a question. -/
inductive HeaderAnswer where
  | text (t : Option Bytes)
  | bool (b : Bool)
  | num (n : Res Int)
  deriving DecidableEq, Repr

/-- The answers: src/http/header.rs:106-297, see `HeaderQuery`. -/
def TaggedMap.ask (m : TaggedMap) : HeaderQuery → HeaderAnswer
  | .contains n => .bool (m.contains n)
  | .bytes n => .text ((m.get? n).map HeaderValue.asBytes)
  | .display n => .text ((m.get? n).map HeaderValue.display)
  | .hash n => .text ((m.get? n).map HeaderValue.hashInput)
  | .str n => .text (match m.get? n with | some v => v.asString | none => none)
  | .isContains n v => .bool (match m.get? n with | some w => w.contains v | none => false)
  | .isEqual n v => .bool (match m.get? n with | some w => w.asBytes == v | none => false)
  | .host => .text m.host
  | .text n => .text (m.text n)
  | .bodyLen => .num m.bodyLen
  | .keepAlive =>
    .bool (match m.get? (asciiBytes "connection") with
      | some v => containsBytes v.asBytes (asciiBytes "Keep-Alive") | none => false)
  | .chunked =>
    .bool (match m.get? (asciiBytes "transfer-encoding") with
      | some v => containsBytes v.asBytes (asciiBytes "chunked") | none => false)
  | .upgrade => .text m.upgradeProtocol
  | .len => .num (.ok m.length)
  | .encode => .text (some m.encode)

end Webparse
