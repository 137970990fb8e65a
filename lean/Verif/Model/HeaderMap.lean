import Verif.Model.Name
import Verif.Model.Utf8
import Verif.Model.Hpack

/-!
# Header values and the header map

/repo/src/http/value.rs, /repo/src/http/header.rs.  `HeaderName` and `HeaderValue` compare by their
bytes, whichever variant (`Stand`, `Value`) they are, so a name is its bytes and so is a value,
except in the numeric conversions (`HeaderValue` below), where the variants differ.
-/

namespace Webparse

/-- src/http/header.rs:24-28 (`HeaderMap`): the vector of headers in order.  Simplified: the `systems` map,
which is on no wire, is left out here; it is in Model/MapEq.lean and Model/FullParse.lean. -/
abbrev HeaderMap := List Header

/-- src/http/header.rs:69-90 (`insert`): the first header with an equal name gets the value (and keeps its
own name); otherwise the pair goes to the end.  Always returns `None`. -/
def HeaderMap.insert : HeaderMap → Bytes → Bytes → HeaderMap
  | [], n, v => [(n, v)]
  | e :: m, n, v => if nameEq e.1 n then (e.1, v) :: m else e :: HeaderMap.insert m n v

/-- src/http/value.rs:59-71 (`HeaderValue::push`). -/
def valuePush (a b : Bytes) : Bytes := a ++ [59] ++ b

/-- src/http/header.rs:46-67 (`push`). -/
def HeaderMap.push : HeaderMap → Bytes → Bytes → HeaderMap
  | [], n, v => [(n, v)]
  | e :: m, n, v => if nameEq e.1 n then (e.1, valuePush e.2 v) :: m else e :: HeaderMap.push m n v

/-- src/http/header.rs:92-100 (`remove`): the value removed and the map left. -/
def HeaderMap.remove : HeaderMap → Bytes → Option Bytes × HeaderMap
  | [], _ => (none, [])
  | e :: m, n =>
    if nameEq e.1 n then (some e.2, m)
    else
      let r := HeaderMap.remove m n
      (r.1, e :: r.2)

/-- src/http/header.rs:102-104 (`clear`). -/
def HeaderMap.clear (_ : HeaderMap) : HeaderMap := []

/-- src/http/header.rs:106-114 (`contains`). -/
def HeaderMap.contains (m : HeaderMap) (n : Bytes) : Bool := m.any fun e => nameEq e.1 n

/-- src/http/header.rs:141-149 (`get_option_value`). -/
def HeaderMap.get? (m : HeaderMap) (n : Bytes) : Option Bytes :=
  (m.find? fun e => nameEq e.1 n).map (·.2)

/-- src/http/header.rs:116-124 (`get_value`): `unreachable!()` if the name is missing. -/
def HeaderMap.getValue (m : HeaderMap) (n : Bytes) : Res Bytes :=
  match m.get? n with
  | some v => .ok v
  | none => .panic

/-- src/http/value.rs:52-57 (`HeaderValue::as_string`): a string only if the bytes are UTF-8. -/
def valueAsString (v : Bytes) : Option Bytes := if utf8Valid v then some v else none

/-- src/http/header.rs:151-159 (`get_str_value`). -/
def HeaderMap.getStr (m : HeaderMap) (n : Bytes) : Option Bytes :=
  match m.get? n with
  | some v => valueAsString v
  | none => none

/-- src/http/header.rs:299-309 (`HeaderMap::contains_bytes`) and src/helper.rs:464-474
(`Helper::contains_bytes`), the same loop. -/
def containsBytes (src dst : Bytes) : Bool :=
  if dst.length > src.length then false
  else (List.range (src.length - dst.length + 1)).any fun i => (src.drop i).take dst.length == dst

/-- src/http/header.rs:161-169 (`is_contains`). -/
def HeaderMap.isContains (m : HeaderMap) (n value : Bytes) : Bool :=
  match m.get? n with
  | some v => containsBytes v value
  | none => false

/-- src/http/header.rs:171-179 (`is_equal`). -/
def HeaderMap.isEqual (m : HeaderMap) (n value : Bytes) : Bool :=
  match m.get? n with
  | some v => v == value
  | none => false

/-- src/http/header.rs:235-241 (`is_keep_alive`). -/
def HeaderMap.isKeepAlive (m : HeaderMap) : Bool :=
  match m.get? (asciiBytes "connection") with
  | some v => containsBytes v (asciiBytes "Keep-Alive")
  | none => false

/-- src/http/header.rs:243-249 (`is_chunked`). -/
def HeaderMap.isChunked (m : HeaderMap) : Bool :=
  match m.get? (asciiBytes "transfer-encoding") with
  | some v => containsBytes v (asciiBytes "chunked")
  | none => false

/-- src/http/header.rs:251-265 (`get_upgrade_protocol`). -/
def HeaderMap.upgradeProtocol (m : HeaderMap) : Option Bytes :=
  match m.get? (asciiBytes "connection") with
  | some v =>
    if containsBytes v (asciiBytes "Upgrade") then
      match m.get? (asciiBytes "upgrade") with
      | some u => valueAsString u
      | none => none
    else none
  | none => none

/-- src/http/header.rs:181-196 (`get_host`): `splitn(1, ':')` does not split, so an `:authority` is returned
whole. -/
def HeaderMap.host (m : HeaderMap) : Option Bytes :=
  match m.get? (asciiBytes "host") with
  | some v => some (utf8Lossy v)
  | none =>
    match m.get? (asciiBytes ":authority") with
    | some v => some (utf8Lossy v)
    | none => none

/-- src/http/header.rs:287-297 (`encode`): the bytes appended. -/
def HeaderMap.encode : HeaderMap → Bytes
  | [] => [13, 10]
  | e :: m => e.1 ++ [58, 32] ++ e.2 ++ [13, 10] ++ HeaderMap.encode m

/-! ## Numbers in header values -/

/-- src/http/value.rs:19-23 (`HeaderValue`). -/
inductive HeaderValue where
  | stand (s : Bytes)
  | value (v : Bytes)
  deriving DecidableEq, Repr

end Webparse
