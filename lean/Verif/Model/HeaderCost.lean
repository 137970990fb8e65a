import Verif.Model.Http1

/-!
# How many names are compared

/repo/src/http/header.rs (`insert`) and /repo/src/helper.rs (`parse_header`), with a count.
-/

namespace Webparse

/-- src/http/header.rs:82-87 (`insert`), the loop: how many times `v.0 == name` is asked. -/
def HeaderMap.insertCost : HeaderMap → Bytes → Nat
  | [], _ => 0
  | e :: m, n => if nameEq e.1 n then 1 else 1 + HeaderMap.insertCost m n

/-- src/helper.rs:367-390 (`parse_header`), the loop: how many names are compared by all the `insert` of it. -/
def parseHeaderCost : (fuel : Nat) → HeaderMap → Bytes → Nat
  | 0, _, _ => 0
  | fuel + 1, m, buf =>
    match parseHeaderLine buf with
    | (.ok (some h), r) => m.insertCost h.1 + parseHeaderCost fuel (m.insert h.1 h.2) r
    | _ => 0

/-- src/helper.rs:367-390 (`parse_header`): how many names are compared while the header lines are read. -/
def headerComparisons (buf : Bytes) : Nat := parseHeaderCost (buf.length + 1) [] buf

end Webparse
