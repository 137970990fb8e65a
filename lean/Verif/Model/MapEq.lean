import Verif.Model.HeaderMap

/-!
# Comparing header maps

/repo/src/http/header.rs:24: `#[derive(PartialEq, Eq)]` for `HeaderMap`.
-/

namespace Webparse

/-- src/http/header.rs:24 (derived `PartialEq`), the field `headers`: vectors are equal if they are equally long and equal
place by place; names are compared by src/http/name.rs:46-52, values by src/http/value.rs:208-217. -/
def HeaderMap.eqHeaders : HeaderMap → HeaderMap → Bool
  | [], [] => true
  | a :: as, b :: bs => nameEq a.1 b.1 && a.2 == b.2 && HeaderMap.eqHeaders as bs
  | _, _ => false

/-- src/http/header.rs:24-28 (`HeaderMap`): all of it.  Simplified: the hash map `systems` is a list of pairs with
different keys. -/
structure WholeMap where
  headers : HeaderMap := []
  systems : List (Bytes × Bytes) := []

/-- src/http/header.rs:275-277 (`system_insert`). -/
def WholeMap.systemInsert (m : WholeMap) (key value : Bytes) : WholeMap :=
  { m with systems := (key, value) :: m.systems.filter fun e => e.1 != key }

/-- src/http/header.rs:279-285 (`system_get`). -/
def WholeMap.systemGet (m : WholeMap) (key : Bytes) : Option Bytes := m.systems.lookup key

/-- src/http/header.rs:102-104 (`clear`). -/
def WholeMap.clear (m : WholeMap) : WholeMap := { m with headers := m.headers.clear }

/-- src/http/header.rs:24 (derived `PartialEq`); `HashMap` (std) compares the number of keys and the value of each. -/
def WholeMap.eq (a b : WholeMap) : Bool :=
  a.headers.eqHeaders b.headers && (a.systems.length == b.systems.length && a.systems.all fun e => b.systems.lookup e.1 == some e.2)

end Webparse
