import Verif.Model.HeaderMap

/-!
# `map["name"]`

/repo/src/http/header.rs, `Index` and `IndexMut` for `HeaderMap`.
-/

namespace Webparse

/-- src/http/header.rs:313-319 (`index`). -/
def HeaderMap.index (m : HeaderMap) (n : Bytes) : Res Bytes := m.getValue n

/-- src/http/header.rs:126-139 (`get_mut_value`): the map after `f` was applied to the value behind the reference;
`unreachable!()` if the name is missing. -/
def HeaderMap.getMutValue : HeaderMap → Bytes → (Bytes → Bytes) → Res HeaderMap
  | [], _, _ => .panic
  | e :: m, n, f =>
    if nameEq e.1 n then .ok ((e.1, f e.2) :: m)
    else do
      let m ← HeaderMap.getMutValue m n f
      .ok (e :: m)

/-- src/http/header.rs:321-331 (`index_mut`): the map after `f` was applied to the value behind the reference, so `map[n] = v`
is `indexMut m n (fun _ => v)`. -/
def HeaderMap.indexMut (m : HeaderMap) (n : Bytes) (f : Bytes → Bytes) : Res HeaderMap :=
  if m.contains n then m.getMutValue n f else (m.insert n []).getMutValue n f

end Webparse
