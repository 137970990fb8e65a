import Verif.Model.Basic

/-!
# Header names: equality, hash, lower-casing

/repo/src/helper.rs, /repo/src/http/name.rs
-/

namespace Webparse

/-- src/helper.rs:441-455 (`eq_bytes_ignore_ascii_case`), the loop over equal-length slices:
two bytes match when equal or when their wrapping difference is 32 or 224. -/
def eqIgnoreCaseLoop : Bytes → Bytes → Bool
  | a :: as, b :: bs =>
    if a = b then eqIgnoreCaseLoop as bs
    else if a - b ≠ 32 ∧ a - b ≠ 224 then false
    else eqIgnoreCaseLoop as bs
  | _, _ => true

/-- src/helper.rs:441-455 (`eq_bytes_ignore_ascii_case`), used by every `PartialEq` of
`HeaderName` (src/http/name.rs:28-52). -/
def nameEq (a b : Bytes) : Bool :=
  if a.length ≠ b.length then false else eqIgnoreCaseLoop a b

/-- src/http/name.rs:56-72 (`Hash for HeaderName`): the bytes fed to the hasher. -/
def nameHashInput (n : Bytes) : Bytes :=
  n.map fun b => if b ≥ 65 && b ≤ 90 then b + 32 else b

end Webparse
