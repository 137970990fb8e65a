import Verif.Model.Helper

/-!
# Hexadecimal text

/repo/src/helper.rs:418-438
-/

namespace Webparse

/-- src/helper.rs:427, 430: `u8::from_str_radix(from_utf8(&[b]).unwrap(), 16).unwrap()`: one byte that is not
text, or a character that is not a hexadecimal digit, is a panic. -/
def hexNibble (b : UInt8) : Res Nat :=
  if b ≥ 0x80 then .panic else if isHex b then .ok (digitVal b) else .panic

/-- src/helper.rs:424-436, the loop; `val * 16 + ...` is checked for overflow. -/
def hexToVecLoop : (isFirst : Bool) → (val : Nat) → Bytes → Res Bytes
  | _, _, [] => .ok []
  | isFirst, val, b :: bs =>
    if b ≠ 32 then
      if isFirst then do
        let v ← hexNibble b
        hexToVecLoop false v bs
      else do
        let v ← hexNibble b
        if val * 16 + v ≥ 256 then .panic
        else do
          let rest ← hexToVecLoop true 0 bs
          .ok (UInt8.ofNat (val * 16 + v) :: rest)
    else hexToVecLoop isFirst val bs

/-- src/helper.rs:418-438 (`hex_to_vec`). -/
def hexToVec (s : Bytes) : Res Bytes := hexToVecLoop true 0 s

end Webparse
