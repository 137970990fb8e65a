import Verif.Model.Basic

/-!
# RFC 7541, section 5.1: integer representation

Written from the RFC, independently of the code.
-/

namespace Webparse.Spec

/-- The value of a complete sequence of continuation octets: base 128, least significant group
first, every octet but the last has its top bit set.  `none` if the sequence is not exactly that. -/
def contValue : Bytes → Option Nat
  | [] => none
  | [b] => if b.toNat < 128 then some b.toNat else none
  | b :: c :: bs =>
    if 128 ≤ b.toNat then (contValue (c :: bs)).map fun v => b.toNat % 128 + 128 * v else none

/-- The value of a complete integer with an `N`-bit prefix: the prefix alone when it is not all
ones, otherwise `2^N - 1` plus the continuation octets. -/
def intValue (N : Nat) : Bytes → Option Nat
  | [] => none
  | b :: rest =>
    if b.toNat % 2 ^ N < 2 ^ N - 1 then
      if rest = [] then some (b.toNat % 2 ^ N) else none
    else (contValue rest).map fun v => 2 ^ N - 1 + v

end Webparse.Spec
