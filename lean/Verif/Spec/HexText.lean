import Verif.Spec.Http1

/-! Bytes as hexadecimal text. -/

namespace Webparse.Spec

/-- The text has two hexadecimal digits, of either case, for every byte, the high one first; blanks may be
anywhere. -/
inductive HexText : Bytes → Bytes → Prop where
  | nil : HexText [] []
  | blank {s v : Bytes} : HexText s v → HexText (32 :: s) v
  | byte {a b : UInt8} {x y k : Nat} {s v : Bytes} : hexDigit? a = some x → hexDigit? b = some y → HexText s v →
      HexText (a :: (List.replicate k 32 ++ b :: s)) (UInt8.ofNat (16 * x + y) :: v)

end Webparse.Spec
