import Verif.Model.Hpack
import Verif.Spec.Ascii

/-! Notions used to state properties of the HPACK decoder and of whole connections. -/

namespace Webparse.Spec

/-- Prepend headers to the result of a run. -/
def prependHeaders (hs : List Header) : Res (List Header × HeaderIndex) → Res (List Header × HeaderIndex)
  | .ok (hs', t) => .ok (hs ++ hs', t)
  | .err e => .err e
  | .panic => .panic

/-- Decoding `buf` from table `t` arrives at a field starting with the bits `001`, a dynamic table
size update (RFC 7541 6.3). -/
inductive ReachesSizeUpdate : HeaderIndex → Bytes → Prop
  | here {t o rest} : o.toNat / 32 = 1 → ReachesSizeUpdate t (o :: rest)
  | step {t o rest hs t' c} : decodeStep t o rest = .ok (hs, t', c) →
      ReachesSizeUpdate t' ((o :: rest).drop c) → ReachesSizeUpdate t (o :: rest)

/-- Encode header lists one after the other with one encoder. -/
def encodeBlocks (t : HeaderIndex) : List (List Header) → Res (List Bytes × HeaderIndex)
  | [] => .ok ([], t)
  | hs :: blocks => do
    let (b, t) ← encodeHeaders t hs
    let (bs, t) ← encodeBlocks t blocks
    .ok (b :: bs, t)

/-- Decode header blocks one after the other with one decoder; `none` if one of them does not
terminate. -/
def decodeBlocks (t : HeaderIndex) : List Bytes → Option (Res (List (List Header) × HeaderIndex))
  | [] => some (.ok ([], t))
  | b :: bs =>
    match decode t b with
    | none => none
    | some (.err e) => some (.err e)
    | some .panic => some .panic
    | some (.ok (hs, t)) =>
      match decodeBlocks t bs with
      | none => none
      | some (.err e) => some (.err e)
      | some .panic => some .panic
      | some (.ok (hss, t)) => some (.ok (hs :: hss, t))

/-- A header with its name lower-cased. -/
def lowerHeader (h : Header) : Header := (lower h.1, h.2)

end Webparse.Spec
