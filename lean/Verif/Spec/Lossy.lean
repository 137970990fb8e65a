import Verif.Spec.Utf8

/-! Text made of bytes that may not be UTF-8, as the Unicode standard (chapter 3.9, "U+FFFD
substitution of maximal subparts") describes it; written without the model of the standard library. -/

namespace Webparse.Spec

/-- The bytes begin the bytes of some code point, or are all of them. -/
def BeginsScalar (p : Bytes) : Prop := ∃ c q, IsScalar c ∧ encodeScalar c = p ++ q

/-- `p`, followed by `s`, is a maximal subpart of ill-formed text: no code point is written there, and
`p` is the longest beginning of one, or a single byte that begins none. -/
def MaximalSubpart (p s : Bytes) : Prop :=
  (¬ ∃ c r, IsScalar c ∧ p ++ s = encodeScalar c ++ r) ∧
  ((p ≠ [] ∧ BeginsScalar p ∧ ∀ x r, s = x :: r → ¬ BeginsScalar (p ++ [x])) ∨
    (∃ x, p = [x] ∧ ¬ BeginsScalar p))

/-- `t` is the text of the bytes: code points as they are, and one U+FFFD for each maximal subpart
of what is ill-formed. -/
inductive TextOf : Bytes → Bytes → Prop
  | nil : TextOf [] []
  | scalar {c : Nat} {s t : Bytes} : IsScalar c → TextOf s t → TextOf (encodeScalar c ++ s) (encodeScalar c ++ t)
  | bad {p s t : Bytes} : MaximalSubpart p s → TextOf s t → TextOf (p ++ s) (encodeScalar 0xFFFD ++ t)

/-- `o` is the text of the bytes `b`, if there are any. -/
def TextIs : Option Bytes → Option Bytes → Prop
  | none, o => o = none
  | some b, o => ∃ t, TextOf b t ∧ o = some t

/-- The bytes are UTF-8 and the replacement character is not one of the code points. -/
def IsCleanText (b : Bytes) : Prop := ∃ cs : List Nat, (∀ c ∈ cs, IsScalar c ∧ c ≠ 0xFFFD) ∧ b = cs.flatMap encodeScalar

end Webparse.Spec
