import Verif.Model.UpperCase
import Verif.Spec.Http1

/-! # Ways to spell a word -/

namespace Webparse.Spec

/-- The text is this word but for the case of ASCII letters. -/
def EqIgnoreAsciiCase (s w : List Char) : Prop := (∀ c ∈ s, c.toNat < 128) ∧ s.map Char.toUpper = w.map Char.toUpper

/-- Ways to spell a word: each letter in either case, or one of the ten characters outside ASCII for the letters that are its upper
case. -/
inductive Spells : List Char → List Char → Prop
  | nil : Spells [] []
  | letter {c s w} : c.toNat < 128 → Spells s w → Spells (c :: s) (c.toUpper :: w)
  | special {e s w} : e ∈ asciiUppers → Spells s w → Spells (e.1 :: s) (e.2 ++ w)

end Webparse.Spec
