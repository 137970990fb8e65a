import Verif.Model.Method

/-!
# Methods and schemes read from any text

/repo/src/http/method.rs, /repo/src/url/scheme.rs: `FromStr` with `str::to_uppercase` of the standard library on all of Unicode, not only
on ASCII as in `Model/Method.lean`.
-/

namespace Webparse

/-- The UTF-8 bytes of a character (RFC 3629), for the text given at src/http/method.rs:143 and src/url/scheme.rs:155. -/
def utf8Char (c : Char) : Bytes :=
  let n := c.toNat
  if n < 0x80 then [UInt8.ofNat n]
  else if n < 0x800 then [UInt8.ofNat (0xC0 + n / 64), UInt8.ofNat (0x80 + n % 64)]
  else if n < 0x10000 then [UInt8.ofNat (0xE0 + n / 4096), UInt8.ofNat (0x80 + n / 64 % 64), UInt8.ofNat (0x80 + n % 64)]
  else [UInt8.ofNat (0xF0 + n / 262144), UInt8.ofNat (0x80 + n / 4096 % 64), UInt8.ofNat (0x80 + n / 64 % 64), UInt8.ofNat (0x80 + n % 64)]

/-- The bytes of a Rust string with these characters (src/http/method.rs:143, src/url/scheme.rs:155). -/
def utf8Text (s : List Char) : Bytes := s.flatMap utf8Char

/-- The characters outside ASCII whose upper case (Unicode, SpecialCasing.txt and UnicodeData.txt) is in ASCII, with it.  For
`str::to_uppercase` (std), used at src/http/method.rs:144 and src/url/scheme.rs:156. -/
def asciiUppers : List (Char × List Char) :=
  [('ß', ['S', 'S']), ('ı', ['I']), ('ſ', ['S']), ('ﬀ', ['F', 'F']), ('ﬁ', ['F', 'I']), ('ﬂ', ['F', 'L']), ('ﬃ', ['F', 'F', 'I']),
    ('ﬄ', ['F', 'F', 'L']), ('ﬅ', ['S', 'T']), ('ﬆ', ['S', 'T'])]

/-- What is used of the upper-case mapping of Unicode (`char::to_uppercase` in std, used at src/http/method.rs:144 and
src/url/scheme.rs:156): on ASCII it is the usual one, ten other characters have their upper case in ASCII, that of any other is not all in
ASCII, and none has an ASCII lower-case letter.  The rest of the mapping is left open. -/
structure UnicodeUpper (up : Char → List Char) : Prop where
  ascii : ∀ c, c.toNat < 128 → up c = [c.toUpper]
  into : ∀ e ∈ asciiUppers, up e.1 = e.2
  other : ∀ c, 128 ≤ c.toNat → (∀ e ∈ asciiUppers, e.1 ≠ c) → ∃ d ∈ up c, 128 ≤ d.toNat
  upper : ∀ c, ∀ d ∈ up c, ¬ (97 ≤ d.toNat ∧ d.toNat ≤ 122)

/-- src/http/method.rs:139-144 (`FromStr for Method`), with the mapping `up` of characters. -/
def Method.parseText (up : Char → List Char) (s : List Char) : Res Method := Method.tryFrom (utf8Text (s.flatMap up))

/-- src/url/scheme.rs:153-158 (`FromStr for Scheme`), with the mapping `up` of characters. -/
def Scheme.parseText (up : Char → List Char) (s : List Char) : Res Scheme := Scheme.tryFrom (utf8Text (s.flatMap up))

end Webparse
