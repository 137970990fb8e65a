import Verif.Spec.Grammar
import Verif.Spec.UrlFull

/-! # Heads that never get a verdict (C70) -/

namespace Webparse.Spec

/-- Neither printable ASCII (33 to 126 and the space) nor CR nor LF. -/
def IsOddByte (c : UInt8) : Prop := (c.toNat < 32 ∨ 127 ≤ c.toNat) ∧ c ≠ 13 ∧ c ≠ 10

/-- Field lines that stop making sense: after some accepted lines there is one with an empty value whose CR is followed by something
that is not LF, CR or a space. -/
inductive StuckFields : Bytes → Prop
  | here {name a b : Bytes} {c : UInt8} {rest : Bytes} : IsFieldName name → Spaces a → Spaces b → c ≠ 10 → c ≠ 13 → c ≠ 32 →
      StuckFields (name ++ a ++ [58] ++ b ++ 13 :: c :: rest)
  | later {h : Header} {line text : Bytes} : AcceptedLine h line → StuckFields text → StuckFields (line ++ text)

/-- A status line, as it is accepted, without its end. -/
def StatusLine (line : Bytes) : Prop :=
  ∃ lines a b reason code, BlankLines lines ∧ Spaces a ∧ a ≠ [] ∧ Spaces b ∧ b ≠ [] ∧
    reason ≠ [] ∧ (∀ x ∈ reason, 32 ≤ x.toNat ∧ x.toNat < 127) ∧ reason.head? ≠ some 32 ∧ 100 ≤ code ∧ code ≤ 999 ∧
    ∃ n ∈ versionNames, line = lines ++ asciiBytes n.2 ++ a ++ threeDigits code ++ b ++ reason

/-- A request line, as it is accepted, without its end. -/
def RequestLine (line : Bytes) : Prop :=
  ∃ lines a target b, BlankLines lines ∧ Spaces a ∧ a ≠ [] ∧ Spaces b ∧ b ≠ [] ∧
    target ≠ [] ∧ (∀ x ∈ target, 32 < x.toNat ∧ x.toNat < 127) ∧
    ∃ n ∈ versionNames, ∃ k ∈ methodNames, line = lines ++ asciiBytes k.2 ++ a ++ target ++ b ++ asciiBytes n.2

/-- The status line is followed by an odd byte, or it is well and a field line is not. -/
def StuckResponse (buf : Bytes) : Prop :=
  ∃ line, StatusLine line ∧
    ((∃ c rest, IsOddByte c ∧ buf = line ++ c :: rest) ∨
      ∃ e text, (e = [13, 10] ∨ e = [10]) ∧ StuckFields text ∧ buf = line ++ e ++ text)

/-- Well escaped up to its end, where an escape has one digit or none. -/
def HalfEscape (s : Bytes) : Prop := ∃ g v, Decodes g v ∧ (s = g ++ [37] ∨ ∃ h, s = g ++ [37, h])

/-- A part that is written ends in half an escape. -/
def HalfPart (o : Option Bytes) : Prop := ∃ s, o = some s ∧ HalfEscape s

/-- A part that is not written, or can be decoded. -/
def FinePart (o : Option Bytes) : Prop := ∃ v, PartIs o v

/-- Among user name, password, host, port, path and query, the first that is not well ends in half an escape. -/
def FirstHalf (r : RawParts) : Prop :=
  HalfPart r.username ∨ FinePart r.username ∧ (HalfPart r.password ∨ FinePart r.password ∧ (HalfPart r.domain ∨ FinePart r.domain ∧
    (HalfPart r.port ∨ (∃ n, PortIs 0 r.port n) ∧ (HalfPart r.path ∨ FinePart r.path ∧ HalfPart r.query))))

/-- The texts that the URL parser calls incomplete: the empty text, what could be the beginning of a scheme (of any length), a scheme
and `:` or `:/`, and complete URLs with half an escape at the end of a part. -/
def UrlIncomplete (s : Bytes) : Prop :=
  s = [] ∨
  (∃ c r, s = c :: r ∧ isLetter c = true ∧
    ∀ b ∈ s, (asciiBytes "ABCDEFGHIJKLMNOPQRSTUVWXYZabcdefghijklmnopqrstuvwxyz0123456789+-.").contains b = true) ∨
  (∃ t, SchemeText t ∧ (s = t ++ [58] ∨ s = t ++ [58, 47])) ∨
  (s.head? = some 47 ∧ (∀ b ∈ s, IsPrint b ∧ b ≠ 64) ∧ FirstHalf (pathParts s {})) ∨
  ∃ t a tail user d p r, SchemeText t ∧ s = t ++ asciiBytes "://" ++ a ++ tail ∧ (47 : UInt8) ∉ a ∧ (tail = [] ∨ tail.head? = some 47) ∧
    (∀ b ∈ a ++ tail, IsPrint b) ∧ Authority none user d p a ∧ tailParts tail (authorityRaw user d p) = some r ∧ FirstHalf r

/-- The request line is followed by an odd byte, or it is well and a field line is not, or the head is complete, is not that of a
CONNECT, and the target is an incomplete URL. -/
def StuckRequest (buf : Bytes) : Prop :=
  (∃ line, RequestLine line ∧
    ((∃ c rest, IsOddByte c ∧ buf = line ++ c :: rest) ∨
      ∃ e text, (e = [13, 10] ∨ e = [10] ∨ e = [32]) ∧ StuckFields text ∧ buf = line ++ e ++ text)) ∨
  ∃ m target v hs head rest, AcceptedRequest m target v hs head ∧ buf = head ++ rest ∧ m ≠ .connect ∧
    UrlIncomplete target

end Webparse.Spec
