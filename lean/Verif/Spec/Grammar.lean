import Verif.Spec.Http1
import Verif.Spec.FrameHeaders

/-! # The grammar of HTTP/1 heads

First as RFC 9112 and RFC 9110 have it, then the language that the parsers of /repo accept. -/

namespace Webparse.Spec

/-! ## RFC 9112 -/

/-- RFC 5234: SP or HTAB. -/
def IsBlank (b : UInt8) : Prop := b = 32 ∨ b = 9

/-- RFC 9110 5.5, `field-vchar`: a visible ASCII character or `obs-text`. -/
def IsFieldVchar (b : UInt8) : Prop := (0x21 ≤ b.toNat ∧ b.toNat ≤ 0x7e) ∨ 0x80 ≤ b.toNat

/-- RFC 9110 5.6.3, `OWS`. -/
def IsOwsText (s : Bytes) : Prop := ∀ b ∈ s, IsBlank b

/-- RFC 9110 5.1, `field-name`. -/
def IsFieldName (n : Bytes) : Prop := n ≠ [] ∧ ∀ b ∈ n, isTchar b = true

/-- RFC 9110 5.5, `field-value`: neither begins nor ends with a blank. -/
def IsFieldValue (v : Bytes) : Prop :=
  (∀ b ∈ v, IsFieldVchar b ∨ IsBlank b) ∧ (∀ b, v.head? = some b → ¬ IsBlank b) ∧ (∀ b, v.getLast? = some b → ¬ IsBlank b)

/-- RFC 9112 5, `field-line` with its CRLF; `before` and `after` are the blanks around the value. -/
def IsFieldLine (h : Header) (before after line : Bytes) : Prop :=
  IsFieldName h.1 ∧ IsFieldValue h.2 ∧ IsOwsText before ∧ IsOwsText after ∧
    line = h.1 ++ [58] ++ before ++ h.2 ++ after ++ [13, 10]

/-- Field lines and the empty line after them; every line with the blanks `(before, after)` around its value. -/
inductive FieldSection : List (Header × Bytes × Bytes) → Bytes → Prop
  | done : FieldSection [] [13, 10]
  | more {h : Header} {before after line : Bytes} {fields : List (Header × Bytes × Bytes)} {text : Bytes} :
      IsFieldLine h before after line → FieldSection fields text → FieldSection ((h, before, after) :: fields) (line ++ text)

/-- RFC 9112 4, `reason-phrase` or nothing. -/
def IsReason (s : Bytes) : Prop := ∀ b ∈ s, IsFieldVchar b ∨ IsBlank b

/-- RFC 9112 2.3, of the versions HTTP/1.0 and HTTP/1.1. -/
def http1Name : List (Version × String) := [(.http10, "HTTP/1.0"), (.http11, "HTTP/1.1")]

/-- RFC 9112 4 and 5: a status line, field lines and an empty line. -/
def IsResponseHead (v : Version) (code : Nat) (reason : Bytes) (fields : List (Header × Bytes × Bytes)) (head : Bytes) : Prop :=
  100 ≤ code ∧ code ≤ 599 ∧ IsReason reason ∧ ∃ e ∈ http1Name, e.1 = v ∧ ∃ text, FieldSection fields text ∧
    head = asciiBytes e.2 ++ [32] ++ threeDigits code ++ [32] ++ reason ++ [13, 10] ++ text

/-- RFC 9112 3 and 5: a request line, field lines and an empty line.  The target is any visible ASCII (its forms are the
subject of C62). -/
def IsRequestHead (method target : Bytes) (v : Version) (fields : List (Header × Bytes × Bytes)) (head : Bytes) : Prop :=
  IsFieldName method ∧ target ≠ [] ∧ (∀ b ∈ target, 0x21 ≤ b.toNat ∧ b.toNat ≤ 0x7e) ∧
    ∃ e ∈ http1Name, e.1 = v ∧ ∃ text, FieldSection fields text ∧
      head = method ++ [32] ++ target ++ [32] ++ asciiBytes e.2 ++ [13, 10] ++ text

/-- Strings with a comma and a space between them. -/
def joinComma : List Bytes → Bytes
  | [] => []
  | [v] => v
  | v :: w :: vs => v ++ [44, 32] ++ joinComma (w :: vs)

/-- The values of the lines with that name, in either case. -/
def valuesOf (fields : List (Header × Bytes × Bytes)) (name : Bytes) : List Bytes :=
  (fields.filter fun f => lower f.1.1 == lower name).map fun f => f.1.2

/-- RFC 9110 5.2 and 5.3: the combined value of a field, if there is one. -/
def combinedValue (fields : List (Header × Bytes × Bytes)) (name : Bytes) : Option Bytes :=
  match valuesOf fields name with
  | [] => none
  | v :: vs => some (joinComma (v :: vs))

/-- A reason that the parser takes: not empty, printable ASCII, no space first. -/
def IsPlainReason (s : Bytes) : Prop := s ≠ [] ∧ (∀ b ∈ s, 32 ≤ b.toNat ∧ b.toNat < 127) ∧ s.head? ≠ some 32

/-- Nothing but spaces before a value, nothing after it. -/
def TidyBlanks (f : Header × Bytes × Bytes) : Prop := (∀ b ∈ f.2.1, b = 32) ∧ f.2.2 = []

/-- What the parser takes from a line: all between colon and CR, without the spaces (not the tabs) in front. -/
def receivedField (f : Header × Bytes × Bytes) : Header := (f.1.1, trimLeft (f.2.1 ++ f.1.2 ++ f.2.2))

/-! ## What is accepted -/

/-- Spaces only. -/
def Spaces (s : Bytes) : Prop := ∀ b ∈ s, b = 32

/-- Empty lines, ended by CRLF or LF. -/
inductive BlankLines : Bytes → Prop
  | nil : BlankLines []
  | crlf {s : Bytes} : BlankLines s → BlankLines (13 :: 10 :: s)
  | lf {s : Bytes} : BlankLines s → BlankLines (10 :: s)

/-- A field line as it is accepted.  Spaces may stand before the colon.  A value is anything without CR that does not begin with a
space, LF and NUL included.  After an empty value, CR CR LF and CR SP end the line as well as CR LF. -/
def AcceptedLine (h : Header) (line : Bytes) : Prop :=
  IsFieldName h.1 ∧ ∃ a b e, Spaces a ∧ Spaces b ∧ (13 : UInt8) ∉ h.2 ∧ h.2.head? ≠ some 32 ∧
    (e = [13, 10] ∨ (h.2 = [] ∧ (e = [13, 13, 10] ∨ e = [13, 32]))) ∧ line = h.1 ++ a ++ [58] ++ b ++ h.2 ++ e

/-- Accepted field lines and the end of the head: CRLF or LF. -/
inductive AcceptedFields : List Header → Bytes → Prop
  | done {e : Bytes} : (e = [13, 10] ∨ e = [10]) → AcceptedFields [] e
  | more {h : Header} {line : Bytes} {hs : List Header} {text : Bytes} :
      AcceptedLine h line → AcceptedFields hs text → AcceptedFields (h :: hs) (line ++ text)

/-- A response head as it is accepted: empty lines may come first, several spaces may separate, HTTP/2 and HTTP/3 are versions too,
the status runs to 999, the reason is printable ASCII and is not optional, LF may end the line. -/
def AcceptedResponse (v : Version) (code : Nat) (hs : List Header) (head : Bytes) : Prop :=
  ∃ lines a b reason e text, BlankLines lines ∧ Spaces a ∧ a ≠ [] ∧ Spaces b ∧ b ≠ [] ∧
    reason ≠ [] ∧ (∀ x ∈ reason, 32 ≤ x.toNat ∧ x.toNat < 127) ∧ reason.head? ≠ some 32 ∧ (e = [13, 10] ∨ e = [10]) ∧
    100 ≤ code ∧ code ≤ 999 ∧ AcceptedFields hs text ∧ ∃ n ∈ versionNames, n.1 = v ∧
      head = lines ++ asciiBytes n.2 ++ a ++ threeDigits code ++ b ++ reason ++ e ++ text

/-- A request head as it is accepted: empty lines may come first, several spaces may separate, the method is one of nine, LF or
even a space may end the line. -/
def AcceptedRequest (m : Method) (target : Bytes) (v : Version) (hs : List Header) (head : Bytes) : Prop :=
  ∃ lines a b e text, BlankLines lines ∧ Spaces a ∧ a ≠ [] ∧ Spaces b ∧ b ≠ [] ∧
    target ≠ [] ∧ (∀ x ∈ target, 32 < x.toNat ∧ x.toNat < 127) ∧ (e = [13, 10] ∨ e = [10] ∨ e = [32]) ∧
    AcceptedFields hs text ∧ ∃ n ∈ versionNames, n.1 = v ∧ ∃ k ∈ methodNames, k.1 = m ∧
      head = lines ++ asciiBytes k.2 ++ a ++ target ++ b ++ asciiBytes n.2 ++ e ++ text

/-- The headers one after the other stored in an empty map (`HeaderMap.insert`, C35): a name that comes again replaces the value. -/
def storeAll (hs : List Header) : HeaderMap := hs.foldl (fun m h => m.insert h.1 h.2) []

end Webparse.Spec
