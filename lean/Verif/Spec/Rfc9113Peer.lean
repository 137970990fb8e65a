import Verif.Spec.Rfc9113Connection
import Verif.Spec.Grammar
import Verif.Spec.Lossy

/-!
# RFC 9113: header lists of messages, and what the library makes of them

`MessageFields` is written from RFC 9113 section 8.2 and 8.3, `Understood` says what a reader should find in a HEADERS
frame, `TakenAs` what the code puts there.
-/

namespace Webparse.Spec

/-- The pseudo-header fields that RFC 9113 defines: four of requests, one of responses. -/
def requestNames : List Bytes :=
  [asciiBytes ":method", asciiBytes ":scheme", asciiBytes ":authority", asciiBytes ":path"]

/-- The first value of a field. -/
def firstField : List Header → Bytes → Option Bytes
  | [], _ => none
  | h :: hs, n => if h.1 = n then some h.2 else firstField hs n

/-- The last value of a field. -/
def lastField : List Header → Bytes → Option Bytes
  | [], _ => none
  | h :: hs, n =>
    match lastField hs n with
    | some v => some v
    | none => if h.1 = n then some h.2 else none

/-- All values of a field, in order. -/
def allFields (fields : List Header) (n : Bytes) : List Bytes := (fields.filter fun h => h.1 == n).map (·.2)

/-- Strings with `; ` between them (RFC 9113 8.2.3). -/
def joinSemicolon : List Bytes → Bytes
  | [] => []
  | [v] => v
  | v :: w :: vs => v ++ [59, 32] ++ joinSemicolon (w :: vs)

/-- The value of a field: several lines are one list (RFC 9110 5.3), several `cookie` lines one cookie (RFC 9113
8.2.3). -/
def fieldValue (fields : List Header) (n : Bytes) : Option Bytes :=
  match allFields fields n with
  | [] => none
  | v :: vs => some (if n = asciiBytes "cookie" then joinSemicolon (v :: vs) else joinComma (v :: vs))

/-- Visible ASCII. -/
def IsVisible (s : Bytes) : Prop := ∀ b ∈ s, 0x21 ≤ b.toNat ∧ b.toNat ≤ 0x7e

/-- RFC 9113 8.2 and 8.3: a header list that is not malformed. -/
structure MessageFields (fields : List Header) : Prop where
  /-- 8.3: pseudo-header fields come first. -/
  first : PseudoFirst fields
  /-- 8.3: only defined ones, those of a request or that of a response. -/
  known : (∀ h ∈ fields, h.1.head? = some 58 → h.1 ∈ requestNames) ∨
    (∀ h ∈ fields, h.1.head? = some 58 → h.1 = asciiBytes ":status")
  /-- 8.3: none twice. -/
  once : ∀ n, n.head? = some 58 → (allFields fields n).length ≤ 1
  /-- 8.2.1: the other names are tokens in lower case. -/
  names : ∀ h ∈ fields, h.1.head? ≠ some 58 → IsFieldName h.1 ∧ lower h.1 = h.1
  /-- 8.2.1: values are field values; in particular no CR, LF or NUL. -/
  values : ∀ h ∈ fields, IsFieldValue h.2
  /-- RFC 9110 9.1: a method is a token. -/
  method : ∀ v, (asciiBytes ":method", v) ∈ fields → IsFieldName v
  /-- RFC 3986: parts of a URI are visible ASCII. -/
  uri : ∀ h ∈ fields, h.1 = asciiBytes ":scheme" ∨ h.1 = asciiBytes ":authority" ∨ h.1 = asciiBytes ":path" → IsVisible h.2
  /-- RFC 9110 15: a status is three digits. -/
  status : ∀ v, (asciiBytes ":status", v) ∈ fields → ∃ n, 100 ≤ n ∧ n ≤ 999 ∧ v = threeDigits n

/-- What a reader should find in a HEADERS frame with that header list: the pseudo-header fields as parts, the
others as fields. -/
structure Understood (fields : List Header) (x : HeadersFrame) : Prop where
  method : x.parts.method.map Method.asStr = firstField fields (asciiBytes ":method")
  scheme : x.parts.scheme.map Scheme.asStr = firstField fields (asciiBytes ":scheme")
  authority : x.parts.authority = firstField fields (asciiBytes ":authority")
  path : x.parts.path = firstField fields (asciiBytes ":path")
  status : x.parts.status.map threeDigits = firstField fields (asciiBytes ":status")
  fields : ∀ n, IsFieldName n → lower n = n → x.fields.get? n = fieldValue fields n

/-- The same for a connection; promises are the subject of C77. -/
def HeardBy : Heard → Frame → Prop
  | .frame f, g => g = f
  | .headers id endStream fields, g =>
      ∃ x, g = .headers x ∧ x.streamId = id ∧ (x.flags &&& 1 == 1) = endStream ∧ Understood fields x
  | .promise _ _ _, _ => False

/-- RFC 7541 6.2.2: a literal without indexing, new name, both strings raw and shorter than 127 octets. -/
def literal (n v : Bytes) : Bytes := [0, UInt8.ofNat n.length] ++ n ++ [UInt8.ofNat v.length] ++ v

/-! ## What the code does -/

/-- The methods the code knows. -/
def knownMethods : List Bytes :=
  [asciiBytes "GET", asciiBytes "POST", asciiBytes "PUT", asciiBytes "DELETE", asciiBytes "HEAD", asciiBytes "OPTIONS",
    asciiBytes "CONNECT", asciiBytes "PATCH", asciiBytes "TRACE"]

/-- What the code asks of a header. -/
structure PseudoTaken (h : Header) : Prop where
  method : h.1 = asciiBytes ":method" → h.2 ∈ knownMethods
  scheme : h.1 = asciiBytes ":scheme" → ∃ t, TextOf h.2 t ∧ t.length ≤ 64
  status : h.1 = asciiBytes ":status" → ∃ n, 100 ≤ n ∧ n ≤ 999 ∧ h.2 = threeDigits n

/-- What the code makes of a header list: of several values the last. -/
structure TakenAs (fields : List Header) (x : HeadersFrame) : Prop where
  method : x.parts.method.map Method.asStr = lastField fields (asciiBytes ":method")
  scheme : TextIs (lastField fields (asciiBytes ":scheme")) (x.parts.scheme.map Scheme.asStr)
  authority : TextIs (lastField fields (asciiBytes ":authority")) x.parts.authority
  path : TextIs (lastField fields (asciiBytes ":path")) x.parts.path
  status : x.parts.status.map threeDigits = lastField fields (asciiBytes ":status")
  names : ∀ e ∈ x.fields, ∃ h ∈ fields, h.1 = e.1
  fields : (∀ h ∈ fields, IsPlainName h.1) → ∀ n, IsPlainName n → n.head? ≠ some 58 → x.fields.get? n = lastField fields n

/-- A header list that the code understands: no name twice, none with `~` or `^` (which the code takes
for the same letter), a method it knows, a scheme that is not
too long. -/
structure PlainMessage (fields : List Header) : Prop where
  once : ∀ n, (allFields fields n).length ≤ 1
  quiet : ∀ h ∈ fields, 126 ∉ h.1 ∧ 94 ∉ h.1
  method : ∀ v, (asciiBytes ":method", v) ∈ fields → v ∈ knownMethods
  scheme : ∀ v, (asciiBytes ":scheme", v) ∈ fields → v.length ≤ 64

/-- RFC 9113 heard from a peer that keeps to what the code can read: no padding and no flags without a meaning, every
header list in one frame, indices of one octet and no table size updates. -/
inductive HearsPlain (maxFrame maxList : Nat) : Rfc.Table → List RawFrame → Rfc.Table → List Heard → Prop
  | nil {t} : HearsPlain maxFrame maxList t [] t []
  | frame {t kind flags id payload f fs t' hs} : BlocklessKind kind → flags &&& 0xDA = 0 → payload.length ≤ maxFrame →
      FrameMeans kind flags id payload f → HearsPlain maxFrame maxList t fs t' hs →
      HearsPlain maxFrame maxList t ((kind, flags, id, payload) :: fs) t' (.frame f :: hs)
  | headers {t flags id reps block t' fields gs t'' hs} : id ≠ 0 → flags &&& 0xFA = 0 → flags &&& 4 = 4 →
      block.length ≤ maxFrame → Rfc.IsBlock Rfc.shortInteger reps block → (∀ r ∈ reps, r.Plain) →
      Rfc.Means t reps t' fields → MessageFields fields → (∀ h ∈ fields, PseudoTaken h) → headerListSize fields ≤ maxList →
      HearsPlain maxFrame maxList t' gs t'' hs →
      HearsPlain maxFrame maxList t ((1, flags, id, block) :: gs) t'' (.headers id (flags &&& 1 == 1) fields :: hs)

/-- What the library reports of it. -/
def ReportedAs : Heard → Frame → Prop
  | .frame f, g => g = f
  | .headers id endStream fields, g =>
      ∃ x, g = .headers x ∧ x.streamId = id ∧ (x.flags &&& 1 == 1) = endStream ∧ TakenAs fields x
  | .promise _ _ _, _ => False

end Webparse.Spec
