import Verif.Model.Url
import Verif.Spec.Http1

/-! Notions used to state properties of URLs, written from RFC 3986 and not from the code. -/

namespace Webparse.Spec

/-! ## Percent-encoding -/

/-- `v` is what the text `s` stands for: each `%XY` is one byte, every other character itself. -/
inductive Decodes : Bytes → Bytes → Prop
  | nil : Decodes [] []
  | plain {b : UInt8} {s v : Bytes} : b ≠ 37 → Decodes s v → Decodes (b :: s) (b :: v)
  | escape {x y : UInt8} {t u : Nat} {s v : Bytes} : hexDigit? x = some t → hexDigit? y = some u →
      Decodes s v → Decodes (37 :: x :: y :: s) (UInt8.ofNat (16 * t + u) :: v)

/-- Each `%` of the text is followed by two hexadecimal digits. -/
def WellEscaped (s : Bytes) : Prop :=
  ∀ i, s[i]? = some (37 : UInt8) → ∃ x y, s[i + 1]? = some x ∧ s[i + 2]? = some y ∧
    (hexDigit? x).isSome ∧ (hexDigit? y).isSome

/-- Letters, digits, and the punctuation the encoder keeps. -/
def isKept (b : UInt8) : Bool :=
  (asciiBytes "ABCDEFGHIJKLMNOPQRSTUVWXYZabcdefghijklmnopqrstuvwxyz0123456789&-./:=?@_").contains b

/-- Kept characters and complete escapes, nothing else. -/
inductive SafeText : Bytes → Prop
  | nil : SafeText []
  | kept {b : UInt8} {s : Bytes} : isKept b = true → SafeText s → SafeText (b :: s)
  | escape {x y : UInt8} {s : Bytes} : (hexDigit? x).isSome → (hexDigit? y).isSome → SafeText s →
      SafeText (37 :: x :: y :: s)

/-! ## The parts of a URL -/

/-- The text before the first `c`, and the text after it if there is one. -/
def cut (c : UInt8) : Bytes → Bytes × Option Bytes
  | [] => ([], none)
  | b :: r => if b = c then ([], some r) else (b :: (cut c r).1, (cut c r).2)

/-- The parts of a URL as they are written. -/
structure RawParts where
  username : Option Bytes := none
  password : Option Bytes := none
  domain : Option Bytes := none
  port : Option Bytes := none
  path : Option Bytes := none
  query : Option Bytes := none

/-- `host` or `host:port`. -/
def hostParts (h : Bytes) : Option RawParts :=
  match cut 58 h with
  | (d, none) => some { domain := some d }
  | (d, some p) => if 58 ∈ p then none else some { domain := some d, port := some p }

/-- `host`, `host:port`, `user:password@host` or `user:password@host:port`. -/
def authorityParts (a : Bytes) : Option RawParts :=
  match cut 64 a with
  | (h, none) => hostParts h
  | (ui, some h) =>
    match cut 58 ui with
    | (u, some p) =>
      if 58 ∈ p then none
      else (hostParts h).map fun r => { r with username := some u, password := some p }
    | (_, none) => none

/-- The path and the query of a text that is empty or starts with `/`. -/
def pathParts (t : Bytes) (r : RawParts) : RawParts :=
  if t = [] then r else { r with path := some (cut 63 t).1, query := (cut 63 t).2 }

/-- A part that is written is decoded to valid UTF-8; one that is not written is absent. -/
def PartIs : Option Bytes → Option Bytes → Prop
  | none, o => o = none
  | some raw, o => ∃ v, Decodes raw v ∧ utf8Valid v = true ∧ o = some v

/-- The port written, or the default port of the scheme. -/
def PortIs (dflt : Nat) : Option Bytes → Option Nat → Prop
  | none, o => o = some dflt
  | some raw, o => ∃ v n, Decodes raw v ∧ (IsNumeral v n ∨ ∃ t, v = 43 :: t ∧ IsNumeral t n) ∧ n < 65536 ∧ o = some n

/-- The default port of a scheme. -/
def defaultPort (s : Scheme) : Nat :=
  match s with
  | .http | .ws => 80
  | .https | .wss => 443
  | .ftp => 21
  | _ => 0

/-- `u` is the URL whose written parts are `r`; a path that is not written is `/`. -/
structure IsUrl (s : Scheme) (r : RawParts) (u : Url) : Prop where
  scheme : u.scheme = s
  username : PartIs r.username u.username
  password : PartIs r.password u.password
  domain : PartIs r.domain u.domain
  port : PortIs (defaultPort s) r.port u.port
  path : PartIs (some (r.path.getD [47])) (some u.path)
  query : PartIs r.query u.query

/-- A printable ASCII character other than the space. -/
def IsPrint (b : UInt8) : Prop := 33 ≤ b.toNat ∧ b.toNat ≤ 126

/-- The text of a scheme: a letter, then letters, digits, `+`, `-` and `.`; at most 64. -/
structure SchemeText (t : Bytes) : Prop where
  head : ∃ c r, t = c :: r ∧ isLetter c = true
  chars : ∀ b ∈ t, (asciiBytes
    "ABCDEFGHIJKLMNOPQRSTUVWXYZabcdefghijklmnopqrstuvwxyz0123456789+-.").contains b = true
  len : t.length ≤ 64

/-- The five known schemes. -/
def schemeNames : List (Scheme × String) :=
  [(.http, "http"), (.https, "https"), (.ws, "ws"), (.wss, "wss"), (.ftp, "ftp")]

/-! ## URLs that text can carry -/

/-- The parts that the text form can carry: an absolute URL with a host of printable characters, a
port, user information complete or absent, and a path that starts with `/`; or an origin-form one,
which has only a path and a query.  All parts are valid UTF-8. -/
structure Carried (u : Url) : Prop where
  slash : u.path.head? = some 47
  path : utf8Valid u.path = true
  query : ∀ q, u.query = some q → utf8Valid q = true
  kind :
    (u.scheme = .none ∧ u.username = none ∧ u.password = none ∧ u.domain = none ∧ u.port = some 0) ∨
    (u.scheme ≠ .none ∧ SchemeText u.scheme.asStr ∧ (∀ t, u.scheme = .extension t → ∀ e ∈ schemeNames, t ≠ asciiBytes e.2) ∧
      (∃ d, u.domain = some d ∧ ∀ b ∈ d, IsPrint b ∧ b ∉ asciiBytes "%/:?@") ∧
      (∃ p, u.port = some p ∧ p < 65536) ∧
      ((u.username = none ∧ u.password = none) ∨
        ∃ n w, u.username = some n ∧ u.password = some w ∧ utf8Valid n = true ∧ utf8Valid w = true))

/-- The characters that `Display` writes as they are though they end the part they stand in. -/
structure NoSeparators (u : Url) : Prop where
  username : ∀ n, u.username = some n → ∀ b ∈ n, b ∉ asciiBytes ":@/?"
  password : ∀ w, u.password = some w → ∀ b ∈ w, b ∉ asciiBytes ":@/?"
  path : ∀ b ∈ u.path, b ∉ asciiBytes "?@"
  query : ∀ q, u.query = some q → (64 : UInt8) ∉ q

/-- The value of a `Host` header that is read: `name` or `name:port` with a port of 16 bits. -/
def HostValue (x : Bytes) : Prop :=
  (58 : UInt8) ∉ x ∨ ∃ d p n, x = d ++ 58 :: p ∧ (58 : UInt8) ∉ d ∧ (IsNumeral p n ∨ ∃ t, p = 43 :: t ∧ IsNumeral t n) ∧ n < 65536

end Webparse.Spec
