import Verif.Model.Frame
import Verif.Model.HeaderMap

/-!
# The `HTTP2-Settings` header

/repo/src/http/http2/frame/settings.rs:311-332.  The `base64` crate is not part of the repository: its engine
`URL_SAFE_NO_PAD` is modelled from RFC 4648, section 5, with the strictness the crate documents for
that engine (no padding, unused bits zero).
-/

namespace Webparse

/-- For src/http/http2/frame/settings.rs:313, 331 (`URL_SAFE_NO_PAD`): the alphabet of RFC 4648, section 5. -/
def base64Alphabet : Bytes := asciiBytes "ABCDEFGHIJKLMNOPQRSTUVWXYZabcdefghijklmnopqrstuvwxyz0123456789-_"

/-- For src/http/http2/frame/settings.rs:331: the character of a number below 64. -/
def base64Char (n : Nat) : UInt8 := base64Alphabet.getD n 0

/-- For src/http/http2/frame/settings.rs:313: the number of a character. -/
def base64Val (c : UInt8) : Option Nat := base64Alphabet.findIdx? (· == c)

/-- For src/http/http2/frame/settings.rs:331: `URL_SAFE_NO_PAD.encode`, three bytes to four characters. -/
def base64Encode : Bytes → Bytes
  | [] => []
  | [a] => [base64Char (a.toNat / 4), base64Char (a.toNat % 4 * 16)]
  | [a, b] => [base64Char (a.toNat / 4), base64Char (a.toNat % 4 * 16 + b.toNat / 16), base64Char (b.toNat % 16 * 4)]
  | a :: b :: c :: r =>
    base64Char (a.toNat / 4) :: base64Char (a.toNat % 4 * 16 + b.toNat / 16) ::
      base64Char (b.toNat % 16 * 4 + c.toNat / 64) :: base64Char (c.toNat % 64) :: base64Encode r

/-- For src/http/http2/frame/settings.rs:313: `URL_SAFE_NO_PAD.decode`: `none` for characters outside the
alphabet (padding included), for a lone last character, and for unused bits that are not zero. -/
def base64Decode : Bytes → Option Bytes
  | [] => some []
  | [_] => none
  | [w, x] =>
    match base64Val w, base64Val x with
    | some w, some x => if x % 16 = 0 then some [UInt8.ofNat (w * 4 + x / 16)] else none
    | _, _ => none
  | [w, x, y] =>
    match base64Val w, base64Val x, base64Val y with
    | some w, some x, some y =>
      if y % 4 = 0 then some [UInt8.ofNat (w * 4 + x / 16), UInt8.ofNat (x % 16 * 16 + y / 4)] else none
    | _, _, _ => none
  | w :: x :: y :: z :: r =>
    match base64Val w, base64Val x, base64Val y, base64Val z, base64Decode r with
    | some w, some x, some y, some z, some r =>
      some (UInt8.ofNat (w * 4 + x / 16) :: UInt8.ofNat (x % 16 * 16 + y / 4) :: UInt8.ofNat (y % 4 * 64 + z) :: r)
    | _, _, _, _, _ => none

/-- src/http/http2/frame/settings.rs:311-322 (`parse_http_settings`); `self` is not used. -/
def Settings.parseHttp (value : Bytes) : Res Settings :=
  match base64Decode value with
  | none => .err .invalidSettingValue
  | some v => Settings.parseSetting v

/-- src/http/http2/frame/settings.rs:324-332 (`encode_http_settings`). -/
def Settings.encodeHttp (s : Settings) : Bytes := base64Encode (s.forEach.flatMap Setting.encode)

/-- src/http/request.rs:325-333 (`Builder::upgrade_http2`), on the headers of the request being built. -/
def HeaderMap.upgradeHttp2 (m : HeaderMap) (s : Settings) : HeaderMap :=
  ((m.insert (asciiBytes "Connection") (asciiBytes "Upgrade, HTTP2-Settings")).insert
    (asciiBytes "Upgrade") (asciiBytes "h2c")).insert (asciiBytes "HTTP2-Settings") s.encodeHttp

end Webparse
