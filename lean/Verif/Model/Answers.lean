import Verif.Model.FrameHeaders
import Verif.Model.SettingsApi

/-!
# Answers to PING and SETTINGS, the number types, `Serialize` of frames

/repo/src/http/http2/frame/ping.rs, /repo/src/http/http2/frame/mod.rs, /repo/src/http/http2/frame/frame.rs.
-/

namespace Webparse

/-- src/http/http2/frame/ping.rs:38-43 (`Ping::new`). -/
def Ping.new (payload : Bytes) : Ping := { ack := false, payload }

/-- src/http/http2/frame/ping.rs:45-47 (`Ping::pong`). -/
def Ping.pong (payload : Bytes) : Ping := { ack := true, payload }

/-- src/http/http2/frame/ping.rs:49-54 (`Ping::ret_pong`). -/
def Ping.retPong (p : Ping) : Ping := { ack := true, payload := p.payload }

/-- src/http/http2/frame/ping.rs:117-122 (`Serialize for Ping`): the bytes appended and the size returned. -/
def Ping.serialize (p : Ping) : Bytes × Nat := (p.head.encode ++ p.payload, 9 + p.payload.length)

/-- src/http/http2/frame/mod.rs:80-83 (`StreamIdentifier::encode`): bytes appended, size returned. -/
def streamIdEncode (id : Nat) : Bytes × Nat := (beBytes 4 id, 4)

/-- src/http/http2/frame/mod.rs:51-56 (`StreamIdentifier::parse`): the identifier and the unread bytes. -/
def streamIdParse (buf : Bytes) : Nat × Bytes := if buf.length < 4 then (0, buf) else readU31 buf

/-- src/http/http2/frame/mod.rs:110-116 (`read_u64`). -/
def readU64 (buf : Bytes) : Nat × Bytes := if buf.length < 8 then (0, buf) else (beNat (buf.take 8), buf.drop 8)

/-- src/http/http2/frame/mod.rs:129-135 (`read_u24`): three shifted bytes. -/
def readU24 (buf : Bytes) : Nat × Bytes :=
  match buf with
  | a :: b :: c :: rest => (a.toNat <<< 16 ||| b.toNat <<< 8 ||| c.toNat, rest)
  | _ => (0, buf)

/-- src/http/http2/frame/mod.rs:137-143 (`encode_u24`): bytes appended, size returned. -/
def encodeU24 (val : Nat) : Bytes × Nat :=
  ([UInt8.ofNat (val >>> 16), UInt8.ofNat (val >>> 8), UInt8.ofNat (val >>> 0)], 3)

/-- src/http/http2/frame/mod.rs:149-151 (`SizeIncrement::parse`): `get_u32` panics if fewer than four bytes are left. -/
def sizeIncrementParse (buf : Bytes) : Res (Nat × Bytes) :=
  if buf.length < 4 then .panic else .ok (beNat (buf.take 4), buf.drop 4)

/-- src/http/http2/frame/mod.rs:153-163 (`SizeIncrement::encode` and `serialize`): bytes appended, size returned. -/
def sizeIncrementEncode (n : Nat) : Bytes × Nat := (beBytes 4 n, 4)

/-- src/http/http2/frame/mod.rs:175-178 (`ErrorCode::parse`): `advance(4)`, which panics if fewer than four bytes are left, and
then always 0. -/
def errorCodeParse (buf : Bytes) : Res (Nat × Bytes) :=
  if buf.length < 4 then .panic else .ok (0, buf.drop 4)

/-- src/http/http2/frame/mod.rs:181-186 (`ErrorCode::serialize`). -/
def errorCodeSerialize (n : Nat) : Bytes × Nat := (beBytes 4 n, 4)

/-- src/http/http2/frame/frame.rs:205-213 (`Serialize for Frame`): the bytes appended and the size returned. -/
def Frame.serialize (_ : Frame) : Bytes × Nat := ([], 0)

/-- src/http/http2/frame/frame.rs:190-193 (`encoded_len`). -/
def Frame.encodedLen (_ : Frame) : Nat := 0

/-- src/error.rs:45-50 (`WebError::is_partial`); `partialData` is `HttpError::Partial`. -/
def Error.isPartial : Error → Bool
  | .partialData => true
  | _ => false

end Webparse
