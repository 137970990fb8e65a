import Verif.Model.Ws
import Verif.Model.Helper

/-!
# What is left in the reader after a WebSocket frame was read or not

/repo/src/ws/frame_header.rs, dataframe.rs.  `Verif.Model.Ws` gives the unread bytes only with a frame; here the
reader is returned in every case.  A `try_get_...` that fails is assumed to take nothing (external crate).
-/

namespace Webparse

/-- `try_get_u8` (src/ws/frame_header.rs:74-75, 109-112). -/
def getByte (buf : Bytes) : Res UInt8 × Bytes :=
  match buf with
  | [] => (.err .io, [])
  | b :: rest => (.ok b, rest)

/-- `try_get_u16`, `try_get_u64` for `k = 2, 8` (src/ws/frame_header.rs:83, 90). -/
def getBe (k : Nat) (buf : Bytes) : Res Nat × Bytes :=
  if buf.length < k then (.err .io, buf) else (.ok (beNat (buf.take k)), buf.drop k)

/-- src/ws/frame_header.rs:80-97: the payload length. -/
def readLenSt (byte1 : UInt8) (buf : Bytes) : Res Nat × Bytes :=
  let short := byte1 &&& 0x7F
  if short ≤ 125 then (.ok short.toNat, buf)
  else if short = 126 then thenRead (getBe 2 buf) fun len buf =>
    if len ≤ 125 then (.err .wsDataFrame, buf) else (.ok len, buf)
  else thenRead (getBe 8 buf) fun len buf =>
    if len ≤ 65535 then (.err .wsDataFrame, buf) else (.ok len, buf)

/-- src/ws/frame_header.rs:108-117: the masking key. -/
def readMaskSt (byte1 : UInt8) (buf : Bytes) : Res (Option MaskKey) × Bytes :=
  if byte1 &&& 0x80 = 0x80 then
    thenRead (getByte buf) fun a buf => thenRead (getByte buf) fun b buf => thenRead (getByte buf) fun c buf =>
    thenRead (getByte buf) fun d buf => (.ok (some ⟨a, b, c, d⟩), buf)
  else (.ok none, buf)

/-- src/ws/frame_header.rs:70-125 (`read_header`): the header and the reader afterwards. -/
def readHeaderSt (buf : Bytes) : Res WsHeader × Bytes :=
  thenRead (getByte buf) fun byte0 buf => thenRead (getByte buf) fun byte1 buf =>
  let flags := wsFlagsTruncate byte0
  let opcode := byte0 &&& 0x0F
  thenRead (readLenSt byte1 buf) fun len buf =>
  if opcode ≥ 8 ∧ len ≥ 126 then (.err .wsDataFrame, buf)
  else if opcode ≥ 8 ∧ flags &&& wsFin ≠ wsFin then (.err .wsProtocol, buf)
  else thenRead (readMaskSt byte1 buf) fun mask buf => (.ok ⟨flags, opcode, mask, len⟩, buf)

/-- src/ws/dataframe.rs:76-86 (`read_dataframe`), with the parameter `should_be_masked`, which
`read_dataframe_body` (37-73) does not look at: the frame and the reader afterwards. -/
def readFrameSt (_shouldBeMasked : Bool) (buf : Bytes) : Res WsFrame × Bytes :=
  thenRead (readHeaderSt buf) fun header rest =>
  if rest.length < header.len then (.err .io, rest)
  else (wsReadBody header (rest.take header.len), rest.drop header.len)

end Webparse
