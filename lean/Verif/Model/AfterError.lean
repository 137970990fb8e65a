import Verif.Model.FrameHeaders

/-!
# What the decoder is left with, whatever the verdict

/repo/src/http/http2/hpack/decoder.rs, /repo/src/http/http2/frame/headers.rs, /repo/src/http/http2/frame/frame.rs: the same functions as
`decodeRun`, `HeadersFrame.parse` and `Frame.parse`, which give the decoder's table only if all went well.
-/

namespace Webparse

/-- src/http/http2/hpack/decoder.rs:115-175 (`decode_with_cb`), run for at most `fuel` rounds: the headers handed to the callback and the
table when the call returns, with `Ok` or with an error.  `add_header` is called after a literal has been decoded, so the round that fails
changes nothing. -/
def decodeSoFar : (fuel : Nat) → HeaderIndex → Bytes → List Header × HeaderIndex
  | _, t, [] => ([], t)
  | 0, t, _ :: _ => ([], t)
  | fuel + 1, t, octet :: rest =>
    match decodeStep t octet rest with
    | .ok (hs, t, consumed) =>
      let x := decodeSoFar fuel t ((octet :: rest).drop consumed)
      (hs ++ x.1, x.2)
    | .err _ => ([], t)
    | .panic => ([], t)

/-- src/http/http2/frame/headers.rs:129-175 (`Headers::parse`): the decoder's table afterwards.  The decoder is run to its end before the
first header is looked at (line 140), and not at all if the priority fields are not there (line 136). -/
def HeadersFrame.tableAfter (f : HeadersFrame) (buf : Bytes) (t : HeaderIndex) : HeaderIndex :=
  match f.loadDep buf with
  | .ok (_, buf) => (decodeSoFar buf.length t buf).2
  | .err _ => t
  | .panic => t

/-- src/http/http2/frame/frame.rs:155-187 (`Frame::parse`): the decoder's table afterwards.  Only HEADERS frames use the decoder. -/
def Frame.tableAfter (head : FrameHeader) (buf : Bytes) (t : HeaderIndex) : HeaderIndex :=
  match trimPadding head buf with
  | .ok buf =>
    match head.kind with
    | .headers => HeadersFrame.tableAfter { streamId := head.id, flags := head.flag } buf t
    | _ => t
  | .err _ => t
  | .panic => t

end Webparse
