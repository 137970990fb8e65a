import Verif.Model.Helper

/-!
# Texts of error codes and errors, and the order of frames

/repo/src/http/http2/frame/reason.rs, the `error.rs` files, /repo/src/http/http2/frame/frame.rs:285-320.
-/

namespace Webparse

/-- src/http/http2/frame/reason.rs:30-31 (`Reason`), with the conversions of lines 99-109: a code of 32 bits. -/
structure Reason where
  code : UInt32
  deriving DecidableEq

/-- src/http/http2/frame/reason.rs:38-72, the constants by their names. -/
def Reason.constants : List (String × Reason) := [
  ("NO_ERROR", ⟨0⟩), ("PROTOCOL_ERROR", ⟨1⟩), ("INTERNAL_ERROR", ⟨2⟩), ("FLOW_CONTROL_ERROR", ⟨3⟩), ("SETTINGS_TIMEOUT", ⟨4⟩),
  ("STREAM_CLOSED", ⟨5⟩), ("FRAME_SIZE_ERROR", ⟨6⟩), ("REFUSED_STREAM", ⟨7⟩), ("CANCEL", ⟨8⟩), ("COMPRESSION_ERROR", ⟨9⟩),
  ("CONNECT_ERROR", ⟨10⟩), ("ENHANCE_YOUR_CALM", ⟨11⟩), ("INADEQUATE_SECURITY", ⟨12⟩), ("HTTP_1_1_REQUIRED", ⟨13⟩)]

/-- src/http/http2/frame/reason.rs:75-96 (`description`); `Display` (142-146) writes it. -/
def Reason.description (r : Reason) : Bytes :=
  asciiBytes <| match r.code.toNat with
    | 0 => "not a result of an error"
    | 1 => "unspecific protocol error detected"
    | 2 => "unexpected internal error encountered"
    | 3 => "flow-control protocol violated"
    | 4 => "settings ACK not received in timely manner"
    | 5 => "received frame when stream half-closed"
    | 6 => "frame with invalid size"
    | 7 => "refused stream before processing any application logic"
    | 8 => "stream no longer needed"
    | 9 => "unable to maintain the header compression context"
    | 10 => "connection established in response to a CONNECT request was reset or abnormally closed"
    | 11 => "detected excessive load generating behavior"
    | 12 => "security properties do not meet minimum requirements"
    | 13 => "endpoint requires HTTP/1.1"
    | _ => "unknown reason"

/-- src/http/http2/frame/reason.rs:111-140 (`Debug`, with `Hex`), as `{:?}` prints it: `debug_tuple` writes the field in parentheses. -/
def Reason.debug (r : Reason) : Bytes :=
  match r.code.toNat with
  | 0 => asciiBytes "NO_ERROR"
  | 1 => asciiBytes "PROTOCOL_ERROR"
  | 2 => asciiBytes "INTERNAL_ERROR"
  | 3 => asciiBytes "FLOW_CONTROL_ERROR"
  | 4 => asciiBytes "SETTINGS_TIMEOUT"
  | 5 => asciiBytes "STREAM_CLOSED"
  | 6 => asciiBytes "FRAME_SIZE_ERROR"
  | 7 => asciiBytes "REFUSED_STREAM"
  | 8 => asciiBytes "CANCEL"
  | 9 => asciiBytes "COMPRESSION_ERROR"
  | 10 => asciiBytes "CONNECT_ERROR"
  | 11 => asciiBytes "ENHANCE_YOUR_CALM"
  | 12 => asciiBytes "INADEQUATE_SECURITY"
  | 13 => asciiBytes "HTTP_1_1_REQUIRED"
  | other => asciiBytes "Reason(" ++ hexLower other ++ asciiBytes ")"

/-- src/error.rs:31-43, src/http/error.rs:46-60, src/http/http2/error.rs:70-76, src/url/error.rs:26-31, src/ws/error.rs:14-19
(`description_str`, which `Display` writes).  `none` for `WsError::DataFrameError`, whose text is the one it was made with. -/
def Error.text : Error → Option String
  | .partialData => some "invalid HTTP length"
  | .newLine => some "invalid new line"
  | .headerName => some "invalid header name"
  | .headerValue => some "invalid header value"
  | .token => some "invalid token"
  | .httpVersion => some "invalid HTTP version"
  | .httpMethod => some "invalid HTTP Method"
  | .invalidStatusCode => some "invalid status code"
  | .schemeTooLong => some "scheme too long"
  | .urlInvalid => some "invalid Url"
  | .urlCodeInvalid => some "invalid Url Code"
  | .intoError => some "into value error"
  | .serialize => some "serialize error"
  | .extension => some "std error"
  | .io => some "io error"
  | .short | .badFlag | .tooMuchPadding | .invalidPayloadLength | .badFrameSize | .invalidStreamId
  | .invalidSettingValue | .invalidWindowUpdateValue | .invalidDependencyId | .invalidRequestUrl
  | .payloadLengthTooShort | .headerIndexOutOfBounds | .intTooManyOctets | .intNotEnoughOctets | .intInvalidPrefix
  | .strNotEnoughOctets | .huffPaddingTooLarge => some ""
  | .wsDataFrame => none
  | .wsProtocol => some ""

/-- src/http/http2/frame/frame.rs:284-301 (`PriorityFrame`). -/
structure PriorityFrame (F : Type) where
  frame : F
  weight : UInt8

/-- src/http/http2/frame/frame.rs:303-314 (`Ord`, and `PartialOrd`, which wraps the same in `Some`). -/
def PriorityFrame.cmp {F : Type} (a b : PriorityFrame F) : Ordering := compare a.weight.toNat b.weight.toNat

/-- src/http/http2/frame/frame.rs:315-320 (`PartialEq`). -/
def PriorityFrame.eq {F : Type} (a b : PriorityFrame F) : Bool := a.weight == b.weight

end Webparse
