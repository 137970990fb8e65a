import Verif.Model.Reason

/-! # Error codes of HTTP/2, the kinds of errors, queues of frames -/

namespace Webparse.Spec

/-- RFC 9113 section 7: the error codes and their names. -/
def rfcErrorCodes : List (UInt32 × String) := [
  (0x00, "NO_ERROR"), (0x01, "PROTOCOL_ERROR"), (0x02, "INTERNAL_ERROR"), (0x03, "FLOW_CONTROL_ERROR"), (0x04, "SETTINGS_TIMEOUT"),
  (0x05, "STREAM_CLOSED"), (0x06, "FRAME_SIZE_ERROR"), (0x07, "REFUSED_STREAM"), (0x08, "CANCEL"), (0x09, "COMPRESSION_ERROR"),
  (0x0a, "CONNECT_ERROR"), (0x0b, "ENHANCE_YOUR_CALM"), (0x0c, "INADEQUATE_SECURITY"), (0x0d, "HTTP_1_1_REQUIRED")]

/-- The errors that come from reading HTTP/1, URLs and values. -/
def SpokenError (e : Error) : Prop :=
  e ∈ [Error.partialData, .newLine, .headerName, .headerValue, .token, .httpVersion, .httpMethod, .invalidStatusCode, .schemeTooLong,
    .urlInvalid, .urlCodeInvalid, .intoError, .serialize, .extension, .io]

/-- A queue is emptied in an order that the comparison allows: all that was in it, and never one before a greater one. -/
def Emptied {α : Type} (cmp : α → α → Ordering) (queue out : List α) : Prop :=
  out.Perm queue ∧ out.Pairwise fun a b => cmp a b ≠ .lt

end Webparse.Spec
