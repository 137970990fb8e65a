import Verif.Model.Method

/-! # RFC 9110, section 9.3: which messages have content -/

namespace Webparse.Spec

/-- What RFC 9110 says of content in a message. -/
inductive Content where
  /-- "does not have content", "MUST NOT send content" -/
  | never
  /-- "content ... has no generally defined semantics", "SHOULD NOT generate content" -/
  | discouraged
  /-- Content is provided for, or nothing is said of it. -/
  | may
  deriving DecidableEq

/-- Content of a request: sections 9.3.1 (GET), 9.3.2 (HEAD), 9.3.5 (DELETE), 9.3.6 (CONNECT: "does not have content"), 9.3.7 (OPTIONS: "A
client that generates an OPTIONS request containing content MUST send a valid Content-Type"), 9.3.8 (TRACE: "MUST NOT send content"). -/
def requestContent : Method → Content
  | .connect | .trace => .never
  | .get | .head | .delete => .discouraged
  | _ => .may

/-- Content of a successful response, by the method of the request: section 6.4.1.  The response to HEAD has none, nor the one to CONNECT, which
becomes a tunnel; the others may (9.3.7 for OPTIONS: "If the response has no content" the server sends Content-Length 0). -/
def responseContent : Method → Content
  | .head | .connect => .never
  | _ => .may

end Webparse.Spec
