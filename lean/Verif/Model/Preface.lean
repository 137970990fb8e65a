import Verif.Model.Basic

/-! # src/http/http2/mod.rs: the connection preface -/

namespace Webparse

/-- src/http/http2/mod.rs:13 (`HTTP2_MAGIC`). -/
def http2Magic : Bytes := asciiBytes "PRI * HTTP/2.0\r\n\r\nSM\r\n\r\n"

/-- src/http/http2/mod.rs:14 (`MAIGC_LEN`). -/
def magicLen : Nat := http2Magic.length

end Webparse
