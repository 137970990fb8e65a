import Verif.Model.Hpack

/-! A header block that says one large field again and again, for stating what a limit on header lists costs. -/

namespace Webparse.Spec

/-- A literal field `a: v` with incremental indexing (RFC 7541 6.2.1), `v` written plainly and 4031 bytes long, and `n`
octets naming the newest entry of the dynamic table, index 62 (6.1). -/
def repeatBlock (v : Bytes) (n : Nat) : Bytes :=
  [0x40, 0x01, 0x61] ++ ([0x7F, 0xC0, 0x1E] ++ v) ++ List.replicate n 0xBE

end Webparse.Spec
