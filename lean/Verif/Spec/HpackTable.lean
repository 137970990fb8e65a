import Verif.Model.Hpack

/-!
# RFC 7541, sections 2.3, 4 and Appendix A

Written from the RFC, independently of the code.
-/

namespace Webparse.Spec

/-- RFC 7541 Appendix A. -/
def rfcStaticTable : List (String × String) := [
  (":authority", ""), (":method", "GET"), (":method", "POST"), (":path", "/"),
  (":path", "/index.html"), (":scheme", "http"), (":scheme", "https"), (":status", "200"),
  (":status", "204"), (":status", "206"), (":status", "304"), (":status", "400"),
  (":status", "404"), (":status", "500"), ("accept-charset", ""),
  ("accept-encoding", "gzip, deflate"), ("accept-language", ""), ("accept-ranges", ""),
  ("accept", ""), ("access-control-allow-origin", ""), ("age", ""), ("allow", ""),
  ("authorization", ""), ("cache-control", ""), ("content-disposition", ""),
  ("content-encoding", ""), ("content-language", ""), ("content-length", ""),
  ("content-location", ""), ("content-range", ""), ("content-type", ""), ("cookie", ""),
  ("date", ""), ("etag", ""), ("expect", ""), ("expires", ""), ("from", ""), ("host", ""),
  ("if-match", ""), ("if-modified-since", ""), ("if-none-match", ""), ("if-range", ""),
  ("if-unmodified-since", ""), ("last-modified", ""), ("link", ""), ("location", ""),
  ("max-forwards", ""), ("proxy-authenticate", ""), ("proxy-authorization", ""), ("range", ""),
  ("referer", ""), ("refresh", ""), ("retry-after", ""), ("server", ""), ("set-cookie", ""),
  ("strict-transport-security", ""), ("transfer-encoding", ""), ("user-agent", ""), ("vary", ""),
  ("via", ""), ("www-authenticate", "")]

/-- RFC 7541 4.1: the size of a table (list of name/value pairs). -/
def tableSize (l : List (Bytes × Bytes)) : Nat :=
  (l.map fun h => h.1.length + h.2.length + 32).sum

/-- `kept` is what RFC 7541 4.3/4.4 leaves of the entries `l` (newest first) under `limit`:
the longest run of newest entries that fits. -/
def IsEviction (l kept : List (Bytes × Bytes)) (limit : Nat) : Prop :=
  ∃ k, k ≤ l.length ∧ kept = l.take k ∧ tableSize (l.take k) ≤ limit ∧
    ∀ j, k < j → j ≤ l.length → limit < tableSize (l.take j)

/-- Operations on the dynamic table. -/
inductive TableOp where
  | add (name value : Bytes)
  | setMax (limit : Nat)

/-- The entries added by a history, newest first. -/
def added : List TableOp → List (Bytes × Bytes)
  | [] => []
  | .add n v :: ops => added ops ++ [(n, v)]
  | .setMax _ :: ops => added ops

/-- The limit in force after a history. -/
def limitAfter (init : Nat) : List TableOp → Nat
  | [] => init
  | .add _ _ :: ops => limitAfter init ops
  | .setMax l :: ops => limitAfter l ops

/-- One operation of the code. -/
def applyOp (t : HeaderIndex) : TableOp → Res HeaderIndex
  | .add n v => addHeader t (n, v)
  | .setMax l => setMaxTableSize t l

/-- A history of operations of the code. -/
def applyOps (t : HeaderIndex) : List TableOp → Res HeaderIndex
  | [] => .ok t
  | op :: ops => do
    let t ← applyOp t op
    applyOps t ops

end Webparse.Spec
