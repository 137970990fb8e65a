import Verif.Model.Copies

/-!
# Reading a head into a whole message

/repo/src/http/request.rs, /repo/src/http/response.rs: `parse_buffer`, with all that the structures have.
-/

namespace Webparse

variable {ι : Type} [DecidableEq ι] {V : ι → Type} {β : Type}

/-- src/http/request.rs:552-598 (`parse_buffer`) on the whole structure: the result, the request afterwards and the unread
bytes.  `parse_header` empties the headers with src/http/header.rs:102-104 (`clear`), which leaves `systems` alone; the
extensions and the body are not touched. -/
def FullRequest.parseBuffer (r : FullRequest V β) (buf : Bytes) : Res Nat × FullRequest V β × Bytes :=
  let x := r.head.parseBuffer buf
  (x.1, { r with head := x.2.1 }, x.2.2)

/-- src/http/response.rs:706-720 (`parse_buffer`) on the whole structure. -/
def FullResponse.parseBuffer (r : FullResponse V β) (buf : Bytes) : Res Nat × FullResponse V β × Bytes :=
  let x := r.head.parseBuffer buf
  (x.1, { r with head := x.2.1 }, x.2.2)

/-- src/http/request.rs:355-361 (`new`), 695-701 (`Default`): a new request; the body is the default of its type. -/
def FullRequest.fresh (body : β) : FullRequest V β := { head := {}, systems := [], ext := .new, body := body }

/-- src/http/response.rs:400-406 (`new`), 739-745 (`Default`): a new response. -/
def FullResponse.fresh (body : β) : FullResponse V β := { head := {}, systems := [], ext := .new, body := body }

end Webparse
