import Verif.Model.Http1
import Verif.Model.Extensions

/-!
# Whole messages and their copies

/repo/src/http/request.rs, /repo/src/http/response.rs: the functions that make one message of another.  A message here has
all that the structures have: the head as in `Model/Http1.lean`, the map `systems` of its `HeaderMap`, the extensions and
the body.
-/

namespace Webparse

variable {ι : Type} [DecidableEq ι] {V : ι → Type} {β γ : Type}

/-- src/http/request.rs:25-42 (`Request`, `Parts`) with src/http/header.rs:24-28 (`HeaderMap`): all of it.  Simplified: the
hash map `systems` is a list of pairs. -/
structure FullRequest (V : ι → Type) (β : Type) where
  head : Request
  systems : List (Bytes × Bytes)
  ext : Extensions V
  body : β

/-- src/http/response.rs:24-42 (`Response`, `Parts`): all of it. -/
structure FullResponse (V : ι → Type) (β : Type) where
  head : Response
  systems : List (Bytes × Bytes)
  ext : Extensions V
  body : β

/-- src/http/request.rs:732-749, src/http/response.rs:758-775 (`Clone for Parts`), the extensions: only the one of the type
`table`, which stands for `Arc<RwLock<HeaderIndex>>`, is taken over.  A clone of an `Arc` is the same value. -/
def Extensions.cloneFor (table : ι) (e : Extensions V) : Extensions V :=
  match e.get table with
  | some index => (Extensions.new.insert table index).2
  | none => Extensions.new

/-- src/http/request.rs:652-661 (`replace_clone`): what is returned, and the request afterwards. -/
def FullRequest.replaceClone (table : ι) (r : FullRequest V β) (body : β) : FullRequest V β × FullRequest V β :=
  ({ r with ext := r.ext.cloneFor table }, { r with body := body })

/-- src/http/response.rs:726-735 (`replace_clone`). -/
def FullResponse.replaceClone (table : ι) (r : FullResponse V β) (body : β) : FullResponse V β × FullResponse V β :=
  ({ r with ext := r.ext.cloneFor table }, { r with body := body })

/-- src/http/request.rs:518-525 (`into`). -/
def FullRequest.into (r : FullRequest V β) (body : γ) : FullRequest V γ × β :=
  ({ head := r.head, systems := r.systems, ext := r.ext, body := body }, r.body)

/-- src/http/response.rs:657-664 (`into`). -/
def FullResponse.into (r : FullResponse V β) (body : γ) : FullResponse V γ × β :=
  ({ head := r.head, systems := r.systems, ext := r.ext, body := body }, r.body)

/-- src/http/response.rs:621-623 (`into_parts`) followed by src/http/response.rs:424-430 (`from_parts`). -/
def FullResponse.throughParts (r : FullResponse V β) : FullResponse V β :=
  { r with head := { r.head with isPartial := false } }

/-- src/http/response.rs:779-792 (`Serialize for Response`) with any body: `ser` gives the bytes that the body's `serialize`
appends and what it returns.  The result is the bytes appended and what is returned; on an error the bytes appended until
then are left out. -/
def FullResponse.serialize (ser : β → Bytes × Res Nat) (r : FullResponse V β) : Res (Bytes × Nat) := do
  let (h, n) ← r.head.encodeHeader
  let b := ser r.body
  let k ← b.2
  .ok (h ++ b.1, n + k)

/-- src/http/response.rs:675-684 (`into_binary`): the result of the body's `serialize` is thrown away. -/
def FullResponse.intoBinary (ser : β → Bytes × Res Nat) (r : FullResponse V β) : FullResponse V Bytes :=
  { head := r.head, systems := r.systems, ext := r.ext, body := (ser r.body).1 }

/-- src/serialize.rs:52-58 (`Serialize for Binary`). -/
def binarySerialize (b : Bytes) : Bytes × Res Nat := (b, .ok b.length)

end Webparse
