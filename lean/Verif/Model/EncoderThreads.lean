import Verif.Model.Hpack

/-!
# Encoders in several threads that share a table

An `Encoder` holds its table as `Arc<RwLock<HeaderIndex>>`, so encoders made with `Encoder::new_index` can share it.  The lock is taken for one
lookup and for one insertion, not for a header and not for a block; between these steps other threads may run.
-/

namespace Webparse

/-- One thread in `Encoder::encode` (src/http/http2/hpack/encoder.rs:42-63): the headers still to be written, the header whose literal is written but that is
not yet in the table, and the block written so far (its own `BinaryMut`, nobody else sees it). -/
structure EncoderThread where
  todo : List Header
  pending : Option Header := none
  out : Bytes := []
  deriving DecidableEq, Repr

/-- src/http/http2/hpack/encoder.rs:65-92 (`encode_header_into`), one step that is atomic for the others: the lookup under the read lock (70) with the bytes written
after it, or the insertion under the write lock (75-78, 82-85).  A thread that is done does nothing. -/
def EncoderThread.step (t : HeaderIndex) (r : EncoderThread) : Res (HeaderIndex × EncoderThread) :=
  match r.pending with
  | some h => do
    let t ← addHeader t h
    .ok (t, { r with pending := none })
  | none =>
    match r.todo with
    | [] => .ok (t, r)
    | h :: hs =>
      match findHeader t h with
      | none => .ok (t, { todo := hs, pending := some h, out := r.out ++ encodeLiteral h true })
      | some (index, false) => .ok (t, { todo := hs, pending := some h, out := r.out ++ encodeIndexedName index h.2 true })
      | some (index, true) => .ok (t, { todo := hs, pending := none, out := r.out ++ encodeIndexed index })

/-- The threads by number, after one of them has changed. -/
def setThread (rs : Nat → EncoderThread) (i : Nat) (r : EncoderThread) : Nat → EncoderThread := fun j => if j = i then r else rs j

/-- The threads run as the schedule says: which of them takes the next step. -/
def runThreads (t : HeaderIndex) (rs : Nat → EncoderThread) : List Nat → Res (HeaderIndex × (Nat → EncoderThread))
  | [] => .ok (t, rs)
  | i :: is => do
    let (t, r) ← (rs i).step t
    runThreads t (setThread rs i r) is

end Webparse
