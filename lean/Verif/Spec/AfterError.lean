import Verif.Model.AfterError
import Verif.Spec.Rfc7541
import Verif.Spec.Rfc9113Peer

/-! # A receiver that goes on after a frame was refused -/

namespace Webparse.Spec

open Rfc

/-- The verdict without the decoder's table. -/
def verdictOf : Option (Res (Frame × HeaderIndex)) → Option (Res Frame)
  | none => none
  | some (.ok (f, _)) => some (.ok f)
  | some (.err e) => some (.err e)
  | some .panic => some .panic

/-- Frames, each with the header list limit given to `Frame::parse`, one after the other with one decoder, going on whatever the verdict:
the verdicts. -/
def verdicts : HeaderIndex → List (FrameHeader × Bytes × Nat) → List (Option (Res Frame))
  | _, [] => []
  | t, (head, payload, limit) :: frames =>
    verdictOf (Frame.parse head payload t limit) :: verdicts (Frame.tableAfter head payload t) frames

/-- The decoder's table after these frames. -/
def tableAfterAll (t : HeaderIndex) (frames : List (FrameHeader × Bytes × Nat)) : HeaderIndex :=
  frames.foldl (fun t f => Frame.tableAfter f.1 f.2.1 t) t

/-- A HEADERS frame with a whole block and without priority or padding, the fields its sender meant, and the limit at the receiver. -/
structure SentBlock where
  id : Nat
  flags : UInt8
  block : Bytes
  fields : List (Bytes × Bytes)
  limit : Nat

def SentBlock.frame (s : SentBlock) : FrameHeader × Bytes × Nat :=
  ({ length := s.block.length, kind := .headers, flag := s.flags, id := s.id }, s.block, s.limit)

/-- RFC 7541: the blocks mean these fields, one after the other from this table (with the representations that the code reads, see
C66). -/
inductive SentBy : Table → List SentBlock → Table → Prop
  | nil {T} : SentBy T [] T
  | cons {T T' T'' s rest reps} : s.flags &&& 0x28 = 0 → (∀ r ∈ reps, r.Plain) → IsBlock shortInteger reps s.block →
      Means T reps T' s.fields → SentBy T' rest T'' → SentBy T (s :: rest) T''

end Webparse.Spec
