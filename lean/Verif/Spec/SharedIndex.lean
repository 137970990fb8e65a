import Verif.Spec.TableResize

/-!
# A connection whose encoder and decoder have one table

`Encoder::new_index` and `Decoder::new_index` take the table (`Arc<RwLock<HeaderIndex>>`) that they work on, so that both can be given the same
one.  RFC 7541 section 2.2 has two tables on a connection, one for each direction, with nothing in common.
-/

namespace Webparse.Spec
open Rfc

/-- What happens on the connection. -/
inductive SharedEvent where
  | send (hs : List Header)
  | receive (block : Bytes)

/-- What comes of it on this side: the block written, the header list got. -/
inductive SharedOutcome where
  | wrote (block : Bytes)
  | got (hs : List Header)
  deriving DecidableEq

/-- The code, with one table for both directions; `none` if decoding does not end. -/
def runShared (t : HeaderIndex) : List SharedEvent → Option (Res (List SharedOutcome × HeaderIndex))
  | [] => some (.ok ([], t))
  | .send hs :: es =>
    match encodeHeaders t hs with
    | .err e => some (.err e)
    | .panic => some .panic
    | .ok (b, t) => (runShared t es).map fun r => r >>= fun x => .ok (.wrote b :: x.1, x.2)
  | .receive b :: es =>
    match decode t b with
    | none => none
    | some (.err e) => some (.err e)
    | some .panic => some .panic
    | some (.ok (hs, t)) => (runShared t es).map fun r => r >>= fun x => .ok (.got hs :: x.1, x.2)

/-- The peer's view: it has a table `tx` for what this side writes and a table `rx` for what it writes itself, and both sides agree on every list. -/
inductive InStep : Table → Table → List SharedEvent → List SharedOutcome → Prop
  | nil {tx rx} : InStep tx rx [] []
  | send {tx rx hs b tx' es os} : Reads tx b tx' (hs.map lowerHeader) → InStep tx' rx es os →
      InStep tx rx (.send hs :: es) (.wrote b :: os)
  | receive {tx rx b hs rx' es os} : Reads rx b rx' hs → InStep tx rx' es os → InStep tx rx (.receive b :: es) (.got hs :: os)

/-- What the peer writes is good HPACK for its table `rx`, of the kinds that this decoder reads (C66), and only representations that are `ok`. -/
inductive PeerWrites (ok : Rep → Prop) : Table → List SharedEvent → Prop
  | nil {rx} : PeerWrites ok rx []
  | send {rx hs es} : PeerWrites ok rx es → PeerWrites ok rx (.send hs :: es)
  | receive {rx reps b rx' hs es} : IsBlock shortInteger reps b → (∀ r ∈ reps, r.Plain ∧ ok r) → Means rx reps rx' hs →
      PeerWrites ok rx' es → PeerWrites ok rx (.receive b :: es)

/-- Not a literal with incremental indexing. -/
def Rfc.Rep.StoresNothing : Rep → Prop
  | .literal .incremental _ _ => False
  | _ => True

/-- All names sent are in the set. -/
def SentNamesFrom (S : Bytes → Prop) (es : List SharedEvent) : Prop := ∀ hs, .send hs ∈ es → ∀ h ∈ hs, S h.1

end Webparse.Spec
