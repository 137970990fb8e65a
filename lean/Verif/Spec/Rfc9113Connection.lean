import Verif.Spec.Rfc9113
import Verif.Spec.Rfc7541
import Verif.Spec.FrameHeaders

/-!
# RFC 9113: what a receiver hears on a connection

Written from the RFC (sections 4.1, 4.2, 4.3, 6.2, 6.10 and 8.3), independently of the code: a receiver
with a limit on the size of frames reads frame after frame and puts header blocks together.
-/

namespace Webparse.Spec
open Rfc

/-- What is heard: a frame without a header block, a header list, or a promise with the request it answers. -/
inductive Heard where
  | frame (f : Frame)
  | headers (id : Nat) (endStream : Bool) (fields : List Header)
  | promise (id promised : Nat) (request : List Header)
  deriving DecidableEq

/-- Sections 4.3 and 6.10: CONTINUATION frames of one stream, the last one with END_HEADERS, and the rest of
the header block they carry.  The other flags mean nothing on them. -/
inductive Continued (id : Nat) : List RawFrame → Bytes → Prop
  | last {flags b} : flags &&& 4 = 4 → Continued id [(9, flags, id, b)] b
  | more {flags b fs bs} : flags &&& 4 = 0 → Continued id fs bs → Continued id ((9, flags, id, b) :: fs) (b ++ bs)

/-- Section 6.2: a HEADERS frame (without padding and priority) and its CONTINUATION frames; the stream ends if
the HEADERS frame says so. -/
inductive HeaderFrames (id : Nat) (endStream : Bool) : List RawFrame → Bytes → Prop
  | one {flags b} : id ≠ 0 → flags &&& 0x28 = 0 → endStream = (flags &&& 1 == 1) → flags &&& 4 = 4 →
      HeaderFrames id endStream [(1, flags, id, b)] b
  | many {flags b fs bs} : id ≠ 0 → flags &&& 0x28 = 0 → endStream = (flags &&& 1 == 1) → flags &&& 4 = 0 →
      Continued id fs bs → HeaderFrames id endStream ((1, flags, id, b) :: fs) (b ++ bs)

/-- Section 6.6: a PUSH_PROMISE frame (without padding) and its CONTINUATION frames. -/
inductive PromiseFrames (id promised : Nat) : List RawFrame → Bytes → Prop
  | one {flags reserved b} : id ≠ 0 → promised < 2 ^ 31 → flags &&& 8 = 0 → flags &&& 4 = 4 →
      PromiseFrames id promised [(5, flags, id, u31Bytes reserved promised ++ b)] b
  | many {flags reserved b fs bs} : id ≠ 0 → promised < 2 ^ 31 → flags &&& 8 = 0 → flags &&& 4 = 0 →
      Continued id fs bs → PromiseFrames id promised ((5, flags, id, u31Bytes reserved promised ++ b) :: fs) (b ++ bs)

/-- Frames, none longer than the limit of the receiver, and what it hears; `Table` is the dynamic table of its
decoder before and afterwards. -/
inductive Hears (maxFrame : Nat) : Table → List RawFrame → Table → List Heard → Prop
  | nil {t} : Hears maxFrame t [] t []
  | frame {t kind flags id payload f fs t' hs} : BlocklessKind kind → payload.length ≤ maxFrame →
      FrameMeans kind flags id payload f → Hears maxFrame t fs t' hs →
      Hears maxFrame t ((kind, flags, id, payload) :: fs) t' (.frame f :: hs)
  | headers {t id endStream fs block t' fields gs t'' hs} : HeaderFrames id endStream fs block →
      (∀ f ∈ fs, f.2.2.2.length ≤ maxFrame) → Reads t block t' fields → Hears maxFrame t' gs t'' hs →
      Hears maxFrame t (fs ++ gs) t'' (.headers id endStream fields :: hs)
  | promise {t id promised fs block t' fields gs t'' hs} : PromiseFrames id promised fs block →
      (∀ f ∈ fs, f.2.2.2.length ≤ maxFrame) → Reads t block t' fields → Hears maxFrame t' gs t'' hs →
      Hears maxFrame t (fs ++ gs) t'' (.promise id promised fields :: hs)

/-- The same for octets. -/
def HearsBytes (maxFrame : Nat) (t : Table) (bytes : Bytes) (t' : Table) (hs : List Heard) : Prop :=
  ∃ frames, bytes = wireFrames frames ∧ (∀ f ∈ frames, f.2.2.1 < 2 ^ 31) ∧ Hears maxFrame t frames t' hs

/-- Section 8.3: pseudo-header fields come before the regular ones; a message in which they do not is
malformed. -/
def PseudoFirst (fields : List Header) : Prop :=
  ∃ pseudo regular, fields = pseudo ++ regular ∧ (∀ h ∈ pseudo, h.1.head? = some 58) ∧
    (∀ h ∈ regular, h.1.head? ≠ some 58)

/-! ## What was sent -/

/-- What an application may send on a connection (RFC 9113), with names of fields that HPACK encoding does not
confuse (see C67) and sizes that fit `maxFrame` octets. -/
def SayOk (maxFrame : Nat) : Sent → Prop
  | .control f => ControlFrameOk f ∧ (∀ r, f = .reset r → r.streamId ≠ 0) ∧
      (∀ g, f = .goAway g → 8 + g.debugData.length ≤ maxFrame)
  | .headers id _ p fields => id ≠ 0 ∧ id < 2 ^ 31 ∧ PartsOk p ∧ PlainFields fields ∧
      (∀ h ∈ fields, h.1 ≠ asciiBytes "accept-") ∧ ((fields ++ partHeaders p).map encodedBound).sum ≤ maxFrame
  | .data id _ _ => 1 ≤ id ∧ id < 2 ^ 31

/-- What should be heard: control frames and headers as sent, a body as DATA frames that make it up, the end of
the stream on the last. -/
def HeardAs (maxFrame : Nat) : Sent → List Heard → Prop
  | .control f, hs => hs = [.frame f]
  | .headers id endStream p fields, hs => hs = [.headers id endStream (fields ++ partHeaders p)]
  | .data id endStream body, hs => ∃ parts : List Bytes, parts ≠ [] ∧ parts.flatten = body ∧
      (∀ b ∈ parts, b.length ≤ maxFrame) ∧
      hs = (dataFrames id 0 (endFlag endStream) parts).map fun f => .frame (.data ⟨f.2.2.1, f.2.2.2, f.2.1⟩)

/-- What is heard: as it should be, but the end of the stream may be lost if the writer's limit does not leave
room for the header block in one frame. -/
def HeardMostly (writeLimit : Nat) : Sent → List Heard → Prop
  | .headers id endStream p fields, hs => ∃ e, hs = [.headers id e (fields ++ partHeaders p)] ∧
      (e = endStream ∨ e = false ∧ writeLimit < ((fields ++ partHeaders p).map encodedBound).sum)
  | s, hs => HeardAs writeLimit s hs

/-- A promise that may be sent: of a request, with fields that HPACK encoding does not confuse and that fit
`maxFrame` octets, and no flag but END_HEADERS. -/
structure PromiseOk (maxFrame : Nat) (p : PushPromise) : Prop where
  stream : p.streamId ≠ 0 ∧ p.streamId < 2 ^ 31
  promised : p.promisedId ≠ 0 ∧ p.promisedId < 2 ^ 31
  request : PartsOk p.parts ∧ p.parts.status = none
  plain : PlainFields p.fields ∧ ∀ h ∈ p.fields, h.1 ≠ asciiBytes "accept-"
  size : 4 + ((partHeaders p.parts ++ p.fields).map encodedBound).sum ≤ maxFrame
  flags : p.flags &&& 0xFB = 0

/-- Octets that are frames, one of them a CONTINUATION frame (type 9) with the bit that is END_STREAM on other frames. -/
def EndOnContinuation (bytes : Bytes) : Prop :=
  ∃ frames : List RawFrame, bytes = wireFrames frames ∧ (∀ f ∈ frames, f.2.2.2.length < 2 ^ 24 ∧ f.2.2.1 < 2 ^ 31) ∧
    ∃ f ∈ frames, f.1 = 9 ∧ f.2.1 &&& 1 = 1

end Webparse.Spec
