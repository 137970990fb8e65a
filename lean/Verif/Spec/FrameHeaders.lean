import Verif.Spec.Frame
import Verif.Spec.Ascii

/-! Notions used to state properties of HEADERS frames. -/

namespace Webparse.Spec

/-- The frames RFC 9113 4.3, 6.2 and 6.10 ask for: HEADERS then CONTINUATION, END_HEADERS (4) on the
last frame only, END_STREAM (1) on the HEADERS frame only. -/
def rfcContinuations (id : Nat) : List Bytes → List RawFrame
  | [] => []
  | [b] => [(9, 4, id, b)]
  | b :: bs => (9, 0, id, b) :: rfcContinuations id bs

def rfcHeaderFrames (id : Nat) (endStream : UInt8) : List Bytes → List RawFrame
  | [] => []
  | [b] => [(1, 4 ||| endStream, id, b)]
  | b :: bs => (1, endStream, id, b) :: rfcContinuations id bs

/-- The frames the code writes: as above, but the flags given (with END_STREAM, if any) go to the
last frame. -/
def codeContinuations (id : Nat) (flags : UInt8) : List Bytes → List RawFrame
  | [] => []
  | [b] => [(9, flags ||| 4, id, b)]
  | b :: bs => (9, 0, id, b) :: codeContinuations id flags bs

def codeHeaderFrames (id : Nat) (flags : UInt8) : List Bytes → List RawFrame
  | [] => []
  | [b] => [(1, flags ||| 4, id, b)]
  | b :: bs => (1, 0, id, b) :: codeContinuations id flags bs

/-- A bound on the encoded size of one header: Huffman codes have at most 30 bits, two length
prefixes and one index byte. -/
def encodedBound (h : Header) : Nat := 4 * (h.1.length + h.2.length) + 20

/-- Ordinary header fields: lower-case names without `~`, not pseudo-headers, no two the same. -/
structure PlainFields (hs : List Header) : Prop where
  plain : ∀ h ∈ hs, IsPlainName h.1 ∧ h.1.head? ≠ some 58
  sizes : ∀ h ∈ hs, h.1.length < 2 ^ 26 ∧ h.2.length < 2 ^ 26
  distinct : (hs.map (·.1)).Nodup

/-- Pseudo-header parts that can be sent: a registered method, a scheme that is not an alias, text
that is UTF-8, a three-digit status. -/
structure PartsOk (p : Parts) : Prop where
  method : ∀ m, p.method = some m → m ≠ .none ∧ ∀ s, m ≠ .extension s
  scheme : ∀ s, p.scheme = some s → s ≠ .none ∧ ∀ x, s = .extension x →
    utf8Valid x = true ∧ x.length ≤ 64 ∧
      x ∉ [asciiBytes "http", asciiBytes "https", asciiBytes "ws", asciiBytes "wss", asciiBytes "ftp"]
  authority : ∀ a, p.authority = some a → utf8Valid a = true ∧ a.length < 2 ^ 26
  path : ∀ a, p.path = some a → utf8Valid a = true ∧ a.length < 2 ^ 26
  status : ∀ s, p.status = some s → 100 ≤ s ∧ s ≤ 999

/-- Three decimal digits. -/
def threeDigits (n : Nat) : Bytes :=
  [UInt8.ofNat (48 + n / 100 % 10), UInt8.ofNat (48 + n / 10 % 10), UInt8.ofNat (48 + n % 10)]

/-- The pseudo-header fields for `p`. -/
def partHeaders (p : Parts) : List Header :=
  (p.method.map fun m => (asciiBytes ":method", m.asStr)).toList ++
  (p.authority.map fun a => (asciiBytes ":authority", a)).toList ++
  (p.scheme.map fun s => (asciiBytes ":scheme", s.asStr)).toList ++
  (p.path.map fun a => (asciiBytes ":path", a)).toList ++
  (p.status.map fun s => (asciiBytes ":status", threeDigits s)).toList

/-- What an application sends over an HTTP/2 connection. -/
inductive Sent where
  | control (f : Frame)
  | headers (id : Nat) (endStream : Bool) (p : Parts) (fields : List Header)
  | data (id : Nat) (endStream : Bool) (body : Bytes)

/-- END_STREAM as a flag byte. -/
def endFlag (endStream : Bool) : UInt8 := if endStream then 1 else 0

/-- The frame handed to the encoder; the parts have been put into the fields. -/
def Sent.frame : Sent → Res Frame
  | .control f => .ok f
  | .headers id endStream p fields => do
    let m ← p.encodeHeader fields
    .ok (.headers { streamId := id, fields := m, flags := endFlag endStream })
  | .data id endStream body => .ok (.data { streamId := id, data := body, flags := endFlag endStream })

/-- What can be sent with these limits: well-formed, header lists within the receiver's limit and
small enough for one frame. -/
def SentOk (maxFrame maxList : Nat) : Sent → Prop
  | .control f => ControlFrameOk f
  | .headers id _ p fields => id < 2 ^ 31 ∧ PartsOk p ∧ PlainFields fields ∧
      headerListSize (fields ++ partHeaders p) ≤ maxList ∧
      ((fields ++ partHeaders p).map encodedBound).sum ≤ maxFrame
  | .data id _ _ => 1 ≤ id ∧ id < 2 ^ 31

/-- Number of header fields sent. -/
def Sent.headerCount : Sent → Nat
  | .headers _ _ p fields => fields.length + (partHeaders p).length
  | _ => 0

/-- The frames the receiver should see: control frames and headers as sent (END_HEADERS added), a
body as DATA frames that make it up, END_STREAM on the last. -/
def ReceivedAs (maxFrame : Nat) : Sent → List Frame → Prop
  | .control f, fs => fs = [f]
  | .headers id endStream p fields, fs =>
      fs = [.headers { streamId := id, fields, parts := p, flags := endFlag endStream ||| 4 }]
  | .data id endStream body, fs => ∃ parts : List Bytes, parts ≠ [] ∧ parts.flatten = body ∧
      (∀ b ∈ parts, b.length ≤ maxFrame) ∧
      fs = (dataFrames id 0 (endFlag endStream) parts).map fun f => .data ⟨f.2.2.1, f.2.2.2, f.2.1⟩

/-- Two lists of the same length related element by element. -/
inductive Zip {α β : Type} (R : α → β → Prop) : List α → List β → Prop
  | nil : Zip R [] []
  | cons {a b as bs} : R a b → Zip R as bs → Zip R (a :: as) (b :: bs)

end Webparse.Spec
