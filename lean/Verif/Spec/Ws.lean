import Verif.Model.Ws

/-! RFC 6455 framing, written without the model's encoders. -/

namespace Webparse.Spec

/-- RFC 6455 5.2: a frame header.  Four flag bits and the opcode; the mask bit and the length in
seven bits, or 126 and sixteen bits, or 127 and 64 bits (most significant first), whichever is the
shortest that fits; the masking key. -/
def wsWireHeader (flags opcode : Nat) (key : Option MaskKey) (len : Nat) : Bytes :=
  let maskBit := if key = none then 0 else 128
  let byte (i : Nat) : UInt8 := UInt8.ofNat (len / 256 ^ i % 256)
  [UInt8.ofNat (flags + opcode)] ++
  (if len < 126 then [UInt8.ofNat (maskBit + len)]
   else if len < 2 ^ 16 then [UInt8.ofNat (maskBit + 126), byte 1, byte 0]
   else [UInt8.ofNat (maskBit + 127), byte 7, byte 6, byte 5, byte 4, byte 3, byte 2, byte 1, byte 0]) ++
  (match key with
   | some k => [k.k0, k.k1, k.k2, k.k3]
   | none => [])

/-- A header RFC 6455 allows: flags in the upper four bits, opcode in four bits, a 64-bit length, and
control frames (opcode 8 and above) short and not fragmented. -/
structure WsHeaderOk (h : WsHeader) : Prop where
  flags : h.flags &&& 0x0F = 0
  opcode : h.opcode < 16
  len : h.len < 2 ^ 64
  control : 8 ≤ h.opcode → h.len < 126 ∧ h.flags &&& 0x80 = 0x80

/-- RFC 6455 5.3: octet `i` XOR octet `i mod 4` of the key. -/
def masked (k : MaskKey) (data : Bytes) : Bytes :=
  data.mapIdx fun i b => b ^^^ (if i % 4 = 0 then k.k0 else if i % 4 = 1 then k.k1 else if i % 4 = 2 then k.k2 else k.k3)

/-- Masked if there is a key. -/
def maskedOpt (key : Option MaskKey) (data : Bytes) : Bytes :=
  match key with
  | some k => masked k data
  | none => data

/-- The control opcodes. -/
def IsControl (o : Opcode) : Prop := 8 ≤ o.toByte

/-- A data frame that may be sent. -/
structure WsFrameOk (f : WsFrame) : Prop where
  len : f.data.length < 2 ^ 64
  control : IsControl f.opcode → f.data.length < 126 ∧ f.finished = true

/-- The opcode of a message. -/
def msgOpcode : OwnedMessage → Opcode
  | .text _ => .text
  | .binary _ => .binary
  | .close _ => .close
  | .ping _ => .ping
  | .pong _ => .pong

/-- The payload of a message (RFC 6455 5.5.1 for close: 16-bit code, then the reason). -/
def msgPayload : OwnedMessage → Bytes
  | .text s => s
  | .binary b => b
  | .close (some c) => UInt8.ofNat (c.status / 256 % 256) :: UInt8.ofNat (c.status % 256) :: c.reason
  | .close none => []
  | .ping b => b
  | .pong b => b

/-- What the types of the code guarantee: strings are UTF-8, status codes are 16-bit. -/
def MsgTyped : OwnedMessage → Prop
  | .text s => utf8Valid s = true
  | .close (some c) => utf8Valid c.reason = true ∧ c.status < 2 ^ 16
  | _ => True

/-- A message that may be sent: control messages are short, others fit a 64-bit length. -/
def MsgSendable (m : OwnedMessage) : Prop :=
  (msgPayload m).length < 2 ^ 64 ∧ (IsControl (msgOpcode m) → (msgPayload m).length < 126)

/-- The frames of a message cut into pieces: the opcode on the first, then continuation frames; FIN
is as given. -/
def fragments (o : Opcode) : List (Bool × Bytes) → List WsFrame
  | [] => []
  | (fin, p) :: ps => ⟨fin, (false, false, false), o, p⟩ :: fragments .continuation ps

/-- Write messages one after the other, each with its own key. -/
def writeMessages : List (OwnedMessage × Option MaskKey) → Res Bytes
  | [] => .ok []
  | (m, k) :: ms => do
    let (b, _) ← m.toFrameable.writeTo k
    let bs ← writeMessages ms
    .ok (b ++ bs)

/-- Read `n` messages of one frame each. -/
def readMessages : Nat → Bytes → Res (List OwnedMessage × Bytes)
  | 0, buf => .ok ([], buf)
  | n + 1, buf => do
    let (f, buf) ← wsRead buf
    let m ← OwnedMessage.fromFrames [f.toFrameable]
    let (ms, buf) ← readMessages n buf
    .ok (m :: ms, buf)

/-- RFC 6455 7.4.1 and the registry of close codes (and 0 for none). -/
def closeRegistry : List (CloseCode × Nat) :=
  [(.normal, 1000), (.away, 1001), (.protocol, 1002), (.unsupported, 1003), (.status, 1005), (.abnormal, 1006),
   (.invalid, 1007), (.policy, 1008), (.size, 1009), (.extension, 1010), (.error, 1011), (.restart, 1012),
   (.again, 1013), (.tls, 1015), (.empty, 0)]

end Webparse.Spec
