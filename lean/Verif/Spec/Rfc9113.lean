import Verif.Spec.Frame

/-! RFC 9113 section 6 (and RFC 7540 5.3.1 for priorities): which frames are allowed and what they
say, for the kinds that carry no header block; and, separately, which the code takes. -/

namespace Webparse.Spec

/-- The kinds without a header block: DATA, PRIORITY, RST_STREAM, SETTINGS, PING, GOAWAY,
WINDOW_UPDATE. -/
def BlocklessKind (kind : UInt8) : Prop := kind ∈ ([0, 2, 3, 4, 6, 7, 8] : List UInt8)

/-- A 31-bit number with the bit in front of it: reserved, or "exclusive". -/
def u31Bytes (bit : Bool) (n : Nat) : Bytes := u32Bytes (n + if bit then 2 ^ 31 else 0)

/-- The parameters a SETTINGS payload gives: for each the last value. -/
def givenSettings (payload : Bytes) : Settings :=
  { flags := 0
    headerTableSize := lastValue 1 (settingEntries payload)
    enablePush := lastValue 2 (settingEntries payload)
    maxConcurrentStreams := lastValue 3 (settingEntries payload)
    initialWindowSize := lastValue 4 (settingEntries payload)
    maxFrameSize := lastValue 5 (settingEntries payload)
    maxHeaderListSize := lastValue 6 (settingEntries payload)
    enableConnectProtocol := lastValue 8 (settingEntries payload) }

/-- RFC 9113 6.1-6.9: the frame of this kind, with these flags, on this stream and with this payload
is allowed and says this.  A flag without a meaning for the kind is ignored (4.1). -/
inductive FrameMeans : (kind flags : UInt8) → (id : Nat) → (payload : Bytes) → Frame → Prop
  /-- 6.1 -/
  | data (flags id data) : id ≠ 0 → flags &&& 8 = 0 → FrameMeans 0 flags id data (.data ⟨id, data, flags⟩)
  /-- 6.1: the padding is not part of the data, and there must be as much of it as is said. -/
  | dataPadded (flags id data padding) : id ≠ 0 → flags &&& 8 = 8 → padding.length < 256 →
      FrameMeans 0 flags id (UInt8.ofNat padding.length :: (data ++ padding)) (.data ⟨id, data, flags⟩)
  /-- 6.3, RFC 7540 5.3.1: a stream does not depend on itself. -/
  | priority (flags id exclusive dep weight) : id ≠ 0 → dep ≠ id → dep < 2 ^ 31 →
      FrameMeans 2 flags id (u31Bytes exclusive dep ++ [weight]) (.priority ⟨id, ⟨dep, weight, exclusive⟩⟩)
  /-- 6.4 -/
  | reset (flags id code) : id ≠ 0 → code < 2 ^ 32 → FrameMeans 3 flags id (u32Bytes code) (.reset ⟨id, code⟩)
  /-- 6.5 -/
  | settingsAck (flags) : flags &&& 1 = 1 → FrameMeans 4 flags 0 [] (.settings { flags := 1 })
  /-- 6.5 -/
  | settings (flags payload) : flags &&& 1 = 0 → payload.length % 6 = 0 →
      (∀ e ∈ settingEntries payload, LegalSetting e) →
      FrameMeans 4 flags 0 payload (.settings (givenSettings payload))
  /-- 6.7 -/
  | ping (flags payload) : payload.length = 8 →
      FrameMeans 6 flags 0 payload (.ping ⟨flags &&& 1 == 1, payload⟩)
  /-- 6.8 -/
  | goAway (flags reserved last code debug) : last < 2 ^ 31 → code < 2 ^ 32 →
      FrameMeans 7 flags 0 (u31Bytes reserved last ++ u32Bytes code ++ debug) (.goAway ⟨last, code, debug⟩)
  /-- 6.9 -/
  | windowUpdate (flags id reserved increment) : 1 ≤ increment → increment < 2 ^ 31 →
      FrameMeans 8 flags id (u31Bytes reserved increment) (.windowUpdate ⟨id, increment⟩)

/-! What the code takes. -/

/-- What is left of a payload by the code, whatever the kind: with the bit 8 set the first byte goes,
and it must not be larger than the length of the payload. -/
inductive Unpadded (flags : UInt8) : (payload body : Bytes) → Prop
  | plain (body) : flags &&& 8 = 0 → Unpadded flags body body
  | empty : flags &&& 8 = 8 → Unpadded flags [] []
  | padded (first body) : flags &&& 8 = 8 → first.toNat ≤ body.length + 1 → Unpadded flags (first :: body) body

/-- What the code makes of the rest. -/
inductive BodyTaken : (kind flags : UInt8) → (id : Nat) → (body : Bytes) → Frame → Prop
  | data (flags id data) : id ≠ 0 → BodyTaken 0 flags id data (.data ⟨id, data, flags⟩)
  | priority (flags id exclusive dep weight extra) : dep ≠ id → dep < 2 ^ 31 →
      BodyTaken 2 flags id (u31Bytes exclusive dep ++ [weight] ++ extra) (.priority ⟨id, ⟨dep, weight, exclusive⟩⟩)
  | reset (flags id code) : code < 2 ^ 32 → BodyTaken 3 flags id (u32Bytes code) (.reset ⟨id, code⟩)
  | settingsAck (flags) : flags &&& 1 = 1 → BodyTaken 4 flags 0 [] (.settings { flags := 1 })
  | settings (flags body) : flags &&& 1 = 0 → body.length % 6 = 0 →
      (∀ e ∈ settingEntries body, LegalSetting e) →
      BodyTaken 4 flags 0 body (.settings (givenSettings body))
  | ping (flags body) : body.length = 8 → BodyTaken 6 flags 0 body (.ping ⟨flags &&& 1 == 1, body⟩)
  | goAway (flags id reserved last code debug) : last < 2 ^ 31 → code < 2 ^ 32 →
      BodyTaken 7 flags id (u31Bytes reserved last ++ u32Bytes code ++ debug) (.goAway ⟨last, code, debug⟩)
  | windowUpdate (flags id reserved increment) : 1 ≤ increment → increment < 2 ^ 31 →
      BodyTaken 8 flags id (u31Bytes reserved increment) (.windowUpdate ⟨id, increment⟩)

/-- The flags the code knows: END_STREAM/ACK, END_HEADERS, PADDED and PRIORITY. -/
def KnownFlags (flags : UInt8) : Prop := flags &&& 0xD2 = 0

/-- The frame the code takes. -/
def FrameTaken (kind flags : UInt8) (id : Nat) (payload : Bytes) (f : Frame) : Prop :=
  KnownFlags flags ∧ ∃ body, Unpadded flags payload body ∧ BodyTaken kind flags id body f

end Webparse.Spec
