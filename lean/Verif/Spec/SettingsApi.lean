import Verif.Model.SettingsApi

/-! What a history of setter calls on fresh settings says. -/

namespace Webparse.Spec

/-- What the last of the calls that concern a parameter gives it; `none` if there is none. -/
def lastSet {α : Type} (about : SetCall → Option (Option α)) (calls : List SetCall) : Option α :=
  ((calls.filterMap about).getLast?).join

def aboutWindow : SetCall → Option (Option Nat)
  | .initialWindowSize v => some v
  | _ => none

def aboutStreams : SetCall → Option (Option Nat)
  | .maxConcurrentStreams v => some v
  | _ => none

def aboutFrameSize : SetCall → Option (Option Nat)
  | .maxFrameSize v => some v
  | _ => none

def aboutListSize : SetCall → Option (Option Nat)
  | .maxHeaderListSize v => some v
  | _ => none

def aboutPush : SetCall → Option (Option Bool)
  | .enablePush b => some (some b)
  | _ => none

def aboutConnect : SetCall → Option (Option Nat)
  | .enableConnectProtocol v => some v
  | _ => none

/-- Every frame size set is allowed by RFC 9113 6.5.2. -/
def FrameSizesAllowed (calls : List SetCall) : Prop :=
  ∀ v, .maxFrameSize (some v) ∈ calls → 2 ^ 14 ≤ v ∧ v ≤ 2 ^ 24 - 1

/-- The numbers are `u32`. -/
def SetsU32 (calls : List SetCall) : Prop :=
  ∀ v, (.initialWindowSize (some v) ∈ calls ∨ .maxConcurrentStreams (some v) ∈ calls ∨
    .maxFrameSize (some v) ∈ calls ∨ .maxHeaderListSize (some v) ∈ calls ∨
    .enableConnectProtocol (some v) ∈ calls) → v < 2 ^ 32

/-- The settings that the calls ask for. -/
def askedSettings (calls : List SetCall) : Settings :=
  { flags := 0
    headerTableSize := none
    enablePush := (lastSet aboutPush calls).map fun b => if b then 1 else 0
    maxConcurrentStreams := lastSet aboutStreams calls
    initialWindowSize := lastSet aboutWindow calls
    maxFrameSize := lastSet aboutFrameSize calls
    maxHeaderListSize := lastSet aboutListSize calls
    enableConnectProtocol := lastSet aboutConnect calls }

/-- What of settings that were set can be read. -/
def PeerTakes (s : Settings) : Prop :=
  (∀ v, s.initialWindowSize = some v → v ≤ 2 ^ 31 - 1) ∧ ∀ v, s.enableConnectProtocol = some v → v ≤ 1

end Webparse.Spec
