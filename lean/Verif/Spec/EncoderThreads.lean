import Verif.Spec.TableResize
import Verif.Model.EncoderThreads

/-!
# Blocks written by several threads
-/

namespace Webparse.Spec
open Rfc

/-- All threads have written what they were given. -/
def AllDone (rs : Nat → EncoderThread) : Prop := ∀ i, (rs i).todo = [] ∧ (rs i).pending = none

/-- The threads at the beginning. -/
def startThreads (lists : Nat → List Header) : Nat → EncoderThread := fun i => { todo := lists i }

/-- There is an order in which the blocks can be sent so that an RFC 7541 decoder hears every list: each thread that had something to say occurs
in it once. -/
def SomeOrderHeard (limit : Nat) (lists : Nat → List Header) (rs : Nat → EncoderThread) : Prop :=
  ∃ order : List Nat, order.Nodup ∧ (∀ i, i ∈ order ↔ lists i ≠ []) ∧
    ∃ T, ReadsBlocks ⟨[], limit⟩ (order.map fun i => (rs i).out) T (order.map fun i => (lists i).map lowerHeader)

/-- One header as it was written: the thread, the bytes, the header. -/
structure Written where
  thread : Nat
  bytes : Bytes
  header : Header

/-- What a thread wrote of all that was written. -/
def writtenBy (i : Nat) (ws : List Written) : List Written := ws.filter fun w => w.thread = i

end Webparse.Spec
