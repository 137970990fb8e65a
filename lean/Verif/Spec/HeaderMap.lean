import Verif.Model.HeaderMap
import Verif.Spec.Ascii

/-! Header maps as maps keyed by the lower-cased name. -/

namespace Webparse.Spec

/-- The operations that change a header map. -/
inductive HeaderOp where
  | insert (n v : Bytes)
  | push (n v : Bytes)
  | remove (n : Bytes)
  | clear
  deriving DecidableEq, Repr

/-- The operation performed by the code. -/
def HeaderOp.run (m : HeaderMap) : HeaderOp → HeaderMap
  | .insert n v => m.insert n v
  | .push n v => m.push n v
  | .remove n => (m.remove n).2
  | .clear => m.clear

/-- The header map after a history. -/
def runOps (ops : List HeaderOp) : HeaderMap := ops.foldl HeaderOp.run []

/-- A map from lower-case names to values. -/
abbrev AbsMap := Bytes → Option Bytes

/-- The operation on the abstract map. -/
def HeaderOp.abs (f : AbsMap) : HeaderOp → AbsMap
  | .insert n v => fun k => if k = lower n then some v else f k
  | .push n v => fun k =>
    if k = lower n then some (match f k with | some old => old ++ asciiBytes ";" ++ v | none => v) else f k
  | .remove n => fun k => if k = lower n then none else f k
  | .clear => fun _ => none

/-- The abstract map after a history. -/
def absOps (ops : List HeaderOp) : AbsMap := ops.foldl HeaderOp.abs fun _ => none

/-- The names a history mentions. -/
def opNames : List HeaderOp → List Bytes
  | [] => []
  | .insert n _ :: ops => n :: opNames ops
  | .push n _ :: ops => n :: opNames ops
  | .remove n :: ops => n :: opNames ops
  | .clear :: ops => opNames ops

/-- The code takes two names for the same if they have the same length and their bytes are, place by place, the
same or 32 apart (such as `-` and `M`; see `C36_exact`).  Two names are unambiguous if that is so only for names
equal up to case. -/
def Unambiguous (a b : Bytes) : Prop :=
  a.length = b.length →
  (∀ (i : Nat) (x y : UInt8), a[i]? = some x → b[i]? = some y → x = y ∨ x - y = 32 ∨ y - x = 32) →
  lower a = lower b

/-- ASCII letters. -/
def isLetter (b : UInt8) : Bool := (65 ≤ b.toNat && b.toNat ≤ 90) || (97 ≤ b.toNat && b.toNat ≤ 122)

end Webparse.Spec
