import Verif.Model.Extensions

/-! # What extensions should do: a value or nothing for each type -/

namespace Webparse.Spec

variable {ι : Type} [DecidableEq ι] {V : ι → Type}

/-- The contents: at most one value of each type. -/
abbrev TypeMap (V : ι → Type) := (i : ι) → Option (V i)

/-- Store `x` at `i`. -/
def TypeMap.set (m : TypeMap V) (i : ι) (x : Option (V i)) : TypeMap V :=
  fun j => if h : i = j then h ▸ x else m j

/-- How extensions can come about.  `extend` takes extensions with a history of their own. -/
inductive History (V : ι → Type) where
  | new
  | insert (h : History V) (i : ι) (v : V i)
  | modify (h : History V) (i : ι) (f : V i → V i)
  | remove (h : History V) (i : ι)
  | clear (h : History V)
  | extend (h other : History V)

/-- What they contain then. -/
def History.contents : History V → TypeMap V
  | .new => fun _ => none
  | .insert h i v => h.contents.set i (some v)
  | .modify h i f => h.contents.set i ((h.contents i).map f)
  | .remove h i => h.contents.set i none
  | .clear _ => fun _ => none
  | .extend h other => fun i => (other.contents i).orElse fun _ => h.contents i

/-- `n` types are present. -/
def HasCount (m : TypeMap V) (n : Nat) : Prop :=
  ∃ l : List ι, l.Nodup ∧ (∀ i, i ∈ l ↔ (m i).isSome = true) ∧ l.length = n

/-- The extensions that a history makes. -/
def History.run : History V → Extensions V
  | .new => Extensions.new
  | .insert h i v => (h.run.insert i v).2
  | .modify h i f => h.run.modify i f
  | .remove h i => (h.run.remove i).2
  | .clear h => h.run.clear
  | .extend h other => h.run.extend other.run

end Webparse.Spec
