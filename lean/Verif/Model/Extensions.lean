import Verif.Model.Basic

/-! # Extensions (src/extensions.rs)

`ι` stands for the types that can be stored (`TypeId`), `V i` for the values of type `i`. -/

namespace Webparse

variable {ι : Type} [DecidableEq ι] {V : ι → Type}

/-- src/extensions.rs:18, `Box<dyn Any>`: a value together with its type. -/
abbrev AnyBox (V : ι → Type) := Σ i, V i

/-- src/extensions.rs:18 (`AnyMap`): a `HashMap` from type ids to boxes, as a list of pairs.  Nothing
in the map says that the box has the type of its key.  Simplified: hashing is left out; the order of
the list stands for the order of iteration. -/
abbrev AnyMap (V : ι → Type) := List (ι × AnyBox V)

/-- `HashMap::get` (std), used at src/extensions.rs:101, 120. -/
def AnyMap.get (m : AnyMap V) (k : ι) : Option (AnyBox V) := (m.find? fun e => e.1 = k).map (·.2)

/-- `HashMap::insert` (std), used at src/extensions.rs:77: the value of a present key is replaced. -/
def AnyMap.insert (m : AnyMap V) (k : ι) (b : AnyBox V) : AnyMap V :=
  match m with
  | [] => [(k, b)]
  | e :: r => if e.1 = k then (k, b) :: r else e :: AnyMap.insert r k b

/-- `HashMap::remove` (std), used at src/extensions.rs:140. -/
def AnyMap.remove (m : AnyMap V) (k : ι) : AnyMap V :=
  match m with
  | [] => []
  | e :: r => if e.1 = k then r else e :: AnyMap.remove r k

/-- src/extensions.rs:78-83, 102, 121, 141-146: `downcast`, which gives the value if it has that type. -/
def AnyBox.downcast (b : AnyBox V) (i : ι) : Option (V i) := if h : b.1 = i then some (h ▸ b.2) else none

/-- src/extensions.rs:47-51 (`Extensions`). -/
structure Extensions (V : ι → Type) where
  map : Option (AnyMap V)

/-- src/extensions.rs:56-58 (`new`). -/
def Extensions.new : Extensions V := ⟨none⟩

/-- src/extensions.rs:73-84 (`insert`): what is returned, and the extensions afterwards. -/
def Extensions.insert (self : Extensions V) (i : ι) (v : V i) : Option (V i) × Extensions V :=
  let map := self.map.getD []
  ((map.get i).bind fun b => b.downcast i, ⟨some (map.insert i ⟨i, v⟩)⟩)

/-- src/extensions.rs:98-103 (`get`). -/
def Extensions.get (self : Extensions V) (i : ι) : Option (V i) :=
  (self.map.bind fun map => map.get i).bind fun b => b.downcast i

/-- src/extensions.rs:117-122 (`get_mut`), with the change `f` made through the reference if there is
one. -/
def Extensions.modify (self : Extensions V) (i : ι) (f : V i → V i) : Extensions V :=
  match self.map with
  | none => self
  | some map =>
    match map.get i with
    | none => self
    | some b =>
      match b.downcast i with
      | none => self
      | some v => ⟨some (map.insert i ⟨i, f v⟩)⟩

/-- src/extensions.rs:137-147 (`remove`). -/
def Extensions.remove (self : Extensions V) (i : ι) : Option (V i) × Extensions V :=
  match self.map with
  | none => (none, self)
  | some map => ((map.get i).bind fun b => b.downcast i, ⟨some (map.remove i)⟩)

/-- src/extensions.rs:162-166 (`clear`). -/
def Extensions.clear (self : Extensions V) : Extensions V :=
  match self.map with
  | none => self
  | some _ => ⟨some []⟩

/-- src/extensions.rs:180-184 (`is_empty`). -/
def Extensions.isEmpty (self : Extensions V) : Bool := (self.map.map List.isEmpty).getD true

/-- src/extensions.rs:198-202 (`len`). -/
def Extensions.len (self : Extensions V) : Nat := (self.map.map List.length).getD 0

/-- src/extensions.rs:227-235 (`extend`); `HashMap::extend` (std) inserts the pairs of the other map. -/
def Extensions.extend (self other : Extensions V) : Extensions V :=
  match other.map with
  | none => self
  | some o =>
    match self.map with
    | some map => ⟨some (o.foldl (fun m e => m.insert e.1 e.2) map)⟩
    | none => ⟨some o⟩

end Webparse
