import Verif.Model.Copies

/-! What a user can see of a message: its head, the system values, the extension of each type, and its body. -/

namespace Webparse.Spec

variable {ι : Type} [DecidableEq ι] {V : ι → Type} {β : Type}

/-- Two requests that cannot be told apart. -/
def SameFullRequest (a b : FullRequest V β) : Prop :=
  a.head = b.head ∧ a.systems = b.systems ∧ a.body = b.body ∧ ∀ i, a.ext.get i = b.ext.get i

/-- Two responses that cannot be told apart. -/
def SameFullResponse (a b : FullResponse V β) : Prop :=
  a.head = b.head ∧ a.systems = b.systems ∧ a.body = b.body ∧ ∀ i, a.ext.get i = b.ext.get i

end Webparse.Spec
