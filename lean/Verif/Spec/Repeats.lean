import Verif.Spec.HpackReach
import Verif.Spec.HpackState
import Verif.Spec.Rfc7541

/-!
# A field that is sent again
-/

namespace Webparse.Spec
open Rfc

/-- The static table has the field, name and value. -/
def StaticField (h : Header) : Prop := (lower h.1, h.2) ∈ staticTable

instance (h : Header) : Decidable (StaticField h) := by unfold StaticField; infer_instance

/-- The block is one index and nothing else. -/
def JustAnIndex (b : Bytes) : Prop := ∃ i, IsBlock anyLength [.indexed i] b

end Webparse.Spec
