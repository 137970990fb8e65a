import Verif.Spec.Grammar
import Verif.Spec.Url

/-! # Sizes of what is read -/

namespace Webparse.Spec

/-- The bytes of the names and the values. -/
def headerBytes (m : HeaderMap) : Nat := (m.map fun h => h.1.length + h.2.length).sum

/-- The bytes of the parts of a URL. -/
def urlBytes (u : Url) : Nat :=
  u.scheme.asStr.length + (u.username.getD []).length + (u.password.getD []).length + (u.domain.getD []).length + u.path.length + (u.query.getD []).length

end Webparse.Spec
