import Verif.Model.Writer

/-! # What it means for an encoder to report its size -/

namespace Webparse.Spec

/-- An encoder only appends, and if it succeeds the size it returns is the number of bytes appended. -/
def Honest (x : Put) : Prop :=
  ∀ buf, ∃ out, (x buf).2 = buf ++ out ∧ ∀ n, (x buf).1 = .ok n → n = out.length

end Webparse.Spec
