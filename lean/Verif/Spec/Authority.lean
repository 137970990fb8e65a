import Verif.Model.Url

/-! Notions used to state what `get_authority` says (C117). -/

namespace Webparse.Spec

/-- The port meant if none is written (RFC 9110 4.2.1, 4.2.2). -/
def DefaultPort (s : Scheme) (p : Nat) : Prop := (s = .http ∧ p = 80) ∨ (s = .https ∧ p = 443)

/-- `a` names host `d` and port `p` to someone who knows the scheme: `d:p`, or `d` alone for the default
port. -/
def NamesHost (s : Scheme) (d : Bytes) (p : Nat) (a : Bytes) : Prop :=
  a = d ++ 58 :: decimal p ∨ (a = d ∧ DefaultPort s p)

end Webparse.Spec
