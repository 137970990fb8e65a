import Verif.Spec.Rfc7541

/-!
# Fields that must not be put in a compression table

RFC 7541 section 6.2.3: a field that is sent as a literal never indexed must always be sent so, in particular when a peer sends on a
field that it received as a literal never indexed.  Section 7.1.3 says what this is for: to protect short secrets from being guessed.
-/

namespace Webparse.Spec.Rfc

/-- A literal never indexed. -/
def Rep.IsNever : Rep → Prop
  | .literal .never _ _ => True
  | _ => False

/-- Every value that came as a literal never indexed leaves as a literal never indexed. -/
def KeepsNever (received sent : List Rep) : Prop :=
  ∀ name v, .literal .never name v ∈ received → ∃ name', .literal .never name' v ∈ sent

/-- The same representation without the request never to index it. -/
def Rep.unmark : Rep → Rep
  | .literal .never name v => .literal .without name v
  | r => r

end Webparse.Spec.Rfc
