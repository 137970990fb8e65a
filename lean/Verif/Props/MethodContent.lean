import Verif.Spec.MethodContent

/-! # C118: the methods said to have no body -/

namespace Webparse
open Spec

/-- C118, as users need it: `is_nobody` is true of the methods whose requests never have content and false of those whose requests may;
`res_nobody` is true exactly of those whose successful responses have none. -/
def C118_nobody_statement : Prop :=
  ∀ m : Method, (requestContent m = .never → m.isNobody = true) ∧ (requestContent m = .may → m.isNobody = false) ∧
    (m.resNobody = true ↔ responseContent m = .never)

/-- C118 is violated in all three ways: a TRACE request is said to have a body, an OPTIONS request and the response to it are said to have none. -/
theorem C118_violated : Method.isNobody .trace = false ∧ requestContent .trace = .never ∧
    Method.isNobody .options = true ∧ requestContent .options = .may ∧
    Method.resNobody .options = true ∧ responseContent .options = .may ∧ ¬ C118_nobody_statement := by
  refine ⟨rfl, rfl, rfl, rfl, rfl, rfl, fun h => ?_⟩
  exact absurd ((h .trace).1 rfl) (by decide)

/-- C118, partial and exact, for requests: `is_nobody` errs for TRACE and OPTIONS and for no other method, among them all extensions.
Missing: those two. -/
theorem C118_request_iff_partial (m : Method) :
    ((requestContent m = .never → m.isNobody = true) ∧ (requestContent m = .may → m.isNobody = false)) ↔ m ≠ .trace ∧ m ≠ .options := by
  cases m <;> simp [requestContent, Method.isNobody]

/-- C118, partial and exact, for responses: `res_nobody` errs for OPTIONS and for no other method.  Missing: that one. -/
theorem C118_response_iff_partial (m : Method) : (m.resNobody = true ↔ responseContent m = .never) ↔ m ≠ .options := by
  cases m <;> simp [responseContent, Method.resNobody]

/-- C118: of the methods whose content is discouraged, GET and HEAD are said to have no body and DELETE is not. -/
theorem C118_discouraged (m : Method) (h : requestContent m = .discouraged) : m.isNobody = true ↔ m ≠ .delete := by
  cases m <;> simp [requestContent, Method.isNobody] at h ⊢

example : Method.trace ≠ .options ∧ Method.post ≠ .trace ∧ Method.post ≠ .options ∧ requestContent .delete = .discouraged := by decide

end Webparse
