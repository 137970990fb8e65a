import Verif.Model.ReadyMade
import Verif.Spec.Builder

/-! # What the ready-made responses are -/

namespace Webparse.Spec

/-- Each constructor with its status and its content type. -/
def readyMade : List (ResponseBuilder × Nat × String) :=
  [(Response.text, 200, "text/plain; charset=utf-8"), (Response.json, 200, "application/json; charset=utf-8"),
   (Response.status404, 404, "text/html; charset=utf-8"), (Response.status503, 503, "text/html; charset=utf-8"),
   (Response.status502, 502, "text/html; charset=utf-8"), (Response.status500, 500, "text/html; charset=utf-8")]

/-- A ready-made response, further calls, and `body`. -/
def finish (b : ResponseBuilder) (calls : List ResponseCall) : Res Response := (calls.foldl ResponseCall.run b).body

end Webparse.Spec
