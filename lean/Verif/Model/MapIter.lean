import Verif.Model.HeaderMap

/-!
# Changing headers while iterating

/repo/src/http/header.rs: `iter_mut`.
-/

namespace Webparse

/-- src/http/header.rs:42-44 (`iter_mut`): the map after the caller went through it; `f i e` is what the caller makes of the
header `e` at place `i`, name and value.  A caller that remembers what came before is covered, for the headers before are
determined by the map. -/
def HeaderMap.iterMut (m : HeaderMap) (f : Nat → Header → Header) : HeaderMap := m.mapIdx f

end Webparse
