import Verif.Spec.Depth
import Verif.Section
/-!
# The lines of one block, and components with alarms
-/

namespace Ics.Spec

/-- The lines from a BEGIN to the END that closes it: not before the last of them have as many blocks been ended as begun. -/
structure WholeBlock (u : List Line) : Prop where
  some : u ≠ []
  all : begins u = ends u
  before : ∀ p q, u = p ++ q → p ≠ [] → q ≠ [] → ends p < begins p

/-- The component has an alarm in it. -/
def HasAlarm (c : Comp) : Prop := ∃ ss ∈ c.subs, ∃ a, Sub.alarm a ∈ ss

end Ics.Spec
