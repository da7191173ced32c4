import Verif.Spec.Compose
import Verif.Spec.Exact
/-!
# Specification: components accepted for themselves, in any case
-/

namespace Ics.Spec

/-- Lines that add nothing but these components to a calendar (`ds` has, for each kind, the components in order): whole blocks, with unknown ones and lines of unknown properties
between them. -/
def Added (E : Env) (k : List Line) (ds : List (List Comp)) : Prop :=
  ∃ is, Parts (tabCalendar.subs.map (·.1)) k is ∧ (∀ f ∈ tabCalendar.fields, linesNamed is f.key = []) ∧ ds.length = tabCalendar.subs.length ∧
    ∀ (i : Nat) (x : Str × Tab SubKind), tabCalendar.subs[i]? = some x → Pairwise2 (ExactComp E x.2) (blocksNamed is x.1) (ds.getD i [])

end Ics.Spec
