import Verif.Spec.Exact
import Verif.Spec.Rfc
/-!
# Specification: statements about each component of a document as the library divides it

This is `DocAll` of Spec/Rfc.lean for documents of any kind, with names in any case: components are divided as in Spec/Exact.lean.
-/

namespace Ics.Spec.Rfc

/-- The components that RFC 5545 has in a component. -/
def Part.inside : Part → List Str
  | .calendar => [c!"VEVENT", c!"VTODO", c!"VJOURNAL", c!"VFREEBUSY", c!"VTIMEZONE"]
  | .event | .todo => [c!"VALARM"]
  | .timezone => [c!"STANDARD", c!"DAYLIGHT"]
  | _ => []

/-- The lines behind the BEGIN line of this component, with the END line, have these parts. -/
def Divided (p : Part) (ls : List Line) (is : List Item) : Prop := ∃ k e, ls = k ++ [e] ∧ Ends e ∧ e.value = p.block ∧ Parts p.inside k is

/-- An alarm: from the first of its lines up to an END line with its name.  Its kind is looked for up to the first line that is called END in upper case. -/
def AlarmEach (P : PartClaim) (k : List Line) : Prop := ∃ body e, k = body ++ [e] ∧ e.name = c!"END" ∧ (∀ l ∈ body, l.name ≠ c!"BEGIN" ∧ l.name ≠ c!"END") ∧
  ∃ us a, exactActions body = us ++ [action a] ∧ (∀ u ∈ us, ∀ b, u ≠ action b) ∧ ∃ p q is, k = p ++ q ∧ Divided (.alarm a) p is ∧ P (.alarm a) is

/-- The components in a component. -/
def InnerEach (P : PartClaim) (p : Part) (is : List Item) : Prop :=
  match p with
  | .event | .todo => ∀ k ∈ blocksNamed is c!"VALARM", AlarmEach P k
  | .timezone => (∀ k ∈ blocksNamed is c!"STANDARD", ∃ js, Divided .standard k js ∧ P .standard js) ∧
      ∀ k ∈ blocksNamed is c!"DAYLIGHT", ∃ js, Divided .daylight k js ∧ P .daylight js
  | _ => True

def ComponentEach (P : PartClaim) (p : Part) (k : List Line) : Prop := ∃ is, Divided p k is ∧ P p is ∧ InnerEach P p is

/-- The lines are a calendar, and `P` holds for the calendar and all components in it. -/
def DocEach (P : PartClaim) (ls : List Line) : Prop := ∃ b k is, ls = b :: k ∧ Opening b ∧ Divided .calendar k is ∧ P .calendar is ∧
  ∀ p ∈ [Part.event, .todo, .journal, .freeBusy, .timezone], ∀ j ∈ blocksNamed is p.block, ComponentEach P p j

end Ics.Spec.Rfc
