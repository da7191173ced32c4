import Verif.Spec.Rule
import Verif.Spec.Edits
import Verif.Spec.PropertyLine
/-!
# Specification: the documents that make Decode panic
-/

namespace Ics.Spec

open Ics

/-- A rule text with a day that is a plus sign and a digit, such that what is before it is right: with another day in its place, nothing behind it, and a
frequency, there is a rule. -/
def CrashRule (E : Env) (p : Nat) (tz : Option Str) (s : Str) : Prop :=
  ∃ ps ws c ws' ps', s = join [';'] (ps ++ (c!"BYDAY=" ++ join [','] (ws ++ ['+', c] :: ws')) :: ps') ∧ ('0' ≤ c ∧ c ≤ '9') ∧
    (∀ q ∈ ps ++ ps', ';' ∉ q) ∧ (∀ w ∈ ws ++ ws', ';' ∉ w ∧ ',' ∉ w) ∧
    ∃ r, LooseRule E p tz (join [';'] (ps ++ [c!"BYDAY=" ++ join [','] (ws ++ [c!"MO"]), c!"FREQ=DAILY"])) r

/-- A line with such a rule. -/
def CrashLine (E : Env) (l : Line) : Prop := upper l.name = c!"RRULE" ∧ CrashRule E 0 (otherParam l.params c!"TZID") l.value

/-- A line for the same property with a rule that is right. -/
def dailyLine (l : Line) : Line := ⟨l.name, [], c!"FREQ=DAILY"⟩

/-- There is a recurrence rule among the properties: in events, journal entries and the rules of time zones (not in to-dos, see C51). -/
def Body.Recurring (B : Body) : Prop := ∃ f ∈ B.fields, f.key = c!"RRULE"

end Ics.Spec
