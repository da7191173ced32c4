import Verif.Spec.Edits
/-!
# Specification: lines put in the place of others, and what that may change in a calendar
-/

namespace Ics.Spec

open Ics

variable {σ : Type}

/-- A line that may stand in the place of another, perhaps on another machine: they have the same name, up to case; BEGIN, END and ACTION lines are the same; and whatever
property has this name, if it can be read from the first, it can be read from the second, and what is read from them is in the relation. -/
structure Stands (E E' : Env) (Q : PropVal → PropVal → Prop) (l l' : Line) : Prop where
  name : upper l'.name = upper l.name
  control : upper l.name ∈ control → l'.name = l.name ∧ l'.value = l.value
  read : ∀ f ∈ allFields, f.key = upper l.name → ∀ p, f.spec.decode E l.params l.value = .ok p → ∃ q, f.spec.decode E' l'.params l'.value = .ok q ∧ Q p q

/-! Calendars that have the same properties and the same components, at the same places; corresponding properties are in the relation. -/

def SectRel (Q : PropVal → PropVal → Prop) (R : σ → σ → Prop) (s s' : Sect σ) : Prop :=
  Pairwise2 (Pairwise2 Q) s.fields s'.fields ∧ Pairwise2 (Pairwise2 R) s.subs s'.subs

def LeafRel (Q : PropVal → PropVal → Prop) : Leaf → Leaf → Prop := SectRel Q fun _ _ => True

def SubRel (Q : PropVal → PropVal → Prop) : Sub → Sub → Prop
  | .leaf s, .leaf s' => LeafRel Q s s'
  | .alarm (some (a, s)), .alarm (some (b, s')) => a = b ∧ LeafRel Q s s'
  | .alarm none, .alarm none => True
  | _, _ => False

def CompRel (Q : PropVal → PropVal → Prop) : Comp → Comp → Prop := SectRel Q (SubRel Q)

def CalRel (Q : PropVal → PropVal → Prop) : Cal → Cal → Prop := SectRel Q (CompRel Q)

end Ics.Spec
