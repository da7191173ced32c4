import Verif.Pointers
import Verif.Spec.Refused
import Verif.Spec.GoTypes
/-!
# Specification: nil pointers given to Encode
-/

namespace Ics

open Spec

/-- The same part with a nil pointer replaced by one to an alarm with nothing set. -/
def PartP.filled : PartP → Sub
  | .part s => s
  | .nil a => .alarm (some (a, a.tab.start Empty))

/-- The calendar with all nil pointers replaced. -/
def CalP.filled (c : CalP) : Cal := ⟨c.fields, c.subs.map fun l => l.map fun s => ⟨s.fields, s.subs.map fun l => l.map PartP.filled⟩⟩

/-- The parts of all components. -/
def CalP.parts (c : CalP) : List PartP := c.subs.flatMap fun l => l.flatMap fun s => s.subs.flatMap id

/-- The pointer is nil, and not one to `AlarmNone`. -/
def PartP.Crashes : PartP → Prop
  | .nil a => a ≠ .none
  | .part _ => False

/-- What validation looks at: properties, alarms without type, and nil pointers. -/
inductive EntryP where
  | entry (x : Entry)
  | nil

def partEntries (k : SubKind) : PartP → List EntryP
  | .part s => (subEntries k s).map .entry
  | .nil .none => []
  | .nil _ => [.nil]

def compEntriesP (T : Tab SubKind) (s : CompP) : List EntryP := (sectEntries T s).map .entry ++ below partEntries T s

/-- All of them, in the order of `calEntries`. -/
def CalP.entries (c : CalP) : List EntryP := (sectEntries tabCalendar c).map .entry ++ below compEntriesP tabCalendar c

def EntryP.Fine : EntryP → Prop
  | .entry x => EntryFine x
  | .nil => False

def EntryP.Refused : EntryP → Err → Prop
  | .entry x, e => EntryRefused x e
  | .nil, _ => False

/-- A part as the Go types allow: as `SubOfType`, or an alarm that holds a nil pointer to any of the alarm types. -/
def PartOfType (k : SubKind) (p : PartP) : Prop :=
  (∃ s, p = .part s ∧ SubOfType k s) ∨ (k = .alarm ∧ ∃ a, p = .nil a)

/-- `Calendar`, with the nil pointers that a Go program can put in. -/
def PointersOfType (c : CalP) : Prop := SectOfType (SectOfType PartOfType) tabCalendar c

end Ics
