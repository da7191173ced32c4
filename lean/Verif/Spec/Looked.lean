import Verif.Spec.Fault
import Verif.Spec.PropertyLine
import Verif.Spec.LocalTime
/-!
# Specification: the lines of a document that are read for their values

Which lines these are, and as which properties, depends on the lines alone, not on the machine.
-/

namespace Ics.Spec

open Ics

/-- What is gathered from lines, each with the open blocks before it. -/
def gather {α : Type} (H : Level → Line → List α) : List Level → List Line → List α
  | p :: st, l :: r => H p l ++ gather H (advance p st l) r
  | _, _ => []

/-- A line in a block other than an alarm: the properties of the block with this name. -/
def sectLooked (p : Level) (l : Line) : List (SField × Line) := (p.frame.fields.filter fun f => f.key = upper l.name).map fun f => (f, l)

/-- The kinds of alarm that ACTION lines name. -/
def actKinds (own : List Item) : List AKind :=
  [.audio, .display, .email, .uri, .none].filter fun a => (ownLines own).any fun l => l.name = c!"ACTION" && l.value = a.action

/-- The lines of an alarm are read at its end, as those of an alarm of its kind. -/
def looked (p : Level) (l : Line) : List (SField × Line) :=
  match p.frame with
  | .alarm => if l.name = c!"END" then (actKinds p.own).flatMap fun a => gather sectLooked (alarmStart a) (ownLines p.own ++ [l]) else []
  | _ => sectLooked p l

/-- The lines of a document that are read, and as which properties. -/
def lookedAt : List Line → List (SField × Line)
  | [] => []
  | _ :: k => gather looked calStart k

/-! ## Values on two machines -/

/-- The line is read on this machine. -/
def LineReads (E : Env) (y : SField × Line) : Prop := ∃ r, PropReads E y.1.spec.shape y.2.params y.2.value r

/-- The second machine reads the line as the first. -/
def LineSame (E E' : Env) (y : SField × Line) : Prop := ∀ r, PropReads E y.1.spec.shape y.2.params y.2.value r → PropReads E' y.1.spec.shape y.2.params y.2.value r

/-- The value of the line is of this type. -/
def HasKind (y : SField × Line) (k : Kind) : Prop := ∃ params vals i n, y.1.spec.shape = .fields params vals ∧ UsesType vals y.2.params i ∧ vals[i]? = some (n, k)

/-- The machine knows the time zone, if one is named. -/
def KnownZone (E : Env) (tz : Option Str) : Prop := ∀ n, tz = some n → n = [] ∨ n = c!"UTC" ∨ n = c!"Local" ∨ E.loadZone n ≠ none

/-- The text is the reading `w` of a clock in the location `l` (with the identity `p`). -/
def ReadIn (E : Env) (p : Nat) (tz : Option Str) (s : Str) (l : Loc) (w : Int) : Prop :=
  match tz with
  | some n => ZoneNamed E p n l ∧ Reading s w
  | none => (l = .utc ∧ ∃ x, s = x ++ ['Z'] ∧ Reading x w) ∨ (l = .local ∧ Reading s w)

/-- The text is a clock reading in the same location, and the same instant, for both machines. -/
def SameTime (E E' : Env) (p : Nat) (tz : Option Str) (s : Str) : Prop := ∀ l w, ReadIn E p tz s l w → ReadIn E' p tz s l w ∧ instant E' l w = instant E l w

/-- What a value needs of the second machine to be read: the time zone of a time, and rules must be rules there. -/
def ValKnown (E : Env) (look : Str → Option Str) (k : Kind) (s : Str) : Prop :=
  match k with
  | .dateTime => KnownZone E (look c!"TZID")
  | .period => KnownZone E (look c!"TZID")
  | .recur => ∃ r, LooseRule E 0 (look c!"TZID") s r
  | _ => True

/-- What a value needs of the second machine to be the same: times are the same instants. -/
def ValSame (E E' : Env) (look : Str → Option Str) (k : Kind) (s : Str) : Prop :=
  match k with
  | .dateTime => SameTime E E' 0 (look c!"TZID") s
  | .period => ∀ a b, s = a ++ '/' :: b → '/' ∉ a → SameTime E E' 0 (look c!"TZID") a ∧ SameTime E E' 1 (look c!"TZID") b
  | .recur => ∀ r, LooseRule E 0 (look c!"TZID") s r → LooseRule E' 0 (look c!"TZID") s r
  | _ => True

end Ics.Spec
