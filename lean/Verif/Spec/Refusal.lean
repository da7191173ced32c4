import Verif.Spec.Refused
import Verif.Refusal
/-!
# Specification: what the errors of Encode say
-/

namespace Ics.Spec

/-- Something that is looked at in a calendar: the text of the way to it, and the name of the block it is in. -/
structure Place where
  way : Str
  block : Str
  entry : Entry

/-- The same, from the block around. -/
def Place.inside (a b : Str) (x : Place) : Place := { x with way := c!"error validating " ++ a ++ c!"->" ++ b ++ c!": " ++ x.way }

def sectPlaces {κ σ : Type} (me : Str) (T : Tab κ) (s : Sect σ) : List Place := (sectEntries T s).map fun x => ⟨[], me, x⟩

/-- The parts of components.  The properties of an alarm are said to be of its type. -/
def subPlaces : SubKind → Sub → List Place
  | .leaf T, .leaf s => sectPlaces (goSect T.name) T s
  | .alarm, .alarm (some (a, s)) => sectPlaces a.goName a.tab s
  | .alarm, .alarm none => [⟨[], [], .noAlarm⟩]
  | _, _ => []

def partName : SubKind → Str
  | .leaf T => goSect T.name
  | .alarm => c!"Alarm"

def compPlaces (T : Tab SubKind) (s : Comp) : List Place :=
  sectPlaces (goSect T.name) T s ++ below (fun k y => (subPlaces k y).map (Place.inside (goSect T.name) (partName k))) T s

/-- All that is looked at, in the order of `calEntries`. -/
def calPlaces (c : Cal) : List Place :=
  sectPlaces c!"Calendar" tabCalendar c ++ below (fun T s => (compPlaces T s).map (Place.inside c!"Calendar" (goSect T.name))) tabCalendar c

/-- What is said of it, if it is refused. -/
def Place.text (V : SField → PropVal → Str) (x : Place) : Str :=
  x.way ++ match x.entry with
    | .prop f p => c!"error validating " ++ x.block ++ c!"->" ++ goField x.block f.key ++ c!": " ++ V f p
    | .noAlarm => c!"invalid alarm type"

end Ics.Spec
