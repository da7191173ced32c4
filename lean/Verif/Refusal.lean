import Verif.Message
/-!
# What the errors of Encode say

The `valid` methods of sections.go once more, now with the text of the error they return, or `none` if they return none.  The text of the error of a property is left open: it is
what `V` gives for the field and the value.  Validation does not panic (C12), so panics are not distinguished here.
-/

namespace Ics

/-- `errValidatingProp` (properties.go:4322) -/
def saysInvalid (a b text : Str) : Str := c!"error validating " ++ a ++ c!"->" ++ b ++ c!": " ++ text

/-- The text if the result is an error.  E.g. sections.go:153-155. -/
def Res.said (m : Str) : Res Unit → Option Str
  | .err _ => some m
  | _ => none

/-- The checks of the fields in order, e.g. sections.go:666-860. -/
def fieldsSay (V : SField → PropVal → Str) (me : Str) : List SField → List (List PropVal) → Option Str
  | f :: fs, v :: vs =>
    match v.findSome? fun p => (f.spec.valid p).said (saysInvalid me (goField me f.key) (V f p)) with
    | some m => some m
    | none => fieldsSay V me fs vs
  | _, _ => none

/-- The checks of the subsections in order, e.g. sections.go:161-190. -/
def subsSay {κ σ : Type} (me : Str) (called : κ → Str) (down : κ → σ → Option Str) : List (Str × κ) → List (List σ) → Option Str
  | (_, k) :: ks, v :: vs =>
    match v.findSome? (down k) with
    | some m => some (saysInvalid me (called k) m)
    | none => subsSay me called down ks vs
  | _, _ => none

/-- The `valid` methods of sections.go. -/
def Tab.saysInvalid {κ σ : Type} (V : SField → PropVal → Str) (me : Str) (T : Tab κ) (called : κ → Str) (down : κ → σ → Option Str) (s : Sect σ) : Option Str :=
  match fieldsSay V me T.fields s.fields with
  | some m => some m
  | none => subsSay me called down T.subs s.subs

/-- There are no subsections (sections.go:2635, 2814, 3089). -/
def noDown (x : Empty) (_ : Empty) : Option Str := nomatch x

/-- `Alarm.valid` (sections_alarm.go:102-109), which adds nothing to the errors of the types of alarms, and the `valid` methods of the rules of time zones. -/
def subSaysInvalid (V : SField → PropVal → Str) (k : SubKind) (s : Sub) : Option Str :=
  match k, s with
  | .alarm, .alarm none => some c!"invalid alarm type"
  | .alarm, .alarm (some (a, s)) => a.tab.saysInvalid V a.goName noName noDown s
  | .leaf T, .leaf s => T.saysInvalid V (goSect T.name) noName noDown s
  | _, _ => none

/-- The `valid` methods of the components.  sections.go:684-868, 1364-1548, 1931-2075, 2277-2341, 2464-2494. -/
def compSaysInvalid (V : SField → PropVal → Str) (T : Tab SubKind) (s : Comp) : Option Str :=
  T.saysInvalid V (goSect T.name) SubKind.called (subSaysInvalid V) s

/-- `Calendar.valid` (sections.go:152-192), whose error `Encode` returns as it is (encoder.go:16-18). -/
def calSaysInvalid (V : SField → PropVal → Str) (c : Cal) : Option Str :=
  tabCalendar.saysInvalid V (goSect tabCalendar.name) (fun T => goSect T.name) (compSaysInvalid V) c

end Ics
