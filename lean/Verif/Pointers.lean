import Verif.Codec
/-!
# Model of Encode with nil pointers

`Encode` takes a pointer to a calendar, and an alarm holds a pointer to one of the five alarm types in an interface.  The other modules leave out that these pointers
may be nil.  All other fields of the Go types are values, or pointers that are nil where something is not set.
-/

namespace Ics

/-- A part of a component, where the pointer in an alarm may be nil.  `.part (.alarm none)` is an alarm whose interface is nil, or holds some other type (one that
embeds an alarm type has its methods): `Alarm.valid` (sections_alarm.go:102-109) treats these alike. -/
inductive PartP where
  | part (s : Sub)
  | nil (a : AKind)

/-- As `Comp`, with nil pointers (sections.go:195, 871, 1551, 2078, 2344). -/
abbrev CompP := Sect PartP
/-- As `Cal`, with nil pointers (sections.go:15-23). -/
abbrev CalP := Sect CompP

/-- `Alarm.valid` (sections_alarm.go:102-109) calls `valid` on the nil pointer: `s.Trigger`, `s.Description` and `s.URI` panic (sections.go:3089-3090, 3403-3404,
3746-3747, 4060-4061), but `AlarmNone` has no fields (sections.go:4171-4173). -/
def partValid (k : SubKind) : PartP → Res Unit
  | .part s => subValid k s
  | .nil .none => .ok ()
  | .nil _ => .panic

/-- `Alarm.encode` (sections_alarm.go:82-100); a nil `*AlarmNone` writes nothing between the lines (sections.go:4168-4169).  The other nil pointers do not get past
validation. -/
def partEncode (E : Env) (k : SubKind) : PartP → Option Str
  | .part s => subEncode E k s
  | .nil a => subEncode E k (.alarm (some (a, a.tab.start Empty)))

/-- `Calendar.valid` (sections.go:152-192). -/
def CalP.valid (c : CalP) : Res Unit := tabCalendar.valid (fun T s => T.valid partValid s) c

/-- `Calendar.encode` (sections.go:124-150). -/
def encodeDocP (E : Env) (c : CalP) : Option Str := tabCalendar.encode E (fun T s => T.encode E (partEncode E) s) c

/-- `Encode(w, cal)` (encoder.go:15-25); with nil `cal.valid()` panics at `s.Version` (sections.go:152-153). -/
def encodePtr (E : Env) (W : Sink) (cut : Str → List Str) : Option CalP → Run EncOut
  | none => .panic
  | some c =>
    match c.valid with
    | .err e => .done ⟨some (.validation e), {}⟩
    | .panic => .panic
    | .ok () =>
      match encodeDocP E c with
      | none => .running
      | some s =>
        let f := ({} : Folder).writes W ((cut s).map utf8)
        .done ⟨f.err.map .write, f⟩

/-- A part is a value of the Go type `Alarm`, `Standard` or `Daylight` (sections_alarm.go:34-36). -/
def partTyped : SubKind → PartP → Bool
  | k, .part s => subTyped k s
  | .alarm, .nil _ => true
  | .leaf _, .nil _ => false

/-- The calendar is a value of the Go type `Calendar`.  sections.go:15-23. -/
def CalP.typed (c : CalP) : Bool := tabCalendar.typed (fun T s => T.typed partTyped s) c

end Ics
