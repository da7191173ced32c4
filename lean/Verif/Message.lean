import Verif.Codec
/-!
# What the errors of Decode say

The functions of `Verif.Section` and `Verif.Codec` once more, now with the text of the error they return, or `none` if they return none.  The text of the error of a property
is left open: it is what `P` gives for the field and the line.  So is the text of an error of the standard library, and of the caller's reader (`Words`).
-/

namespace Ics

/-- The texts that are not modelled.  properties.go:29-4318, types.go:1578-1603. -/
structure Words where
  /-- the error of the `decode` method of a property (properties.go), for a line it is wrong in -/
  prop : SField → Line → Str
  /-- errors that do not come from the package -/
  ext : Err → Str

/-- The texts of the errors that are not about a property (sections.go:4201-4205, sections_alarm.go:137-140, tokeniser.go:174-180, encoder.go:29, io.ErrUnexpectedEOF). -/
def Err.text (W : Words) : Err → Str
  | .unexpectedEOF => c!"unexpected EOF"
  | .invalidCalendar => c!"invalid calendar"
  | .invalidContentLine => c!"invalid content line"
  | .invalidContentLineName => c!"invalid content line name"
  | .invalidContentLineParamName => c!"invalid content line param name"
  | .invalidContentLineQuotedParamValue => c!"invalid content line quoted param value"
  | .invalidContentLineParamValue => c!"invalid content line param value"
  | .invalidContentLineValue => c!"invalid content line value"
  | .invalidEnd => c!"invalid end of section"
  | .missingRequired => c!"required property missing"
  | .requirementNotMet => c!"requirement not met"
  | .invalidStructure => c!"invalid structure"
  | .missingAlarmAction => c!"missing alarm action"
  | e => W.ext e

/-- `errDecodingType` (params.go:1249) -/
def saysType (a text : Str) : Str := c!"error decoding " ++ a ++ c!": " ++ text
/-- `errDecodingProp` (properties.go:4321) -/
def saysProp (a b text : Str) : Str := c!"error decoding " ++ a ++ c!"->" ++ b ++ c!": " ++ text
/-- `errMultiple` (sections.go:4208) -/
def saysMultiple (a b : Str) : Str := c!"error decoding " ++ a ++ c!": multiple " ++ b

/-- The constants for the fields (properties.go:4323-4374, types.go:1605-1613), by the name `decode` looks for; in alarms STATUS is another type. -/
def goFields : List (Str × Str) := [
  (c!"VERSION", c!"Version"), (c!"PRODID", c!"ProductID"), (c!"DTSTAMP", c!"DateTimeStamp"), (c!"UID", c!"UID"), (c!"DTSTART", c!"DateTimeStart"), (c!"CLASS", c!"Class"),
  (c!"CREATED", c!"Created"), (c!"DESCRIPTION", c!"Description"), (c!"GEO", c!"Geo"), (c!"LAST-MOD", c!"LastModified"), (c!"LOCATION", c!"Location"),
  (c!"ORGANIZER", c!"Organizer"), (c!"PRIORITY", c!"Priority"), (c!"SEQUENCE", c!"Sequence"), (c!"STATUS", c!"Status"), (c!"SUMMARY", c!"Summary"),
  (c!"TRANSP", c!"TimeTransparency"), (c!"URL", c!"URL"), (c!"RECURRENCE-ID", c!"RecurrenceID"), (c!"RRULE", c!"RecurrenceRule"), (c!"DTEND", c!"DateTimeEnd"),
  (c!"DURATION", c!"Duration"), (c!"ATTACH", c!"Attachment"), (c!"ATTENDEE", c!"Attendee"), (c!"CATEGORIES", c!"Categories"), (c!"COMMENT", c!"Comment"),
  (c!"CONTACT", c!"Contact"), (c!"EXDATE", c!"ExceptionDateTime"), (c!"REQUEST-STATUS", c!"RequestStatus"), (c!"RELATED-TO", c!"RelatedTo"), (c!"RESOURCES", c!"Resources"),
  (c!"RDATE", c!"RecurrenceDateTimes"), (c!"COMPLETED", c!"Completed"), (c!"PERCENT-COMPLETE", c!"PercentComplete"), (c!"DUE", c!"Due"), (c!"FREEBUSY", c!"FreeBusy"),
  (c!"TZID", c!"TimezoneID"), (c!"TZURL", c!"TimezoneURL"), (c!"TZOFFSETTO", c!"TimezoneOffsetTo"), (c!"TZOFFSETFROM", c!"TimezoneOffsetFrom"), (c!"TZNAME", c!"TimezoneName"),
  (c!"TRIGGER", c!"Trigger"), (c!"REPEAT", c!"Repeat"), (c!"ALARM-AGENT", c!"AlarmAgent"), (c!"LAST-TRIGGERED", c!"LastTriggered"), (c!"ACKNOWLEDGED", c!"Acknowledged"),
  (c!"PROXIMITY", c!"Proximity"), (c!"GEO-LOCATION", c!"GeoLocation"), (c!"DEFAULT-ALARM", c!"DefaultAlarm"), (c!"URI", c!"URI")]

/-- The constant for a field of the section with this name.  Used as in sections.go:95-108. -/
def goField (sect key : Str) : Str :=
  if key = c!"STATUS" ∧ sect.take 5 = c!"Alarm" then c!"AlarmStatus"
  else match goFields.find? fun x => x.1 = key with
    | some x => x.2
    | none => []

/-- The constant for a section, by its name on BEGIN lines (sections.go:4209-4216, properties.go `cFreeBusy`). -/
def goSect (n : Str) : Str :=
  match [(c!"VCALENDAR", c!"Calendar"), (c!"VEVENT", c!"Event"), (c!"VTODO", c!"Todo"), (c!"VJOURNAL", c!"Journal"), (c!"VFREEBUSY", c!"FreeBusy"), (c!"VTIMEZONE", c!"Timezone"),
    (c!"STANDARD", c!"Standard"), (c!"DAYLIGHT", c!"Daylight")].find? fun x => x.1 = n with
  | some x => x.2
  | none => []

/-- The constants for the types of alarms (sections.go:4217-4221). -/
def AKind.goName : AKind → Str
  | .audio => c!"AlarmAudio"
  | .display => c!"AlarmDisplay"
  | .email => c!"AlarmEmail"
  | .uri => c!"AlarmURI"
  | .none => c!"AlarmNone"

/-- The decoding loops and the checks behind them (e.g. sections.go:232-557), for a section that calls itself `me`. -/
def Sect.says {κ σ : Type} (W : Words) (E : Env) (me : Str) (T : Tab κ) (sub : κ → List Line → Res (σ × List Line)) (called : κ → Str) (below : κ → List Line → Option Str) (t : Term) :
    Nat → Sect σ → List Line → Option Str
  | 0, _, _ => none
  | _ + 1, _, [] => some (saysType me (t.err.text W))
  | f + 1, s, l :: r =>
    if upper l.name = kBEGIN then
      match indexOf (upper l.value) (T.subs.map (·.1)) with
      | some i =>
        match T.subs[i]? with
        | some (_, k) =>
          match sub k r with
          | .ok (x, r) => Sect.says W E me T sub called below t f (s.addSub i x) r
          | .err _ => (below k r).map (saysProp me (called k))
          | .panic => none
        | none => none
      | none =>
        match dummy t (r.length + 1) (upper l.value) r with
        | .ok r => Sect.says W E me T sub called below t f s r
        | .err e => some (saysType me (e.text W))
        | .panic => none
    else
      match fieldIdx (upper l.name) T.fields with
      | some i =>
        match T.fields[i]? with
        | some fd =>
          if fd.mult ≠ .many ∧ s.fields.getD i [] ≠ [] then some (saysMultiple me (goField me fd.key))
          else
            match s.addProp E i fd l with
            | .ok s => Sect.says W E me T sub called below t f s r
            | .err _ => some (saysProp me (goField me fd.key) (W.prop fd l))
            | .panic => none
        | none => none
      | none =>
        if upper l.name = kEND then
          if l.value = T.name then
            match T.finish s with
            | .err e => some (saysType me (e.text W))
            | _ => none
          else some (saysType me (Err.invalidEnd.text W))
        else Sect.says W E me T sub called below t f s r

/-- The `decode` methods of sections.go. -/
def Tab.says {κ σ : Type} (W : Words) (E : Env) (me : Str) (T : Tab κ) (sub : κ → List Line → Res (σ × List Line)) (called : κ → Str) (below : κ → List Line → Option Str) (t : Term)
    (ls : List Line) : Option Str := Sect.says W E me T sub called below t (ls.length + 1) (T.start σ) ls

/-- There are no subsections.  sections.go:2507-2608, 2686-2787, 2871-4166. -/
def noName (x : Empty) : Str := nomatch x
/-- There are no subsections (sections.go:2507-2608, 2686-2787, 2871-4166). -/
def noBelow (x : Empty) (_ : List Line) : Option Str := nomatch x

/-- Sections without subsections.  sections.go:2507-2608, 2686-2787, 2871-4166. -/
def leafSays (W : Words) (E : Env) (me : Str) (T : Tab Empty) (t : Term) (ls : List Line) : Option Str :=
  T.says W E me noSub noName noBelow t ls

/-- `Alarm.decode` (sections_alarm.go:38-80), which adds nothing to the errors it returns. -/
def alarmSays (W : Words) (E : Env) (t : Term) (ls : List Line) : Option Str :=
  match alarmCollect t none ls with
  | .ok (some k, pt, _) => leafSays W E k.goName k.tab (.error .unexpectedEOF) pt
  | .ok (none, _, _) => some (Err.missingAlarmAction.text W)
  | .err e => some (e.text W)
  | .panic => none

/-- A subsection of a component.  sections.go:247-254, 923-930, 2370-2385. -/
def subSays (W : Words) (E : Env) (t : Term) (k : SubKind) (ls : List Line) : Option Str :=
  match k with
  | .alarm => alarmSays W E t ls
  | .leaf T => leafSays W E (goSect T.name) T t ls

/-- The constant for a subsection (sections.go:248, 2379, 2385). -/
def SubKind.called : SubKind → Str
  | .alarm => c!"Alarm"
  | .leaf T => goSect T.name

/-- A component.  sections.go:43-86. -/
def compSays (W : Words) (E : Env) (t : Term) (T : Tab SubKind) (ls : List Line) : Option Str :=
  T.says W E (goSect T.name) (subDecode E t) SubKind.called (subSays W E t) t ls

/-- `Decode` (decoder.go:16-37): the text of the error it returns. -/
def streamSays (W : Words) (E : Env) (st : Stream) : Option Str :=
  match st.lines with
  | [] => some (st.term.err.text W)
  | l :: r =>
    if upper l.name = kBEGIN ∧ upper l.value = tabCalendar.name then
      tabCalendar.says W E (goSect tabCalendar.name) (compDecode E st.term) (fun T => goSect T.name) (compSays W E st.term) st.term r
    else some (Err.invalidCalendar.text W)

/-- decoder.go:16-37: the same, from the unfolded text. -/
def docSays (W : Words) (E : Env) (s : Str) : Option Str := streamSays W E (tokenise s)

end Ics
