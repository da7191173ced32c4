import Verif.Section
import Verif.Property
/-!
# Specification: the words the errors are made of

Written down once more, from the source, letter by letter: what is said of each error, and what blocks, properties, parameters and types are called.
-/

namespace Ics.Spec

/-- The errors about lines and blocks. -/
def blockWords : List (Err × Str) := [
  (.unexpectedEOF, c!"unexpected EOF"), (.invalidCalendar, c!"invalid calendar"), (.invalidContentLine, c!"invalid content line"),
  (.invalidContentLineName, c!"invalid content line name"), (.invalidContentLineParamName, c!"invalid content line param name"),
  (.invalidContentLineQuotedParamValue, c!"invalid content line quoted param value"), (.invalidContentLineParamValue, c!"invalid content line param value"),
  (.invalidContentLineValue, c!"invalid content line value"), (.invalidEnd, c!"invalid end of section"), (.missingRequired, c!"required property missing"),
  (.requirementNotMet, c!"requirement not met"), (.invalidStructure, c!"invalid structure"), (.missingAlarmAction, c!"missing alarm action")]

/-- The errors about properties, parameters and values. -/
def valueWords : List (Err × Str) := [
  (.invalidEncoding, c!"invalid Binary encoding"), (.invalidPeriod, c!"invalid Period"), (.invalidDuration, c!"invalid Duration"), (.invalidText, c!"invalid encoded text"),
  (.invalidBoolean, c!"invalid Boolean"), (.invalidOffset, c!"invalid UTC Offset"), (.invalidRecur, c!"invalid Recur"), (.invalidTime, c!"invalid Time"),
  (.invalidFloat, c!"invalid float"), (.invalidTFloat, c!"invalid number of floats"), (.invalidPeriodStart, c!"invalid start of Period"),
  (.invalidPeriodDuration, c!"invalid Period duration"), (.invalidPeriodEnd, c!"invalid end of Period"), (.invalidRecurFrequency, c!"invalid Recur frequency"),
  (.invalidRecurBySecond, c!"invalid Recur BySecond"), (.invalidRecurByMinute, c!"invalid Recur ByMinute"), (.invalidRecurByHour, c!"invalid Recur ByHour"),
  (.invalidRecurByDay, c!"invalid Recur ByDay"), (.invalidRecurByMonthDay, c!"invalid Recur ByMonthDay"), (.invalidRecurByYearDay, c!"invalid Recur ByYearDay"),
  (.invalidRecurByWeekNum, c!"invalid Recur ByWeekNum"), (.invalidRecurByMonth, c!"invalid Recur ByMonth"), (.invalidRecurBySetPos, c!"invalid Recur BySetPos"),
  (.invalidRecurWeekStart, c!"invalid Recur WeekStart"), (.invalidParam, c!"invalid param value"), (.invalidValue, c!"invalid value"), (.duplicateParam, c!"duplicate param")]

/-- What a block that begins with this name is called. -/
def blockNames : List (Str × Str) := [
  (c!"VCALENDAR", c!"Calendar"), (c!"VEVENT", c!"Event"), (c!"VTODO", c!"Todo"), (c!"VJOURNAL", c!"Journal"), (c!"VFREEBUSY", c!"FreeBusy"), (c!"VTIMEZONE", c!"Timezone"),
  (c!"STANDARD", c!"Standard"), (c!"DAYLIGHT", c!"Daylight")]

/-- What alarms are called, by their action. -/
def alarmNames : List (Str × Str) := [
  (c!"AUDIO", c!"AlarmAudio"), (c!"DISPLAY", c!"AlarmDisplay"), (c!"EMAIL", c!"AlarmEmail"), (c!"URI", c!"AlarmURI"), (c!"NONE", c!"AlarmNone")]

/-- What a property on a line with this name is called.  In alarms STATUS is called AlarmStatus. -/
def propertyNames : List (Str × Str) := [
  (c!"ACKNOWLEDGED", c!"Acknowledged"), (c!"ALARM-AGENT", c!"AlarmAgent"), (c!"ATTACH", c!"Attachment"), (c!"ATTENDEE", c!"Attendee"), (c!"CATEGORIES", c!"Categories"),
  (c!"CLASS", c!"Class"), (c!"COMMENT", c!"Comment"), (c!"COMPLETED", c!"Completed"), (c!"CONTACT", c!"Contact"), (c!"CREATED", c!"Created"),
  (c!"DEFAULT-ALARM", c!"DefaultAlarm"), (c!"DESCRIPTION", c!"Description"), (c!"DTEND", c!"DateTimeEnd"), (c!"DTSTAMP", c!"DateTimeStamp"), (c!"DTSTART", c!"DateTimeStart"),
  (c!"DUE", c!"Due"), (c!"DURATION", c!"Duration"), (c!"EXDATE", c!"ExceptionDateTime"), (c!"FREEBUSY", c!"FreeBusy"), (c!"GEO", c!"Geo"),
  (c!"GEO-LOCATION", c!"GeoLocation"), (c!"LAST-MOD", c!"LastModified"), (c!"LAST-TRIGGERED", c!"LastTriggered"), (c!"LOCATION", c!"Location"),
  (c!"ORGANIZER", c!"Organizer"), (c!"PERCENT-COMPLETE", c!"PercentComplete"), (c!"PRIORITY", c!"Priority"), (c!"PRODID", c!"ProductID"), (c!"PROXIMITY", c!"Proximity"),
  (c!"RDATE", c!"RecurrenceDateTimes"), (c!"RECURRENCE-ID", c!"RecurrenceID"), (c!"RELATED-TO", c!"RelatedTo"), (c!"REPEAT", c!"Repeat"),
  (c!"REQUEST-STATUS", c!"RequestStatus"), (c!"RESOURCES", c!"Resources"), (c!"RRULE", c!"RecurrenceRule"), (c!"SEQUENCE", c!"Sequence"), (c!"STATUS", c!"Status"),
  (c!"SUMMARY", c!"Summary"), (c!"TRANSP", c!"TimeTransparency"), (c!"TRIGGER", c!"Trigger"), (c!"TZID", c!"TimezoneID"), (c!"TZNAME", c!"TimezoneName"),
  (c!"TZOFFSETFROM", c!"TimezoneOffsetFrom"), (c!"TZOFFSETTO", c!"TimezoneOffsetTo"), (c!"TZURL", c!"TimezoneURL"), (c!"UID", c!"UID"), (c!"URI", c!"URI"),
  (c!"URL", c!"URL"), (c!"VERSION", c!"Version")]

/-- What a parameter with this name is called. -/
def parameterNames : List (Str × Str) := [
  (c!"AGENT-ID", c!"AgentID"), (c!"ALTREP", c!"AlternativeRepresentation"), (c!"CN", c!"CommonName"), (c!"CUTYPE", c!"CalendarUserType"), (c!"DELEGATED-FROM", c!"Delegator"),
  (c!"DELEGATED-TO", c!"Delagatee"), (c!"DIR", c!"DirectoryEntry"), (c!"FBTYPE", c!"FreeBusyType"), (c!"FMTTYPE", c!"FormatType"), (c!"ID", c!"ID"),
  (c!"LANGUAGE", c!"Language"), (c!"MEMBER", c!"Member"), (c!"PARTSTAT", c!"ParticipationStatus"), (c!"RANGE", c!"Range"), (c!"RELTYPE", c!"RelationshipType"),
  (c!"ROLE", c!"ParticipationRole"), (c!"RSVP", c!"RSVP"), (c!"SENT-BY", c!"SentBy"), (c!"URI", c!"URI")]

/-- What the type of a value is called. -/
def typeNames : List (Kind × Str) := [
  (.binary, c!"Binary"), (.calAddress, c!"CalendarAddress"), (.date, c!"Date"), (.dateTime, c!"DateTime"), (.duration, c!"Duration"), (.mtext, c!"MText"),
  (.period, c!"Period"), (.text, c!"Text"), (.uri, c!"URI")]

end Ics.Spec
