import Verif.Section
/-!
# The tables of params.go, properties.go and sections.go

Written by `tools/gen_tables.py`, which reads the generated Go code as text and checks that the struct, `decode`, `encode` and `valid`
of each type agree on fields, order and types.  A property with one value has an empty VALUE name, since that name is never used.
-/

namespace Ics

/-! ## Parameters -/

/-- `ParamAlternativeRepresentation` (params.go:16-58). -/
def paramAlternativeRepresentation : PDef := ⟨c!"ALTREP", .url⟩

/-- `ParamLanguage` (params.go:464-503). -/
def paramLanguage : PDef := ⟨c!"LANGUAGE", .str false⟩

/-- `ParamCommonName` (params.go:61-100). -/
def paramCommonName : PDef := ⟨c!"CN", .str false⟩

/-- `ParamDirectoryEntry` (params.go:261-300). -/
def paramDirectoryEntry : PDef := ⟨c!"DIR", .str true⟩

/-- `ParamSentBy` (params.go:862-901). -/
def paramSentBy : PDef := ⟨c!"SENT-BY", .str true⟩

/-- `ParamRange` (params.go:629-651). -/
def paramRange : PDef := ⟨c!"RANGE", .range⟩

/-- `ParamFormatType` (params.go:356-401). -/
def paramFormatType : PDef := ⟨c!"FMTTYPE", .fmt⟩

/-- `ParamCalendarUserType` (params.go:103-160). -/
def paramCalendarUserType : PDef := ⟨c!"CUTYPE", .enum [c!"INDIVIDUAL", c!"GROUP", c!"RESOURCE", c!"ROOM"]⟩

/-- `ParamMember` (params.go:506-551). -/
def paramMember : PDef := ⟨c!"MEMBER", .strs⟩

/-- `ParamParticipationRole` (params.go:762-819). -/
def paramParticipationRole : PDef := ⟨c!"ROLE", .enum [c!"REQ-PARTICIPANT", c!"CHAIR", c!"OPT-PARTICIPANT", c!"NON-PARTICIPANT"]⟩

/-- `ParamParticipationStatus` (params.go:554-626). -/
def paramParticipationStatus : PDef := ⟨c!"PARTSTAT", .enum [c!"NEEDS-ACTION", c!"ACCEPTED", c!"DECLINED", c!"TENTATIVE", c!"DELEGATED", c!"COMPLETED", c!"IN-PROCESS"]⟩

/-- `ParamRSVP` (params.go:822-859). -/
def paramRSVP : PDef := ⟨c!"RSVP", .bool⟩

/-- `ParamDelagatee` (params.go:212-258). -/
def paramDelagatee : PDef := ⟨c!"DELEGATED-TO", .urls⟩

/-- `ParamDelegator` (params.go:163-209). -/
def paramDelegator : PDef := ⟨c!"DELEGATED-FROM", .urls⟩

/-- `ParamRelationshipType` (params.go:707-759). -/
def paramRelationshipType : PDef := ⟨c!"RELTYPE", .enum [c!"PARENT", c!"CHILD", c!"SIBLING"]⟩

/-- `ParamFreeBusyType` (params.go:404-461). -/
def paramFreeBusyType : PDef := ⟨c!"FBTYPE", .enum [c!"FREE", c!"BUSY", c!"BUSY-UNAVAILABLE", c!"BUSY-TENTATIVE"]⟩

/-- `ParamURI` (params.go:1056-1098). -/
def paramURI : PDef := ⟨c!"URI", .url⟩

/-- `ParamID` (params.go:1101-1140). -/
def paramID : PDef := ⟨c!"ID", .str true⟩

/-- `ParamAgentID` (params.go:1143-1182). -/
def paramAgentID : PDef := ⟨c!"AGENT-ID", .str true⟩

/-! ## Properties -/

/-- `PropVersion` (properties.go:3807-3860). -/
def propVersion : PSpec := ⟨c!"VERSION", .fields [] [(c!"", .text)]⟩

/-- `PropProductID` (properties.go:2245-2298). -/
def propProductID : PSpec := ⟨c!"PRODID", .fields [] [(c!"", .text)]⟩

/-- `PropDateTimeStamp` (properties.go:1183-1236). -/
def propDateTimeStamp : PSpec := ⟨c!"DTSTAMP", .fields [] [(c!"", .dateTime)]⟩

/-- `PropUID` (properties.go:3636-3689). -/
def propUID : PSpec := ⟨c!"UID", .fields [] [(c!"", .text)]⟩

/-- `PropDateTimeStart` (properties.go:1239-1350). -/
def propDateTimeStart : PSpec := ⟨c!"DTSTART", .fields [] [(c!"DATE-TIME", .dateTime), (c!"DATE", .date)]⟩

/-- `PropClass` (properties.go:606-659). -/
def propClass : PSpec := ⟨c!"CLASS", .enum [c!"PUBLIC", c!"PRIVATE", c!"CONFIDENTIAL"]⟩

/-- `PropCreated` (properties.go:913-966). -/
def propCreated : PSpec := ⟨c!"CREATED", .fields [] [(c!"", .dateTime)]⟩

/-- `PropDescription` (properties.go:970-1063). -/
def propDescription : PSpec := ⟨c!"DESCRIPTION", .fields [paramAlternativeRepresentation, paramLanguage] [(c!"", .text)]⟩

/-- `PropGeo` (properties.go:1714-1767). -/
def propGeo : PSpec := ⟨c!"GEO", .fields [] [(c!"", .tfloat)]⟩

/-- `PropLastModified` (properties.go:1771-1824). -/
def propLastModified : PSpec := ⟨c!"LAST-MODIFIED", .fields [] [(c!"", .dateTime)]⟩

/-- `PropLocation` (properties.go:1828-1921). -/
def propLocation : PSpec := ⟨c!"LOCATION", .fields [paramAlternativeRepresentation, paramLanguage] [(c!"", .text)]⟩

/-- `PropOrganizer` (properties.go:1981-2116). -/
def propOrganizer : PSpec := ⟨c!"ORGANIZER", .fields [paramCommonName, paramDirectoryEntry, paramSentBy, paramLanguage] [(c!"", .calAddress)]⟩

/-- `PropPriority` (properties.go:2182-2241). -/
def propPriority : PSpec := ⟨c!"PRIORITY", .fields [] [(c!"", .integer)]⟩

/-- `PropSequence` (properties.go:2924-2983). -/
def propSequence : PSpec := ⟨c!"SEQUENCE", .fields [] [(c!"", .integer)]⟩

/-- `PropStatus` (properties.go:2987-3065). -/
def propStatus : PSpec := ⟨c!"STATUS", .enum [c!"TENTATIVE", c!"CONFIRMED", c!"CANCELLED", c!"NEEDS-ACTION", c!"COMPLETED", c!"IN-PROCESS", c!"DRAFT", c!"FINAL"]⟩

/-- `PropSummary` (properties.go:3068-3161). -/
def propSummary : PSpec := ⟨c!"SUMMARY", .fields [paramAlternativeRepresentation, paramLanguage] [(c!"", .text)]⟩

/-- `PropTimeTransparency` (properties.go:3165-3213). -/
def propTimeTransparency : PSpec := ⟨c!"TRANSP", .enum [c!"OPAQUE", c!"TRANSPARENT"]⟩

/-- `PropURL` (properties.go:3693-3746). -/
def propURL : PSpec := ⟨c!"URL", .fields [] [(c!"", .uri)]⟩

/-- `PropRecurrenceID` (properties.go:2439-2571). -/
def propRecurrenceID : PSpec := ⟨c!"RECURRENCE-ID", .fields [paramRange] [(c!"DATE-TIME", .dateTime), (c!"DATE", .date)]⟩

/-- `PropRecurrenceRule` (properties.go:2867-2920). -/
def propRecurrenceRule : PSpec := ⟨c!"RRULE", .fields [] [(c!"", .recur)]⟩

/-- `PropDateTimeEnd` (properties.go:1066-1177). -/
def propDateTimeEnd : PSpec := ⟨c!"DTEND", .fields [] [(c!"DATE-TIME", .dateTime), (c!"DATE", .date)]⟩

/-- `PropDuration` (properties.go:1467-1520). -/
def propDuration : PSpec := ⟨c!"DURATION", .fields [] [(c!"", .duration)]⟩

/-- `PropAttachment` (properties.go:71-203). -/
def propAttachment : PSpec := ⟨c!"ATTACH", .fields [paramFormatType] [(c!"URI", .uri), (c!"BINARY", .binary)]⟩

/-- `PropAttendee` (properties.go:206-482). -/
def propAttendee : PSpec := ⟨c!"ATTENDEE", .fields [paramCalendarUserType, paramMember, paramParticipationRole, paramParticipationStatus, paramRSVP, paramDelagatee, paramDelegator, paramSentBy, paramCommonName, paramDirectoryEntry, paramLanguage] [(c!"", .calAddress)]⟩

/-- `PropCategories` (properties.go:531-603). -/
def propCategories : PSpec := ⟨c!"CATEGORIES", .fields [paramLanguage] [(c!"", .mtext)]⟩

/-- `PropComment` (properties.go:663-756). -/
def propComment : PSpec := ⟨c!"COMMENT", .fields [paramAlternativeRepresentation, paramLanguage] [(c!"", .text)]⟩

/-- `PropContact` (properties.go:816-909). -/
def propContact : PSpec := ⟨c!"CONTACT", .fields [paramAlternativeRepresentation, paramLanguage] [(c!"", .text)]⟩

/-- `PropExceptionDateTime` (properties.go:1524-1635). -/
def propExceptionDateTime : PSpec := ⟨c!"EXDATE", .fields [] [(c!"DATE-TIME", .dateTime), (c!"DATE", .date)]⟩

/-- `PropRequestStatus` (properties.go:2713-2766). -/
def propRequestStatus : PSpec := ⟨c!"REQUEST-STATUS", .fields [] [(c!"", .text)]⟩

/-- `PropRelatedTo` (properties.go:2575-2647). -/
def propRelatedTo : PSpec := ⟨c!"RELATED-TO", .fields [paramRelationshipType] [(c!"", .text)]⟩

/-- `PropResources` (properties.go:2770-2863). -/
def propResources : PSpec := ⟨c!"RESOURCES", .fields [paramAlternativeRepresentation, paramLanguage] [(c!"", .mtext)]⟩

/-- `PropRecurrenceDateTimes` (properties.go:2302-2435). -/
def propRecurrenceDateTimes : PSpec := ⟨c!"RDATE", .fields [] [(c!"DATE-TIME", .dateTime), (c!"DATE", .date), (c!"PERIOD", .period)]⟩

/-- `PropCompleted` (properties.go:759-812). -/
def propCompleted : PSpec := ⟨c!"COMPLETED", .fields [] [(c!"", .dateTime)]⟩

/-- `PropPercentComplete` (properties.go:2120-2179). -/
def propPercentComplete : PSpec := ⟨c!"PERCENT-COMPLETE", .fields [] [(c!"", .integer)]⟩

/-- `PropDue` (properties.go:1353-1464). -/
def propDue : PSpec := ⟨c!"DUE", .fields [] [(c!"DATE-TIME", .dateTime), (c!"DATE", .date)]⟩

/-- `PropFreeBusy` (properties.go:1638-1710). -/
def propFreeBusy : PSpec := ⟨c!"FREEBUSY", .fields [paramFreeBusyType] [(c!"", .period)]⟩

/-- `PropTimezoneID` (properties.go:3331-3384). -/
def propTimezoneID : PSpec := ⟨c!"TZID", .fields [] [(c!"", .text)]⟩

/-- `PropTimezoneURL` (properties.go:3579-3632). -/
def propTimezoneURL : PSpec := ⟨c!"TZURL", .fields [] [(c!"", .uri)]⟩

/-- `PropTimezoneOffsetTo` (properties.go:3521-3574). -/
def propTimezoneOffsetTo : PSpec := ⟨c!"TZOFFSETTO", .fields [] [(c!"", .utcOffset)]⟩

/-- `PropTimezoneOffsetFrom` (properties.go:3464-3517). -/
def propTimezoneOffsetFrom : PSpec := ⟨c!"TZOFFSETFROM", .fields [] [(c!"", .utcOffset)]⟩

/-- `PropTimezoneName` (properties.go:3388-3460). -/
def propTimezoneName : PSpec := ⟨c!"TZNAME", .fields [paramLanguage] [(c!"", .text)]⟩

/-- `PropTrigger` (properties.go:3216-3327). -/
def propTrigger : PSpec := ⟨c!"TRIGGER", .fields [] [(c!"DURATION", .duration), (c!"DATE-TIME", .dateTime)]⟩

/-- `PropRepeat` (properties.go:2651-2710). -/
def propRepeat : PSpec := ⟨c!"REPEAT", .fields [] [(c!"", .integer)]⟩

/-- `PropAlarmAgent` (properties.go:3863-3977). -/
def propAlarmAgent : PSpec := ⟨c!"ALARM-AGENT", .fields [paramURI, paramID, paramAgentID] [(c!"", .text)]⟩

/-- `PropAlarmStatus` (properties.go:3980-4033). -/
def propAlarmStatus : PSpec := ⟨c!"STATUS", .enum [c!"ACTIVE", c!"CANCELLED", c!"COMPLETED"]⟩

/-- `PropLastTriggered` (properties.go:4036-4089). -/
def propLastTriggered : PSpec := ⟨c!"LAST-TRIGGERED", .fields [] [(c!"", .dateTime)]⟩

/-- `PropAcknowledged` (properties.go:4092-4145). -/
def propAcknowledged : PSpec := ⟨c!"ACKNOWLEDGED", .fields [] [(c!"", .dateTime)]⟩

/-- `PropProximity` (properties.go:4148-4201). -/
def propProximity : PSpec := ⟨c!"PROXIMITY", .fields [] [(c!"", .text)]⟩

/-- `PropGeoLocation` (properties.go:4204-4257). -/
def propGeoLocation : PSpec := ⟨c!"GEO-LOCATION", .fields [] [(c!"", .uri)]⟩

/-- `PropDefaultAlarm` (properties.go:4260-4313). -/
def propDefaultAlarm : PSpec := ⟨c!"DEFAULT-ALARM", .fields [] [(c!"", .boolean)]⟩

/-- `PropURI` (properties.go:3749-3802). -/
def propURI : PSpec := ⟨c!"URI", .fields [] [(c!"", .uri)]⟩

/-! ## Sections -/

/-- `Event` (sections.go:195-868; decode 229-558, encode 560-682, valid 684-868). -/
def tabEvent : Tab SubKind where
  name := c!"VEVENT"
  fields := [
    ⟨c!"DTSTAMP", propDateTimeStamp, .req⟩, ⟨c!"UID", propUID, .req⟩, ⟨c!"DTSTART", propDateTimeStart, .opt⟩,
    ⟨c!"CLASS", propClass, .opt⟩, ⟨c!"CREATED", propCreated, .opt⟩, ⟨c!"DESCRIPTION", propDescription, .opt⟩,
    ⟨c!"GEO", propGeo, .opt⟩, ⟨c!"LAST-MOD", propLastModified, .opt⟩, ⟨c!"LOCATION", propLocation, .opt⟩,
    ⟨c!"ORGANIZER", propOrganizer, .opt⟩, ⟨c!"PRIORITY", propPriority, .opt⟩, ⟨c!"SEQUENCE", propSequence, .opt⟩,
    ⟨c!"STATUS", propStatus, .opt⟩, ⟨c!"SUMMARY", propSummary, .opt⟩, ⟨c!"TRANSP", propTimeTransparency, .opt⟩,
    ⟨c!"URL", propURL, .opt⟩, ⟨c!"RECURRENCE-ID", propRecurrenceID, .opt⟩, ⟨c!"RRULE", propRecurrenceRule, .opt⟩,
    ⟨c!"DTEND", propDateTimeEnd, .opt⟩, ⟨c!"DURATION", propDuration, .opt⟩, ⟨c!"ATTACH", propAttachment, .many⟩,
    ⟨c!"ATTENDEE", propAttendee, .many⟩, ⟨c!"CATEGORIES", propCategories, .many⟩, ⟨c!"COMMENT", propComment, .many⟩,
    ⟨c!"CONTACT", propContact, .many⟩, ⟨c!"EXDATE", propExceptionDateTime, .many⟩,
    ⟨c!"REQUEST-STATUS", propRequestStatus, .many⟩, ⟨c!"RELATED-TO", propRelatedTo, .many⟩,
    ⟨c!"RESOURCES", propResources, .many⟩, ⟨c!"RDATE", propRecurrenceDateTimes, .many⟩]
  subs := [(c!"VALARM", .alarm)]
  rules := [.notBoth c!"DTEND" c!"DURATION"]

/-- `Todo` (sections.go:871-1548; decode 905-1238, encode 1240-1362, valid 1364-1548). -/
def tabTodo : Tab SubKind where
  name := c!"VTODO"
  fields := [
    ⟨c!"DTSTAMP", propDateTimeStamp, .req⟩, ⟨c!"UID", propUID, .req⟩, ⟨c!"CLASS", propClass, .opt⟩,
    ⟨c!"COMPLETED", propCompleted, .opt⟩, ⟨c!"CREATED", propCreated, .opt⟩, ⟨c!"DESCRIPTION", propDescription, .opt⟩,
    ⟨c!"DTSTART", propDateTimeStart, .opt⟩, ⟨c!"GEO", propGeo, .opt⟩, ⟨c!"LAST-MOD", propLastModified, .opt⟩,
    ⟨c!"LOCATION", propLocation, .opt⟩, ⟨c!"ORGANIZER", propOrganizer, .opt⟩,
    ⟨c!"PERCENT-COMPLETE", propPercentComplete, .opt⟩, ⟨c!"PRIORITY", propPriority, .opt⟩,
    ⟨c!"RECURRENCE-ID", propRecurrenceID, .opt⟩, ⟨c!"SEQUENCE", propSequence, .opt⟩, ⟨c!"STATUS", propStatus, .opt⟩,
    ⟨c!"SUMMARY", propSummary, .opt⟩, ⟨c!"URL", propURL, .opt⟩, ⟨c!"DUE", propDue, .opt⟩, ⟨c!"DURATION", propDuration, .opt⟩,
    ⟨c!"ATTACH", propAttachment, .many⟩, ⟨c!"ATTENDEE", propAttendee, .many⟩, ⟨c!"CATEGORIES", propCategories, .many⟩,
    ⟨c!"COMMENT", propComment, .many⟩, ⟨c!"CONTACT", propContact, .many⟩, ⟨c!"EXDATE", propExceptionDateTime, .many⟩,
    ⟨c!"REQUEST-STATUS", propRequestStatus, .many⟩, ⟨c!"RELATED-TO", propRelatedTo, .many⟩,
    ⟨c!"RESOURCES", propResources, .many⟩, ⟨c!"RDATE", propRecurrenceDateTimes, .many⟩]
  subs := [(c!"VALARM", .alarm)]
  rules := [.needs c!"DURATION" c!"DTSTART", .notBoth c!"DUE" c!"DURATION"]

/-- `Journal` (sections.go:1551-2073; decode 1578-1833, encode 1835-1929, valid 1931-2073). -/
def tabJournal : Tab SubKind where
  name := c!"VJOURNAL"
  fields := [
    ⟨c!"DTSTAMP", propDateTimeStamp, .req⟩, ⟨c!"UID", propUID, .req⟩, ⟨c!"CLASS", propClass, .opt⟩,
    ⟨c!"CREATED", propCreated, .opt⟩, ⟨c!"DTSTART", propDateTimeStart, .opt⟩, ⟨c!"LAST-MOD", propLastModified, .opt⟩,
    ⟨c!"ORGANIZER", propOrganizer, .opt⟩, ⟨c!"RECURRENCE-ID", propRecurrenceID, .opt⟩, ⟨c!"SEQUENCE", propSequence, .opt⟩,
    ⟨c!"STATUS", propStatus, .opt⟩, ⟨c!"SUMMARY", propSummary, .opt⟩, ⟨c!"URL", propURL, .opt⟩,
    ⟨c!"RRULE", propRecurrenceRule, .opt⟩, ⟨c!"ATTACH", propAttachment, .many⟩, ⟨c!"ATTENDEE", propAttendee, .many⟩,
    ⟨c!"CATEGORIES", propCategories, .many⟩, ⟨c!"COMMENT", propComment, .many⟩, ⟨c!"CONTACT", propContact, .many⟩,
    ⟨c!"DESCRIPTION", propDescription, .many⟩, ⟨c!"EXDATE", propExceptionDateTime, .many⟩,
    ⟨c!"REQUEST-STATUS", propRequestStatus, .many⟩, ⟨c!"RELATED-TO", propRelatedTo, .many⟩,
    ⟨c!"RESOURCES", propResources, .many⟩, ⟨c!"RDATE", propRecurrenceDateTimes, .many⟩]
  subs := []
  rules := []

/-- `FreeBusy` (sections.go:2078-2341; decode 2092-2231, encode 2233-2275, valid 2277-2341). -/
def tabFreeBusy : Tab SubKind where
  name := c!"VFREEBUSY"
  fields := [
    ⟨c!"DTSTAMP", propDateTimeStamp, .req⟩, ⟨c!"UID", propUID, .req⟩, ⟨c!"CONTACT", propContact, .opt⟩,
    ⟨c!"DTSTART", propDateTimeStart, .opt⟩, ⟨c!"DTEND", propDateTimeEnd, .opt⟩, ⟨c!"ORGANIZER", propOrganizer, .opt⟩,
    ⟨c!"URL", propURL, .opt⟩, ⟨c!"ATTENDEE", propAttendee, .many⟩, ⟨c!"COMMENT", propComment, .many⟩,
    ⟨c!"FREEBUSY", propFreeBusy, .many⟩, ⟨c!"REQUEST-STATUS", propRequestStatus, .many⟩]
  subs := []
  rules := []

/-- `Standard` (sections.go:2497-2673; decode 2507-2608, encode 2610-2633, valid 2635-2673). -/
def tabStandard : Tab Empty where
  name := c!"STANDARD"
  fields := [
    ⟨c!"DTSTART", propDateTimeStart, .req⟩, ⟨c!"TZOFFSETTO", propTimezoneOffsetTo, .req⟩,
    ⟨c!"TZOFFSETFROM", propTimezoneOffsetFrom, .req⟩, ⟨c!"RRULE", propRecurrenceRule, .opt⟩,
    ⟨c!"COMMENT", propComment, .many⟩, ⟨c!"RDATE", propRecurrenceDateTimes, .many⟩, ⟨c!"TZNAME", propTimezoneName, .many⟩]
  subs := []
  rules := []

/-- `Daylight` (sections.go:2676-2852; decode 2686-2787, encode 2789-2812, valid 2814-2852). -/
def tabDaylight : Tab Empty where
  name := c!"DAYLIGHT"
  fields := [
    ⟨c!"DTSTART", propDateTimeStart, .req⟩, ⟨c!"TZOFFSETTO", propTimezoneOffsetTo, .req⟩,
    ⟨c!"TZOFFSETFROM", propTimezoneOffsetFrom, .req⟩, ⟨c!"RRULE", propRecurrenceRule, .opt⟩,
    ⟨c!"COMMENT", propComment, .many⟩, ⟨c!"RDATE", propRecurrenceDateTimes, .many⟩, ⟨c!"TZNAME", propTimezoneName, .many⟩]
  subs := []
  rules := []

/-- `Timezone` (sections.go:2344-2494; decode 2352-2439, encode 2441-2462, valid 2464-2494). -/
def tabTimezone : Tab SubKind where
  name := c!"VTIMEZONE"
  fields := [
    ⟨c!"TZID", propTimezoneID, .req⟩, ⟨c!"LAST-MOD", propLastModified, .opt⟩, ⟨c!"TZURL", propTimezoneURL, .opt⟩]
  subs := [(c!"STANDARD", .leaf tabStandard), (c!"DAYLIGHT", .leaf tabDaylight)]
  rules := [.anySub]

/-- `Calendar` (sections.go:15-192; decode 25-122, encode 124-150, valid 152-192). -/
def tabCalendar : Tab (Tab SubKind) where
  name := c!"VCALENDAR"
  fields := [
    ⟨c!"VERSION", propVersion, .req⟩, ⟨c!"PRODID", propProductID, .req⟩]
  subs := [(c!"VEVENT", tabEvent), (c!"VTODO", tabTodo), (c!"VJOURNAL", tabJournal), (c!"VFREEBUSY", tabFreeBusy), (c!"VTIMEZONE", tabTimezone)]
  rules := []

/-- `AlarmAudio` (sections.go:2855-3167; decode 2871-3034, encode 3036-3087, valid 3089-3167). -/
def tabAlarmAudio : Tab Empty where
  name := c!"VALARM"
  fields := [
    ⟨c!"TRIGGER", propTrigger, .req⟩, ⟨c!"DURATION", propDuration, .opt⟩, ⟨c!"REPEAT", propRepeat, .opt⟩,
    ⟨c!"ATTACH", propAttachment, .many⟩, ⟨c!"UID", propUID, .opt⟩, ⟨c!"ALARM-AGENT", propAlarmAgent, .many⟩,
    ⟨c!"STATUS", propAlarmStatus, .opt⟩, ⟨c!"LAST-TRIGGERED", propLastTriggered, .many⟩,
    ⟨c!"ACKNOWLEDGED", propAcknowledged, .opt⟩, ⟨c!"PROXIMITY", propProximity, .opt⟩,
    ⟨c!"GEO-LOCATION", propGeoLocation, .many⟩, ⟨c!"RELATED-TO", propRelatedTo, .opt⟩,
    ⟨c!"DEFAULT-ALARM", propDefaultAlarm, .opt⟩]
  subs := []
  rules := [.needs c!"GEO-LOCATION" c!"PROXIMITY"]

/-- `AlarmDisplay` (sections.go:3170-3479; decode 3186-3351, encode 3353-3401, valid 3403-3479). -/
def tabAlarmDisplay : Tab Empty where
  name := c!"VALARM"
  fields := [
    ⟨c!"DESCRIPTION", propDescription, .req⟩, ⟨c!"TRIGGER", propTrigger, .req⟩, ⟨c!"DURATION", propDuration, .opt⟩,
    ⟨c!"REPEAT", propRepeat, .opt⟩, ⟨c!"UID", propUID, .opt⟩, ⟨c!"ALARM-AGENT", propAlarmAgent, .many⟩,
    ⟨c!"STATUS", propAlarmStatus, .opt⟩, ⟨c!"LAST-TRIGGERED", propLastTriggered, .many⟩,
    ⟨c!"ACKNOWLEDGED", propAcknowledged, .opt⟩, ⟨c!"PROXIMITY", propProximity, .opt⟩,
    ⟨c!"GEO-LOCATION", propGeoLocation, .many⟩, ⟨c!"RELATED-TO", propRelatedTo, .opt⟩,
    ⟨c!"DEFAULT-ALARM", propDefaultAlarm, .opt⟩]
  subs := []
  rules := [.needs c!"GEO-LOCATION" c!"PROXIMITY"]

/-- `AlarmEmail` (sections.go:3482-3832; decode 3500-3689, encode 3691-3744, valid 3746-3832). -/
def tabAlarmEmail : Tab Empty where
  name := c!"VALARM"
  fields := [
    ⟨c!"DESCRIPTION", propDescription, .req⟩, ⟨c!"TRIGGER", propTrigger, .req⟩, ⟨c!"SUMMARY", propSummary, .req⟩,
    ⟨c!"ATTENDEE", propAttendee, .opt⟩, ⟨c!"DURATION", propDuration, .opt⟩, ⟨c!"REPEAT", propRepeat, .opt⟩,
    ⟨c!"UID", propUID, .opt⟩, ⟨c!"ALARM-AGENT", propAlarmAgent, .many⟩, ⟨c!"STATUS", propAlarmStatus, .opt⟩,
    ⟨c!"LAST-TRIGGERED", propLastTriggered, .many⟩, ⟨c!"ACKNOWLEDGED", propAcknowledged, .opt⟩,
    ⟨c!"PROXIMITY", propProximity, .opt⟩, ⟨c!"GEO-LOCATION", propGeoLocation, .many⟩, ⟨c!"RELATED-TO", propRelatedTo, .opt⟩,
    ⟨c!"DEFAULT-ALARM", propDefaultAlarm, .opt⟩]
  subs := []
  rules := [.needs c!"GEO-LOCATION" c!"PROXIMITY", .onlyOne c!"DURATION" c!"REPEAT"]

/-- `AlarmURI` (sections.go:3835-4132; decode 3850-4009, encode 4011-4058, valid 4060-4132). -/
def tabAlarmURI : Tab Empty where
  name := c!"VALARM"
  fields := [
    ⟨c!"URI", propURI, .req⟩, ⟨c!"DURATION", propDuration, .opt⟩, ⟨c!"REPEAT", propRepeat, .opt⟩, ⟨c!"UID", propUID, .opt⟩,
    ⟨c!"ALARM-AGENT", propAlarmAgent, .many⟩, ⟨c!"STATUS", propAlarmStatus, .opt⟩,
    ⟨c!"LAST-TRIGGERED", propLastTriggered, .many⟩, ⟨c!"ACKNOWLEDGED", propAcknowledged, .opt⟩,
    ⟨c!"PROXIMITY", propProximity, .opt⟩, ⟨c!"GEO-LOCATION", propGeoLocation, .many⟩, ⟨c!"RELATED-TO", propRelatedTo, .opt⟩,
    ⟨c!"DEFAULT-ALARM", propDefaultAlarm, .opt⟩]
  subs := []
  rules := [.needs c!"GEO-LOCATION" c!"PROXIMITY", .onlyOne c!"DURATION" c!"REPEAT"]

/-- `AlarmNone` (sections.go:4135-4173; decode 4137-4166, encode 4168-4169, valid 4171-4173). -/
def tabAlarmNone : Tab Empty where
  name := c!"VALARM"
  fields := [
    ]
  subs := []
  rules := []

end Ics
