import Verif.Spec.PropertyLine
/-!
# Specification: the components and properties of RFC 5545

What section 3.6 says about the properties of each component, and section 3.8 about their values and parameters, written down apart from the tables of the
model.  The properties of alarms that RFC 5545 does not have (UID to DEFAULT-ALARM, and the action URI) are those of the extensions of VALARM
(draft-daboo-valarm-extensions).  Where the library takes other properties, or has other rules, is listed in `changes` and `libLaws`.
-/

namespace Ics.Spec.Rfc

/-- The components; alarms by their action. -/
inductive Part where
  | calendar | event | todo | journal | freeBusy | timezone | standard | daylight | alarm (a : AKind)
  deriving DecidableEq, Repr

/-- The name on BEGIN and END lines. -/
def Part.block : Part → Str
  | .calendar => c!"VCALENDAR"
  | .event => c!"VEVENT"
  | .todo => c!"VTODO"
  | .journal => c!"VJOURNAL"
  | .freeBusy => c!"VFREEBUSY"
  | .timezone => c!"VTIMEZONE"
  | .standard => c!"STANDARD"
  | .daylight => c!"DAYLIGHT"
  | .alarm _ => c!"VALARM"

/-- The values of ACTION. -/
def action : AKind → Str
  | .audio => c!"AUDIO"
  | .display => c!"DISPLAY"
  | .email => c!"EMAIL"
  | .uri => c!"URI"
  | .none => c!"NONE"

/-- How often a property may occur. -/
inductive Occ where
  /-- required, once -/
  | one
  /-- optional, once -/
  | upToOne
  /-- optional, may be repeated -/
  | any
  /-- required, may be repeated -/
  | some
  deriving DecidableEq, Repr

def Occ.ok : Occ → Nat → Prop
  | .one, n => n = 1
  | .upToOne, n => n ≤ 1
  | .any, _ => True
  | .some, n => 1 ≤ n

/-! ## Section 3.6 -/

/-- The extensions of VALARM. -/
def alarmExtras : List (Occ × List Str) :=
  [(.upToOne, [c!"UID", c!"STATUS", c!"ACKNOWLEDGED", c!"PROXIMITY", c!"RELATED-TO", c!"DEFAULT-ALARM"]),
   (.any, [c!"ALARM-AGENT", c!"LAST-TRIGGERED", c!"GEO-LOCATION"])]

/-- The properties of a component (of alarms, those besides ACTION). -/
def properties : Part → List (Occ × List Str)
  | .calendar => [(.one, [c!"PRODID", c!"VERSION"]), (.upToOne, [c!"CALSCALE", c!"METHOD"])]
  | .event => [(.one, [c!"DTSTAMP", c!"UID"]),
      (.upToOne, [c!"DTSTART", c!"CLASS", c!"CREATED", c!"DESCRIPTION", c!"GEO", c!"LAST-MODIFIED", c!"LOCATION", c!"ORGANIZER", c!"PRIORITY", c!"SEQUENCE",
        c!"STATUS", c!"SUMMARY", c!"TRANSP", c!"URL", c!"RECURRENCE-ID", c!"RRULE", c!"DTEND", c!"DURATION"]),
      (.any, [c!"ATTACH", c!"ATTENDEE", c!"CATEGORIES", c!"COMMENT", c!"CONTACT", c!"EXDATE", c!"REQUEST-STATUS", c!"RELATED-TO", c!"RESOURCES", c!"RDATE"])]
  | .todo => [(.one, [c!"DTSTAMP", c!"UID"]),
      (.upToOne, [c!"CLASS", c!"COMPLETED", c!"CREATED", c!"DESCRIPTION", c!"DTSTART", c!"GEO", c!"LAST-MODIFIED", c!"LOCATION", c!"ORGANIZER",
        c!"PERCENT-COMPLETE", c!"PRIORITY", c!"RECURRENCE-ID", c!"SEQUENCE", c!"STATUS", c!"SUMMARY", c!"URL", c!"RRULE", c!"DUE", c!"DURATION"]),
      (.any, [c!"ATTACH", c!"ATTENDEE", c!"CATEGORIES", c!"COMMENT", c!"CONTACT", c!"EXDATE", c!"REQUEST-STATUS", c!"RELATED-TO", c!"RESOURCES", c!"RDATE"])]
  | .journal => [(.one, [c!"DTSTAMP", c!"UID"]),
      (.upToOne, [c!"CLASS", c!"CREATED", c!"DTSTART", c!"LAST-MODIFIED", c!"ORGANIZER", c!"RECURRENCE-ID", c!"SEQUENCE", c!"STATUS", c!"SUMMARY", c!"URL",
        c!"RRULE"]),
      (.any, [c!"ATTACH", c!"ATTENDEE", c!"CATEGORIES", c!"COMMENT", c!"CONTACT", c!"DESCRIPTION", c!"EXDATE", c!"RELATED-TO", c!"RDATE",
        c!"REQUEST-STATUS"])]
  | .freeBusy => [(.one, [c!"DTSTAMP", c!"UID"]), (.upToOne, [c!"CONTACT", c!"DTSTART", c!"DTEND", c!"ORGANIZER", c!"URL"]),
      (.any, [c!"ATTENDEE", c!"COMMENT", c!"FREEBUSY", c!"REQUEST-STATUS"])]
  | .timezone => [(.one, [c!"TZID"]), (.upToOne, [c!"LAST-MODIFIED", c!"TZURL"])]
  | .standard => [(.one, [c!"DTSTART", c!"TZOFFSETTO", c!"TZOFFSETFROM"]), (.upToOne, [c!"RRULE"]), (.any, [c!"COMMENT", c!"RDATE", c!"TZNAME"])]
  | .daylight => [(.one, [c!"DTSTART", c!"TZOFFSETTO", c!"TZOFFSETFROM"]), (.upToOne, [c!"RRULE"]), (.any, [c!"COMMENT", c!"RDATE", c!"TZNAME"])]
  | .alarm .audio => [(.one, [c!"TRIGGER"]), (.upToOne, [c!"DURATION", c!"REPEAT", c!"ATTACH"])] ++ alarmExtras
  | .alarm .display => [(.one, [c!"DESCRIPTION", c!"TRIGGER"]), (.upToOne, [c!"DURATION", c!"REPEAT"])] ++ alarmExtras
  | .alarm .email => [(.one, [c!"DESCRIPTION", c!"TRIGGER", c!"SUMMARY"]), (.some, [c!"ATTENDEE"]), (.upToOne, [c!"DURATION", c!"REPEAT"]),
      (.any, [c!"ATTACH"])] ++ alarmExtras
  | .alarm .uri => [(.one, [c!"TRIGGER", c!"URI"]), (.upToOne, [c!"DURATION", c!"REPEAT"])] ++ alarmExtras
  | .alarm .none => []

/-- Where the library differs: how often it takes the property, or `none` if it ignores it. -/
def changes : Part → List (Str × Option Occ)
  | .calendar => [(c!"CALSCALE", none), (c!"METHOD", none)]
  | .event => [(c!"LAST-MODIFIED", none), (c!"LAST-MOD", some .upToOne)]
  | .todo => [(c!"LAST-MODIFIED", none), (c!"LAST-MOD", some .upToOne), (c!"RRULE", none)]
  | .journal => [(c!"LAST-MODIFIED", none), (c!"LAST-MOD", some .upToOne), (c!"RESOURCES", some .any)]
  | .timezone => [(c!"LAST-MODIFIED", none), (c!"LAST-MOD", some .upToOne)]
  | .alarm .audio => [(c!"ATTACH", some .any)]
  | .alarm .email => [(c!"ATTENDEE", some .upToOne), (c!"ATTACH", none)]
  | .alarm .uri => [(c!"TRIGGER", none)]
  | _ => []

/-- How often RFC 5545 allows the property in the component. -/
def occurs (p : Part) (n : Str) : Option Occ := ((properties p).find? fun x => x.2.contains n).map (·.1)

/-- How often the library does. -/
def libOccurs (p : Part) (n : Str) : Option Occ :=
  match (changes p).find? fun x => x.1 = n with
  | some x => x.2
  | none => occurs p n

/-! ## Rules between the properties of a component (section 3.6) -/

/-- A rule between two properties, or about blocks. -/
inductive Law where
  | notBoth (a b : Str)
  | needs (a b : Str)
  | bothOrNone (a b : Str)
  | notBothNorNone (a b : Str)
  | block (ns : List Str)
  deriving DecidableEq, Repr

/-- The component with these parts keeps the rule. -/
def Law.ok (is : List Item) : Law → Prop
  | .notBoth a b => ¬ (linesNamed is a ≠ [] ∧ linesNamed is b ≠ [])
  | .needs a b => linesNamed is a ≠ [] → linesNamed is b ≠ []
  | .bothOrNone a b => linesNamed is a ≠ [] ↔ linesNamed is b ≠ []
  | .notBothNorNone a b => ¬ (linesNamed is a ≠ [] ↔ linesNamed is b ≠ [])
  | .block ns => ∃ n ∈ ns, blocksNamed is n ≠ []

def laws : Part → List Law
  | .event => [.notBoth c!"DTEND" c!"DURATION"]
  | .todo => [.notBoth c!"DUE" c!"DURATION", .needs c!"DURATION" c!"DTSTART"]
  | .timezone => [.block [c!"STANDARD", c!"DAYLIGHT"]]
  | .alarm .none => []
  | .alarm _ => [.bothOrNone c!"DURATION" c!"REPEAT", .needs c!"GEO-LOCATION" c!"PROXIMITY"]
  | _ => []

/-- The library has DURATION and REPEAT wrong: no rule for AUDIO and DISPLAY, the contrary for EMAIL and URI. -/
def libLaws : Part → List Law
  | .alarm .audio => [.needs c!"GEO-LOCATION" c!"PROXIMITY"]
  | .alarm .display => [.needs c!"GEO-LOCATION" c!"PROXIMITY"]
  | .alarm .email => [.needs c!"GEO-LOCATION" c!"PROXIMITY", .notBothNorNone c!"DURATION" c!"REPEAT"]
  | .alarm .uri => [.needs c!"GEO-LOCATION" c!"PROXIMITY", .notBothNorNone c!"DURATION" c!"REPEAT"]
  | p => laws p

/-! ## Section 3.2: parameters -/

/-- The parameters the library stores, and their values: quoted URIs and strings, texts, names out of a list (others count as unknown), true or false. -/
def paramTypes : List (Str × PKind) :=
  [(c!"ALTREP", .url),
   (c!"CN", .str false),
   (c!"CUTYPE", .enum [c!"INDIVIDUAL", c!"GROUP", c!"RESOURCE", c!"ROOM"]),
   (c!"DELEGATED-FROM", .urls),
   (c!"DELEGATED-TO", .urls),
   (c!"DIR", .str true),
   (c!"FMTTYPE", .fmt),
   (c!"FBTYPE", .enum [c!"FREE", c!"BUSY", c!"BUSY-UNAVAILABLE", c!"BUSY-TENTATIVE"]),
   (c!"LANGUAGE", .str false),
   (c!"MEMBER", .strs),
   (c!"PARTSTAT", .enum [c!"NEEDS-ACTION", c!"ACCEPTED", c!"DECLINED", c!"TENTATIVE", c!"DELEGATED", c!"COMPLETED", c!"IN-PROCESS"]),
   (c!"RANGE", .range),
   (c!"RELTYPE", .enum [c!"PARENT", c!"CHILD", c!"SIBLING"]),
   (c!"ROLE", .enum [c!"REQ-PARTICIPANT", c!"CHAIR", c!"OPT-PARTICIPANT", c!"NON-PARTICIPANT"]),
   (c!"RSVP", .bool),
   (c!"SENT-BY", .str true),
   (c!"URI", .url),
   (c!"ID", .str true),
   (c!"AGENT-ID", .str true)]

/-! ## Section 3.8: values and parameters of properties -/

/-- What a property has: a value of one of these types (the first if VALUE does not say), and these parameters; or a name out of a list. -/
inductive Content where
  | value (types : List Kind) (params : List Str)
  | name (names : List Str)

/-- The names of value types in the parameter VALUE. -/
def typeName : Kind → Str
  | .binary => c!"BINARY"
  | .boolean => c!"BOOLEAN"
  | .calAddress => c!"CAL-ADDRESS"
  | .date => c!"DATE"
  | .dateTime => c!"DATE-TIME"
  | .duration => c!"DURATION"
  | .integer => c!"INTEGER"
  | .period => c!"PERIOD"
  | .recur => c!"RECUR"
  | .text => c!"TEXT"
  | .mtext => c!"TEXT"
  | .tfloat => c!"FLOAT"
  | .uri => c!"URI"
  | .utcOffset => c!"UTC-OFFSET"

/-- The properties, with the parameters the library stores.  (`mtext` is a list of texts, `tfloat` a pair of floats.)  RFC 5545 allows lists of values
for EXDATE, RDATE and FREEBUSY also, and has a structure for REQUEST-STATUS; the library has not. -/
def contents : List (Str × Content) :=
  [(c!"VERSION", .value [.text] []),
   (c!"PRODID", .value [.text] []),
   (c!"CALSCALE", .name [c!"GREGORIAN"]),
   (c!"METHOD", .value [.text] []),
   (c!"ATTACH", .value [.uri, .binary] [c!"FMTTYPE"]),
   (c!"CATEGORIES", .value [.mtext] [c!"LANGUAGE"]),
   (c!"CLASS", .name [c!"PUBLIC", c!"PRIVATE", c!"CONFIDENTIAL"]),
   (c!"COMMENT", .value [.text] [c!"ALTREP", c!"LANGUAGE"]),
   (c!"DESCRIPTION", .value [.text] [c!"ALTREP", c!"LANGUAGE"]),
   (c!"GEO", .value [.tfloat] []),
   (c!"LOCATION", .value [.text] [c!"ALTREP", c!"LANGUAGE"]),
   (c!"PERCENT-COMPLETE", .value [.integer] []),
   (c!"PRIORITY", .value [.integer] []),
   (c!"RESOURCES", .value [.mtext] [c!"ALTREP", c!"LANGUAGE"]),
   (c!"STATUS", .name [c!"TENTATIVE", c!"CONFIRMED", c!"CANCELLED", c!"NEEDS-ACTION", c!"COMPLETED", c!"IN-PROCESS", c!"DRAFT", c!"FINAL"]),
   (c!"SUMMARY", .value [.text] [c!"ALTREP", c!"LANGUAGE"]),
   (c!"COMPLETED", .value [.dateTime] []),
   (c!"DTEND", .value [.dateTime, .date] []),
   (c!"DUE", .value [.dateTime, .date] []),
   (c!"DTSTART", .value [.dateTime, .date] []),
   (c!"DURATION", .value [.duration] []),
   (c!"FREEBUSY", .value [.period] [c!"FBTYPE"]),
   (c!"TRANSP", .name [c!"OPAQUE", c!"TRANSPARENT"]),
   (c!"TZID", .value [.text] []),
   (c!"TZNAME", .value [.text] [c!"LANGUAGE"]),
   (c!"TZOFFSETFROM", .value [.utcOffset] []),
   (c!"TZOFFSETTO", .value [.utcOffset] []),
   (c!"TZURL", .value [.uri] []),
   (c!"ATTENDEE", .value [.calAddress] [c!"CUTYPE", c!"MEMBER", c!"ROLE", c!"PARTSTAT", c!"RSVP", c!"DELEGATED-TO", c!"DELEGATED-FROM", c!"SENT-BY", c!"CN",
     c!"DIR", c!"LANGUAGE"]),
   (c!"CONTACT", .value [.text] [c!"ALTREP", c!"LANGUAGE"]),
   (c!"ORGANIZER", .value [.calAddress] [c!"CN", c!"DIR", c!"SENT-BY", c!"LANGUAGE"]),
   (c!"RECURRENCE-ID", .value [.dateTime, .date] [c!"RANGE"]),
   (c!"RELATED-TO", .value [.text] [c!"RELTYPE"]),
   (c!"URL", .value [.uri] []),
   (c!"UID", .value [.text] []),
   (c!"EXDATE", .value [.dateTime, .date] []),
   (c!"RDATE", .value [.dateTime, .date, .period] []),
   (c!"RRULE", .value [.recur] []),
   (c!"REPEAT", .value [.integer] []),
   (c!"TRIGGER", .value [.duration, .dateTime] []),
   (c!"CREATED", .value [.dateTime] []),
   (c!"DTSTAMP", .value [.dateTime] []),
   (c!"LAST-MODIFIED", .value [.dateTime] []),
   (c!"LAST-MOD", .value [.dateTime] []),
   (c!"SEQUENCE", .value [.integer] []),
   (c!"REQUEST-STATUS", .value [.text] []),
   (c!"ALARM-AGENT", .value [.text] [c!"URI", c!"ID", c!"AGENT-ID"]),
   (c!"LAST-TRIGGERED", .value [.dateTime] []),
   (c!"ACKNOWLEDGED", .value [.dateTime] []),
   (c!"PROXIMITY", .value [.text] []),
   (c!"GEO-LOCATION", .value [.uri] []),
   (c!"DEFAULT-ALARM", .value [.boolean] []),
   (c!"URI", .value [.uri] [])]

/-- STATUS has other names in alarms. -/
def content : Part → Str → Option Content
  | .alarm _, n => if n = c!"STATUS" then some (.name [c!"ACTIVE", c!"CANCELLED", c!"COMPLETED"]) else (contents.find? fun x => x.1 = n).map (·.2)
  | _, n => (contents.find? fun x => x.1 = n).map (·.2)

/-- The shape of a property with this content.  (Types are named by VALUE if there is a choice.) -/
def Content.shape : Content → Shape
  | .value types params => .fields (params.map fun n => ⟨n, ((paramTypes.find? fun x => x.1 = n).map (·.2)).getD .range⟩)
      (types.map fun k => (if types.length = 1 then [] else typeName k, k))
  | .name names => .enum names

/-! ## Documents -/

/-- The RFC, or what the library makes of it. -/
inductive Edition where
  | rfc | library
  deriving DecidableEq

def Edition.occurs : Edition → Part → Str → Option Occ
  | .rfc => Rfc.occurs
  | .library => libOccurs

def Edition.laws : Edition → Part → List Law
  | .rfc => Rfc.laws
  | .library => libLaws

/-- `P` holds for each component of the document: for its parts, without those of the components in it. -/
abbrev PartClaim := Part → List Item → Prop

/-- The lines between BEGIN:VALARM and END:VALARM. -/
def AlarmAll (P : PartClaim) (k : List Line) : Prop := (∀ l ∈ k, ¬ Begins l ∧ ¬ Ends l) ∧
  ∃ us a, actions k = us ++ [action a] ∧ (∀ u ∈ us, ∀ b, u ≠ action b) ∧ ∃ is, Items k is ∧ P (.alarm a) is

/-- The components in a component. -/
def InnerAll (P : PartClaim) (p : Part) (is : List Item) : Prop :=
  match p with
  | .event | .todo => ∀ k ∈ blocksNamed is c!"VALARM", AlarmAll P k
  | .timezone => (∀ k ∈ blocksNamed is c!"STANDARD", ∃ js, Items k js ∧ P .standard js) ∧
      ∀ k ∈ blocksNamed is c!"DAYLIGHT", ∃ js, Items k js ∧ P .daylight js
  | _ => True

def ComponentAll (P : PartClaim) (p : Part) (k : List Line) : Prop := ∃ is, Items k is ∧ P p is ∧ InnerAll P p is

/-- The lines are a calendar object, and `P` holds for the calendar and all components in it. -/
def DocAll (P : PartClaim) (ls : List Line) : Prop :=
  ∃ b k e is, ls = b :: k ++ [e] ∧ Begins b ∧ upper b.value = c!"VCALENDAR" ∧ Ends e ∧ e.value = c!"VCALENDAR" ∧ Items k is ∧ P .calendar is ∧
    ∀ p ∈ [Part.event, .todo, .journal, .freeBusy, .timezone], ∀ j ∈ blocksNamed is p.block, ComponentAll P p j

/-- The properties of a component: each occurs as often as it may, and each line can be read. -/
def PropsOk (ed : Edition) (E : Env) : PartClaim := fun p is => ∀ n o t, ed.occurs p n = some o → content p n = some t →
  o.ok (linesNamed is n).length ∧ ∀ l ∈ linesNamed is n, ∃ r, PropReads E t.shape l.params l.value r

/-- The lines between BEGIN and END of a component, but for the components in it. -/
def BodyOk (ed : Edition) (E : Env) : PartClaim := fun p is => PropsOk ed E p is ∧ ∀ x ∈ ed.laws p, x.ok is

/-- A correct calendar object. -/
def DocOk (ed : Edition) (E : Env) : List Line → Prop := DocAll (BodyOk ed E)

end Ics.Spec.Rfc
