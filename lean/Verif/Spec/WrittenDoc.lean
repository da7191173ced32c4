import Verif.Spec.Written
import Verif.Spec.Document
/-!
# Specification: documents that follow RFC 5545 in all parts, and the calendars for which there are such documents
-/

namespace Ics.Spec

open Ics Rfc

variable {κ σ : Type}

/-! ## Lines -/

/-- The properties that may have a TZID parameter (sections 3.8.2.2, 3.8.2.3, 3.8.2.4, 3.8.4.4, 3.8.5.1, 3.8.5.2). -/
def zoned : List Str := [c!"DTSTART", c!"DTEND", c!"DUE", c!"RECURRENCE-ID", c!"EXDATE", c!"RDATE"]

/-- The properties whose times must be in UTC (sections 3.8.2.1, 3.8.2.6, 3.8.6.3, 3.8.7, and the extensions of VALARM). -/
def mustUtc : List Str := [c!"COMPLETED", c!"FREEBUSY", c!"TRIGGER", c!"CREATED", c!"DTSTAMP", c!"LAST-MODIFIED", c!"ACKNOWLEDGED", c!"LAST-TRIGGERED"]

def zoneName : Loc → Option Str
  | .zone n _ _ => some n
  | _ => none

/-- The zone of the times in a value. -/
def valZone : Val → Option Str
  | .dateTime t => zoneName t.loc
  | .period p => zoneName p.start.loc
  | .recur r => zoneName r.until_.loc
  | _ => none

/-- The names of media types: type-name "/" subtype-name (section 3.2.8; RFC 4288 section 4.2). -/
def MediaName (s : Str) : Prop := s ≠ [] ∧ ∀ c ∈ s, c ∈ ['!', '#', '$', '&', '.', '+', '-', '^', '_'] ∨ (65 ≤ c.toNat ∧ c.toNat ≤ 90) ∨ (97 ≤ c.toNat ∧ c.toNat ≤ 122) ∨
  (48 ≤ c.toNat ∧ c.toNat ≤ 57)

def MediaType (s : Str) : Prop := ∃ a b, s = a ++ '/' :: b ∧ MediaName a ∧ MediaName b

/-- The values of a parameter (section 3.2): one or more in quotes, one with or without, a media type, a name (out of the list, or another), THISANDFUTURE, true or false.  What is in
the quotes is not looked at. -/
def RfcParam : PKind → List PVal → Prop
  | .url, vs => ∃ s, vs = [⟨true, s⟩]
  | .urls, vs => vs ≠ [] ∧ ∀ v ∈ vs, v.quoted = true
  | .str true, vs => ∃ s, vs = [⟨true, s⟩]
  | .str false, vs => ∃ b s, vs = [⟨b, s⟩]
  | .fmt, vs => ∃ s, vs = [⟨false, s⟩] ∧ MediaType s
  | .enum names, vs => ∃ s, vs = [⟨false, s⟩] ∧ (s ∈ names ∨ (s ≠ [] ∧ ∀ c ∈ s, IanaChar c))
  | .strs, vs => vs ≠ [] ∧ ∀ v ∈ vs, v.quoted = true
  | .range, vs => vs = [⟨false, c!"THISANDFUTURE"⟩]
  | .bool, vs => vs = [⟨false, c!"TRUE"⟩] ∨ vs = [⟨false, c!"FALSE"⟩]

/-- A parameter of a property with a value: VALUE if the type is not the first one; ENCODING for binary values; TZID for times in a zone; the others that the property has. -/
def LineParam (l : Line) (types : List Kind) (names : List Str) (v : Val) (q : Str × List PVal) : Prop :=
  (q.1 = c!"VALUE" ∧ types.head? ≠ some v.kind ∧ q.2 = [⟨false, typeName v.kind⟩]) ∨
  (q.1 = c!"ENCODING" ∧ v.kind = .binary ∧ q.2 = [⟨false, c!"BASE64"⟩]) ∨
  (q.1 = c!"TZID" ∧ l.name ∈ zoned ∧ ∃ n, valZone v = some n ∧ q.2 = [⟨false, n⟩]) ∨
  (q.1 ∈ names ∧ ∃ k, (q.1, k) ∈ paramTypes ∧ RfcParam k q.2)

/-- The line is a property of the component as sections 3.1 and 3.8 have it. -/
def RfcLine (E : Env) (Uri : Str → Prop) (p : Part) (l : Line) : Prop := LineOk l ∧ ∃ t, content p l.name = some t ∧
  match t with
  | .name names => l.params = [] ∧ l.value ∈ names
  | .value types names => ∃ v, v.kind ∈ types ∧ (if l.name = c!"REQUEST-STATUS" then Status l.value else RfcWrites E Uri l.value v) ∧
      (l.params.map (·.1)).Nodup ∧ (∀ q ∈ l.params, LineParam l types names v q) ∧
      (types.head? ≠ some v.kind → c!"VALUE" ∈ l.params.map (·.1)) ∧ (v.kind = .binary → c!"ENCODING" ∈ l.params.map (·.1)) ∧
      (∀ n, valZone v = some n → c!"TZID" ∈ l.params.map (·.1)) ∧ (l.name ∈ mustUtc → ∀ z ∈ valLocs v, z = .utc)

/-! ## Components -/

/-- The components that may be in a component. -/
def inside : Part → List Str
  | .calendar => [c!"VEVENT", c!"VTODO", c!"VJOURNAL", c!"VFREEBUSY", c!"VTIMEZONE"]
  | .event | .todo => [c!"VALARM"]
  | .timezone => [c!"STANDARD", c!"DAYLIGHT"]
  | _ => []

/-- Nothing but properties the component has, as often as it may have them, and components that may be in it; and the rules between them hold. -/
def RfcBody (E : Env) (Uri : Str → Prop) : PartClaim := fun p is =>
  (∀ x ∈ is, match x with
    | .line l => (l.name = c!"ACTION" ∧ ∃ a, p = .alarm a) ∨ (occurs p l.name ≠ none ∧ RfcLine E Uri p l)
    | .block n _ => n ∈ inside p) ∧
  (∀ n o, occurs p n = some o → o.ok (linesNamed is n).length) ∧ ∀ x ∈ laws p, x.ok is

/-! ## Calendars -/

/-- A component of a calendar: the names of its properties, and of the components in it. -/
structure Sec where
  part : Part
  names : List Str
  blocks : List Str
  deriving DecidableEq, Repr

def secOf (p : Part) (T : Tab κ) (s : Sect σ) : Sec :=
  ⟨p, (sectProps T s).map (·.1.spec.name), (T.subs.zip s.subs).flatMap fun x => x.2.map fun _ => x.1.1⟩

/-- The component with this name. -/
def partNamed (n : Str) : Part := (([.event, .todo, .journal, .freeBusy, .timezone, .standard, .daylight] : List Part).find? fun p => p.block = n).getD .calendar

def subSecs (n : Str) : SubKind → Sub → List Sec
  | .leaf T, .leaf s => [secOf (partNamed n) T s]
  | .alarm, .alarm (some (a, s)) => [secOf (.alarm a) a.tab s]
  | _, _ => []

def compSecs (n : Str) (T : Tab SubKind) (s : Comp) : List Sec :=
  secOf (partNamed n) T s :: (T.subs.zip s.subs).flatMap fun x => x.2.flatMap (subSecs x.1.1 x.1.2)

/-- The calendar and all components in it. -/
def calSecs (c : Cal) : List Sec :=
  secOf .calendar tabCalendar c :: (tabCalendar.subs.zip c.subs).flatMap fun x => x.2.flatMap (compSecs x.1.1 x.1.2)

def Rfc.Law.holds (x : Sec) : Law → Prop
  | .notBoth a b => ¬ (a ∈ x.names ∧ b ∈ x.names)
  | .needs a b => a ∈ x.names → b ∈ x.names
  | .bothOrNone a b => a ∈ x.names ↔ b ∈ x.names
  | .notBothNorNone a b => ¬ (a ∈ x.names ↔ b ∈ x.names)
  | .block ns => ∃ n ∈ ns, n ∈ x.blocks

instance (x : Sec) : DecidablePred (Rfc.Law.holds x) := fun y => by cases y <;> unfold Rfc.Law.holds <;> infer_instance

/-- The component has what section 3.6 says it has. -/
def RfcSec (x : Sec) : Prop := (∀ n ∈ x.names, occurs x.part n ≠ none) ∧ (∀ n o, occurs x.part n = some o → o.ok (x.names.count n)) ∧ ∀ y ∈ laws x.part, y.holds x

/-- Parameters that RFC 5545 has a text for, and the library writes so: no URIs (they are written without quotes), no quotes, carets and controls, media types as they should be. -/
def ParamExpressible : PKind → ParamVal → Prop
  | .str _, .str s => PlainText s
  | .fmt, .str s => s = [] ∨ MediaType s ∧ '^' ∉ s
  | .enum _, .enum _ => True
  | .strs, .strs ss => ∀ s ∈ ss, PlainText s
  | .range, .unit => True
  | .bool, .bool _ => True
  | _, _ => False

/-- A property that RFC 5545 has a line for, and the library writes so. -/
structure PropExpressible (E : Env) (Uri : Str → Prop) (f : SField) (p : PropVal) : Prop where
  status : f.spec.name ≠ c!"REQUEST-STATUS"
  params : ∀ y ∈ propParams f.spec p, ParamExpressible y.1.kind y.2
  value : ∀ v ∈ propVals p, Expressible E Uri v
  offset : ∀ v ∈ propVals p, ∀ o, v = .utcOffset o → o < 0
  rule : ∀ v ∈ propVals p, ∀ r, v = .recur r → r.WF
  zone : ∀ v ∈ propVals p, ∀ n, valZone v = some n → f.spec.name ∈ zoned ∧ ∀ c ∈ n, BareChar c
  utc : f.spec.name ∈ mustUtc → ∀ v ∈ propVals p, ∀ z ∈ valLocs v, z = .utc

end Ics.Spec
