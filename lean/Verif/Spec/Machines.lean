import Verif.Spec.Exchange
/-!
# Specification: the same document on two machines

Machines differ in their own time zone and in the time zones they know, with their rules.  The functions of the Go library for URIs and floats are the same.
-/

namespace Ics.Spec

open Ics

/-- Two machines with the same Go library, as far as decoding needs it. -/
structure SameLibrary (E E' : Env) : Prop where
  url : E'.urlParse = E.urlParse
  float : E'.floatParse = E.floatParse

/-- The corresponding locations: UTC, the zone of the machine, or the zones with this name. -/
inductive LocRel (E E' : Env) : Loc → Loc → Prop
  | utc : LocRel E E' .utc .utc
  | local : LocRel E E' .local .local
  | zone {n : Str} {p r r' : Nat} : E.loadZone n = some r → E'.loadZone n = some r' → LocRel E E' (.zone n p r) (.zone n p r')

/-- The times that package time gives on the two machines for the same date and clock reading, in corresponding locations. -/
def TimeRel (E E' : Env) (t t' : GoTime) : Prop :=
  LocRel E E' t.loc t'.loc ∧ t'.nsec = t.nsec ∧ ∃ w, t.sec = instant E t.loc w ∧ t'.sec = instant E' t'.loc w

/-- Corresponding values: equal, but for times. -/
inductive ValRel (E E' : Env) : Val → Val → Prop
  | same {v : Val} : (∀ t, v ≠ .dateTime t) → (∀ p, v ≠ .period p) → (∀ r, v ≠ .recur r) → ValRel E E' v v
  | dateTime {t t' : GoTime} : TimeRel E E' t t' → ValRel E E' (.dateTime t) (.dateTime t')
  | period {p p' : Period} : TimeRel E E' p.start p'.start → TimeRel E E' p.stop p'.stop → p'.dur = p.dur → ValRel E E' (.period p) (.period p')
  | recur {r : Recur} {t : GoTime} : TimeRel E E' r.until_ t → ValRel E E' (.recur r) (.recur { r with until_ := t })

inductive OptRel (E E' : Env) : Option Val → Option Val → Prop
  | none : OptRel E E' none none
  | some {v v' : Val} : ValRel E E' v v' → OptRel E E' (some v) (some v')

/-- Corresponding properties: the same but for times. -/
inductive PropRel (E E' : Env) : PropVal → PropVal → Prop
  | enum {n : Nat} : PropRel E E' (.enum n) (.enum n)
  | fields {ps : List (Option ParamVal)} {vs vs' : List (Option Val)} : Pairwise2 (OptRel E E') vs vs' → PropRel E E' (.fields ps vs) (.fields ps vs')

/-- The time zones that a line names are known on the second machine, if they are on the first. -/
def ZonesKnown (E E' : Env) (l : Line) : Prop :=
  ∀ q ∈ l.params, upper q.1 = c!"TZID" → E.loadZone (join [','] (q.2.map (·.data))) ≠ none → E'.loadZone (join [','] (q.2.map (·.data))) ≠ none

/-- A rule with COUNT and UNTIL, which RFC 5545 forbids. -/
def CountAndUntil (s : Str) : Prop := (∃ x, (c!"COUNT=" ++ x) ∈ splitOn ';' s) ∧ ∃ x, (c!"UNTIL=" ++ x) ∈ splitOn ';' s

/-- The line may be read on the second machine: its zones are known, and it is not a rule with COUNT and UNTIL. -/
structure Portable (E E' : Env) (l : Line) : Prop where
  zones : ZonesKnown E E' l
  rule : upper l.name = c!"RRULE" → ¬ CountAndUntil l.value

/-! Calendars with no times but UTC times. -/

def Val.inUTC : Val → Prop
  | .dateTime t => t.loc = .utc
  | .period p => p.start.loc = .utc ∧ p.stop.loc = .utc
  | .recur r => r.until_.loc = .utc
  | _ => True

def PropVal.inUTC : PropVal → Prop
  | .enum _ => True
  | .fields _ vs => ∀ v, some v ∈ vs → Val.inUTC v

def everyProp (c : Cal) : List PropVal :=
  c.fields.flatten ++ c.subs.flatten.flatMap fun x => x.fields.flatten ++ x.subs.flatten.flatMap fun
    | .leaf s => s.fields.flatten
    | .alarm (some (_, s)) => s.fields.flatten
    | .alarm none => []

/-- All times in the calendar are UTC times (dates are). -/
def InUTC (c : Cal) : Prop := ∀ p ∈ everyProp c, PropVal.inUTC p

end Ics.Spec
