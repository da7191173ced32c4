import Verif.Spec.RfcValues
import Verif.Spec.Rule
import Verif.Spec.TimeMeaning
/-!
# Specification: texts of RFC 5545 for values

`RfcWrites` relates a value to the texts that RFC 5545 section 3.3 has for it.  `Expressible` says which values there are such texts for.
-/

namespace Ics.Spec

open Ics Rfc

/-- float = (["+"] / "-") 1*DIGIT ["." 1*DIGIT] (section 3.3.7) -/
def FloatText (s : Str) : Prop := ∃ sign a n, (sign = [] ∨ sign = ['+'] ∨ sign = ['-']) ∧ Dec a n ∧ (s = sign ++ a ∨ ∃ b m, Dec b m ∧ s = sign ++ a ++ '.' :: b)

/-- The DATE of the day on the calendar where the time is. -/
def DayText (E : Env) (t : GoTime) (s : Str) : Prop := ∃ y m d, DateText s y m d ∧ civil (t.wall E / 86400) = ((y : Int), m, d)

/-- The DATE-TIME of what calendar and clock show where the time is, with a Z exactly if that is UTC. -/
def MomentText (E : Env) (t : GoTime) (s : Str) : Prop := ∃ a c h mi sec, s = a ++ 'T' :: c ++ (if t.loc = .utc then ['Z'] else []) ∧ DayText E t a ∧ ClockText c h mi sec ∧
  t.wall E % 86400 = 3600 * h + 60 * mi + sec

/-- The PERIOD from start to end, or of this duration, not both. -/
def StretchText (E : Env) (p : Period) (s : Str) : Prop := ∃ a b, s = a ++ '/' :: b ∧ MomentText E p.start a ∧
  ((p.stop.isZero = true ∧ RfcDuration b p.dur ∧ p.dur.neg = false) ∨ (p.stop.isZero = false ∧ p.dur = {} ∧ MomentText E p.stop b))

/-- The rules of RFC 5545 (section 3.3.10): FREQ must be there, no part is there twice, and not both COUNT and UNTIL. -/
def RecurText (E : Env) (r : Recur) (s : Str) : Prop :=
  ∃ ps, RuleText s ps ∧ (∃ f, partsNamed ps c!"FREQ" = [f] ∧ (f, r.freq) ∈ frequencies) ∧ Once Number 0 (partsNamed ps c!"COUNT") r.count ∧
    Once Number 0 (partsNamed ps c!"INTERVAL") r.interval ∧
    ((r.until_.isZero = true ∧ partsNamed ps c!"UNTIL" = []) ∨
      ∃ u, r.until_.isZero = false ∧ partsNamed ps c!"UNTIL" = [u] ∧ if r.untilTime then MomentText E r.until_ u else DayText E r.until_ u) ∧
    (partsNamed ps c!"COUNT" = [] ∨ partsNamed ps c!"UNTIL" = []) ∧ ListsRead WeekdayNum ps r

/-- `s` is a text for the value.  What URIs look like is left to `Uri`; that the digits of a float are right is not said. -/
def RfcWrites (E : Env) (Uri : Str → Prop) (s : Str) : Val → Prop
  | .binary b => Base64 0 s b
  | .boolean b => s = if b then c!"TRUE" else c!"FALSE"
  | .calAddress u => s = E.urlString u ∧ Uri s
  | .date t => DayText E t s
  | .dateTime t => MomentText E t s
  | .duration d => RfcDuration s d
  | .integer i => IntLit s i ∧ -2147483648 ≤ i ∧ i ≤ 2147483647
  | .mtext ts => EscapedList s ts ∧ ∀ c ∈ s, NoCtl c
  | .period p => StretchText E p s
  | .recur r => RecurText E r s
  | .text t => Escaped s t ∧ ∀ c ∈ s, NoCtl c
  | .tfloat t => s = E.floatFormat t.1 ++ ';' :: E.floatFormat t.2 ∧ ∃ a b, s = a ++ ';' :: b ∧ FloatText a ∧ FloatText b
  | .uri u => s = E.urlString u ∧ Uri s
  | .utcOffset o => RfcOffset s o

/-- The year is written with four digits. -/
def FourDigits (E : Env) (t : GoTime) : Prop := 0 ≤ (civil (t.wall E / 86400)).1 ∧ (civil (t.wall E / 86400)).1 ≤ 9999

/-- The values that have a text; of those that have none, validation refuses some (control characters in texts, numbers out of range in rules). -/
def Expressible (E : Env) (Uri : Str → Prop) : Val → Prop
  | .binary _ | .boolean _ | .text _ => True
  | .calAddress u | .uri u => Uri (E.urlString u)
  | .date t | .dateTime t => FourDigits E t
  | .duration d => d.weeks = 0 ∨ (d.days = 0 ∧ d.hours = 0 ∧ d.minutes = 0 ∧ d.seconds = 0)
  | .integer i => -2147483648 ≤ i ∧ i ≤ 2147483647
  | .mtext ts => ts ≠ []
  | .period p => FourDigits E p.start ∧
      if p.stop.isZero then p.dur.weeks = 0 ∨ (p.dur.days = 0 ∧ p.dur.hours = 0 ∧ p.dur.minutes = 0 ∧ p.dur.seconds = 0) else p.dur = {} ∧ FourDigits E p.stop
  | .recur r => (r.count = 0 ∨ r.until_.isZero = true) ∧ (∀ x ∈ r.byDay, x.occ = 0 ∨ Ordinal 53 x.occ) ∧ (r.until_.isZero = false → FourDigits E r.until_)
  | .tfloat t => FloatText (E.floatFormat t.1) ∧ FloatText (E.floatFormat t.2)
  | .utcOffset o => -86400 < o ∧ o < 86400

end Ics.Spec
