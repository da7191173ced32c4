import Verif.Spec.Document
import Verif.Spec.Params
import Verif.Spec.Recur
/-!
# Specification: the values Encode accepts
-/

namespace Ics.Spec

/-- 1 January of year 1, 00:00:00 UTC: the Go zero time. -/
def ZeroTime (t : GoTime) : Prop := t.sec = 0 ∧ t.nsec = 0

/-- The first time is before the second. -/
def Before (t u : GoTime) : Prop := t.sec < u.sec ∨ (t.sec = u.sec ∧ t.nsec < u.nsec)

/-- The bit pattern of an IEEE 754 double that is infinite or not a number: all eleven bits of the exponent are set. -/
def NotFinite (b : UInt64) : Prop := b.toNat / 2 ^ 52 % 2048 = 2047

/-- The values, among those with no control characters and no number out of range, that Encode accepts: dates and times other than the zero
time, periods that begin at such a time and end later in the same location or after a duration, and positions that are not finite. -/
def Accepted : Val → Prop
  | .date t => ¬ ZeroTime t
  | .dateTime t => ¬ ZeroTime t
  | .period p => ¬ ZeroTime p.start ∧ ((ZeroTime p.stop ∧ p.dur.neg = false) ∨ (¬ ZeroTime p.stop ∧ Before p.start p.stop ∧ p.start.loc = p.stop.loc))
  | .tfloat t => NotFinite t.1 ∧ NotFinite t.2
  | _ => True

/-- No control characters but tab and line feed. -/
def NoControl (s : Str) : Prop := ∀ c ∈ s, ¬ (c.toNat ≤ 8 ∨ (11 ≤ c.toNat ∧ c.toNat ≤ 31) ∨ c.toNat = 127)

/-- The rules that Encode accepts: everything in range, but neither FREQ with BY lists that do not go with it nor COUNT with UNTIL are looked at, nor the
ordinals of BYDAY. -/
structure RuleFine (r : Recur) : Prop where
  freq : r.freq ≤ 6
  bySecond : ∀ x ∈ r.bySecond, x ≤ 60
  byMinute : ∀ x ∈ r.byMinute, x ≤ 59
  byHour : ∀ x ∈ r.byHour, x ≤ 23
  byDay : ∀ x ∈ r.byDay, 1 ≤ x.day ∧ x.day ≤ 7
  byMonthDay : ∀ x ∈ r.byMonthDay, Ordinal 31 x
  byYearDay : ∀ x ∈ r.byYearDay, Ordinal 366 x
  byWeekNum : ∀ x ∈ r.byWeekNum, Ordinal 53 x
  byMonth : ∀ x ∈ r.byMonth, 1 ≤ x ∧ x ≤ 12
  bySetPos : ∀ x ∈ r.bySetPos, Ordinal 366 x
  weekStart : r.weekStart ≤ 7

/-- The values that Encode accepts. -/
def ValFine : Val → Prop
  | .text t => NoControl t
  | .mtext ts => ∀ t ∈ ts, NoControl t
  | .recur r => RuleFine r
  | v => Accepted v

/-- The parameters that Encode accepts. -/
def ParamFine : PKind → ParamVal → Prop
  | .str _, .str s => NoControl s
  | .strs, .strs ss => ∀ s ∈ ss, NoControl s
  | .fmt, .str s => FormatType s
  | _, _ => True

/-- The properties that Encode accepts: one of the names, or one value, with its parameters. -/
def PropFine (sp : PSpec) (p : PropVal) : Prop :=
  match sp.shape, p with
  | .enum names, .enum n => n < names.length
  | _, p => (propVals p).length = 1 ∧ (∀ v ∈ propVals p, ValFine v) ∧ ∀ x ∈ propParams sp p, ParamFine x.1.kind x.2

/-- All values in a calendar. -/
def calVals (c : Cal) : List Val := (calProps c).flatMap fun x => propVals x.2

end Ics.Spec
