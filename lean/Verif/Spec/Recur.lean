import Verif.Recur
/-!
# Specification of recurrence rules: the ranges of RFC 5545 section 3.3.10
-/

namespace Ics.Spec

open Ics

/-- A signed ordinal of at most `b`. -/
def Ordinal (b : Int) (x : Int) : Prop := (1 ≤ x ∧ x ≤ b) ∨ (-b ≤ x ∧ x ≤ -1)

/-- The ranges of RFC 5545 section 3.3.10; not both COUNT and UNTIL. -/
structure RecurInRange (r : Recur) : Prop where
  freq : r.freq ≤ 6
  weekStart : r.weekStart ≤ 7
  notBoth : r.count = 0 ∨ r.until_.isZero = true
  count : r.count < 2 ^ 64
  interval : r.interval < 2 ^ 64
  bySecond : ∀ x ∈ r.bySecond, x ≤ 60
  byMinute : ∀ x ∈ r.byMinute, x ≤ 59
  byHour : ∀ x ∈ r.byHour, x ≤ 23
  byDay : ∀ x ∈ r.byDay, (1 ≤ x.day ∧ x.day ≤ 7) ∧ (x.occ = 0 ∨ Ordinal 53 x.occ)
  byMonthDay : ∀ x ∈ r.byMonthDay, Ordinal 31 x
  byYearDay : ∀ x ∈ r.byYearDay, Ordinal 366 x
  byWeekNum : ∀ x ∈ r.byWeekNum, Ordinal 53 x
  byMonth : ∀ x ∈ r.byMonth, 1 ≤ x ∧ x ≤ 12
  bySetPos : ∀ x ∈ r.bySetPos, Ordinal 366 x

/-- A rule part BYDAY has the element "+d", a plus sign and one digit, without the name of a day. -/
def plusDay (v : Str) : Bool := (splitOn ';' v).any fun p => p.take 6 == c!"BYDAY=" && (splitOn ',' (p.drop 6)).any fun w =>
  match w with
  | ['+', c] => '0' ≤ c && c ≤ '9'
  | _ => false

end Ics.Spec
