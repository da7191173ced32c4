import Verif.Spec.Values
/-!
# Specification of dates and times: the Gregorian calendar by counting days, and the RFC 5545 formats
-/

namespace Ics.Spec

open Ics

/-- Every fourth year, but only every fourth century year. -/
def LeapYear (y : Int) : Prop := y % 4 = 0 ∧ (y % 100 = 0 → y % 400 = 0)

instance (y : Int) : Decidable (LeapYear y) := by unfold LeapYear; infer_instance

/-- Thirty days hath September, ... -/
def monthLen (y : Int) (m : Nat) : Nat :=
  if m = 4 ∨ m = 6 ∨ m = 9 ∨ m = 11 then 30
  else if m = 2 then (if LeapYear y then 29 else 28)
  else 31

/-- The dates of the Gregorian calendar. -/
def IsDate (y : Int) (m d : Nat) : Prop := 1 ≤ m ∧ m ≤ 12 ∧ 1 ≤ d ∧ d ≤ monthLen y m

/-- The day after. -/
def nextDay : Int × Nat × Nat → Int × Nat × Nat
  | (y, m, d) => if d < monthLen y m then (y, m, d + 1) else if m < 12 then (y, m + 1, 1) else (y + 1, 1, 1)

/-- Four decimal digits. -/
def Four (s : Str) (n : Nat) : Prop := Dec s n ∧ s.length = 4

/-- date = date-fullyear date-month date-mday (RFC 5545 section 3.3.4), and the date exists. -/
def DateText (s : Str) (y m d : Nat) : Prop :=
  ∃ a b c, s = a ++ b ++ c ∧ Four a y ∧ Two b m ∧ Two c d ∧ IsDate y m d

/-- time-hour time-minute time-second (section 3.3.12), without leap seconds. -/
def ClockText (s : Str) (h m sec : Nat) : Prop :=
  ∃ a b c, s = a ++ b ++ c ∧ Two a h ∧ Two b m ∧ Two c sec ∧ h < 24 ∧ m < 60 ∧ sec < 60

/-- Fractional seconds as package time reads them: none, or '.' or ',' with digits, of which the first nine count. -/
def FracText (s : Str) (ns : Nat) : Prop :=
  (s = [] ∧ ns = 0) ∨
  ∃ c a b v, s = c :: (a ++ b) ∧ (c = '.' ∨ c = ',') ∧ Dec a v ∧ (∀ x ∈ b, 48 ≤ x.toNat ∧ x.toNat ≤ 57) ∧
    a.length ≤ 9 ∧ (b ≠ [] → a.length = 9) ∧ ns = v * 10 ^ (9 - a.length)

end Ics.Spec
