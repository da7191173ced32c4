import Verif.Spec.Rfc
import Verif.Spec.Time
/-!
# Specification: values of RFC 5545 that are lists or have parts
-/

namespace Ics.Spec.Rfc

/-- DATE-TIME (section 3.3.5), without leap seconds. -/
def Moment (s : Str) : Prop := ∃ a c y m d h mi sec, ∃ z : Bool, s = a ++ 'T' :: c ++ (if z then ['Z'] else []) ∧ DateText a y m d ∧ ClockText c h mi sec

/-- DATE (section 3.3.4). -/
def Day (s : Str) : Prop := ∃ y m d, DateText s y m d

/-- PERIOD (section 3.3.9): a start, and an end or a duration that is not negative. -/
def Stretch (s : Str) : Prop := ∃ a b, s = a ++ '/' :: b ∧ Moment a ∧ (Moment b ∨ ∃ x, RfcDuration b x ∧ x.neg = false)

/-- The properties with lists of times (sections 3.8.2.6, 3.8.5.1, 3.8.5.2). -/
def timeLists : List Str := [c!"FREEBUSY", c!"EXDATE", c!"RDATE"]

/-- A list of values of the same type, with commas between them. -/
def TimeList (xs : List Str) (s : Str) : Prop :=
  xs ≠ [] ∧ ((∀ x ∈ xs, Moment x) ∨ (∀ x ∈ xs, Day x) ∨ (∀ x ∈ xs, Stretch x)) ∧ s = join [','] xs

/-- statcode = 1*DIGIT 1*2("." 1*DIGIT) (section 3.8.8.3) -/
def StatCode (s : Str) : Prop := ∃ a b i j, Dec a i ∧ Dec b j ∧ (s = a ++ '.' :: b ∨ ∃ c k, Dec c k ∧ s = a ++ '.' :: b ++ '.' :: c)

/-- The value of REQUEST-STATUS: statcode ";" statdesc [";" extdata] -/
def Status (s : Str) : Prop := ∃ code desc t, StatCode code ∧ Escaped desc t ∧ (s = code ++ ';' :: desc ∨ ∃ data u, Escaped data u ∧ s = code ++ ';' :: desc ++ ';' :: data)

end Ics.Spec.Rfc
