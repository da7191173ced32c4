import Verif.Spec.TimeMeaning
import Verif.Spec.Again
/-!
# Specification: the instant that a local time stands for (RFC 5545 section 3.3.5, form 3)

"If the local time described occurs more than once (when changing from daylight to standard time), the DATE-TIME value refers to the first occurrence of the referenced
time.  [...]  If the local time described does not occur (when changing from standard to daylight time), the DATE-TIME value is interpreted using the UTC offset before the gap
in local times."
-/

namespace Ics.Spec

open Ics

/-- At the instant `x` a clock with the offset `f` shows the reading `w`. -/
def Shows (f : Int → Int) (x w : Int) : Prop := x + f x = w

/-- The instant for the reading `w`: the first at which the clock shows it; if it never does, since the clock is put forward at `t`, the offset before is used. -/
inductive RfcLocal (f : Int → Int) (w : Int) : Int → Prop
  | first {x : Int} : Shows f x w → (∀ y, Shows f y w → x ≤ y) → RfcLocal f w x
  | gap {t : Int} : (∀ y, ¬ Shows f y w) → t - 1 + f (t - 1) < w → w < t + f t → RfcLocal f w (w - f (t - 1))

/-- The text is the reading `w` of a clock (in seconds since 1 January of year 1), without an offset. -/
def Reading (s : Str) (w : Int) : Prop := ∃ a c f y m d h mi sec ns k, DateText a y m d ∧ DayCount k y m d ∧ ClockText c h mi sec ∧ FracText f ns ∧
  s = a ++ 'T' :: (c ++ f) ∧ w = midnight k + 3600 * (h : Int) + 60 * (mi : Int) + (sec : Int)

end Ics.Spec
