import Verif.Spec.Recur
import Verif.Spec.Values
import Verif.Spec.Structure
import Verif.Spec.TimeMeaning
/-!
# Specification: the text of recurrence rules (RFC 5545 section 3.3.10)

What a rule text says, part by part, without a loop over the parts.
-/

namespace Ics.Spec

open Ics

/-! ## Values -/

/-- The frequencies, with the constants for them (types.go:568-576). -/
def frequencies : List (Str × Nat) :=
  [(c!"SECONDLY", 0), (c!"MINUTELY", 1), (c!"HOURLY", 2), (c!"DAILY", 3), (c!"WEEKLY", 4), (c!"MONTHLY", 5), (c!"YEARLY", 6)]

/-- The days of the week, with the constants for them (types.go:579-591). -/
def weekdays : List (Str × Nat) := [(c!"SU", 1), (c!"MO", 2), (c!"TU", 3), (c!"WE", 4), (c!"TH", 5), (c!"FR", 6), (c!"SA", 7)]

/-- One or two digits, from 1 to 53. -/
def WeekOrdinal (s : Str) (n : Nat) : Prop := Dec s n ∧ s.length ≤ 2 ∧ 1 ≤ n ∧ n ≤ 53

/-- weekdaynum = [[plus / minus] ordwk] weekday -/
inductive WeekdayNum : Str → DayRecur → Prop
  | every {d : Str} {n : Nat} : (d, n) ∈ weekdays → WeekdayNum d ⟨n, 0⟩
  | plain {o d : Str} {k n : Nat} : WeekOrdinal o k → (d, n) ∈ weekdays → WeekdayNum (o ++ d) ⟨n, k⟩
  | plus {o d : Str} {k n : Nat} : WeekOrdinal o k → (d, n) ∈ weekdays → WeekdayNum ('+' :: (o ++ d)) ⟨n, k⟩
  | minus {o d : Str} {k n : Nat} : WeekOrdinal o k → (d, n) ∈ weekdays → WeekdayNum ('-' :: (o ++ d)) ⟨n, -(k : Int)⟩

/-- What the library takes: also a plus sign without a number. -/
def LooseWeekday (s : Str) (x : DayRecur) : Prop := WeekdayNum s x ∨ ∃ d n, (d, n) ∈ weekdays ∧ s = '+' :: d ∧ x = ⟨n, 0⟩

/-- A number from `lo` to `hi`. -/
def Within (lo hi : Nat) (s : Str) (n : Nat) : Prop := Dec s n ∧ lo ≤ n ∧ n ≤ hi

/-- A number with or without a sign, from 1 to `b` or from -b to -1. -/
def Signed (b : Int) (s : Str) (i : Int) : Prop := IntLit s i ∧ Ordinal b i

/-- A list with commas. -/
def CommaList {α : Type} (R : Str → α → Prop) (v : Str) (xs : List α) : Prop :=
  ∃ ws, ws ≠ [] ∧ (∀ w ∈ ws, ',' ∉ w) ∧ v = join [','] ws ∧ Pairwise2 R ws xs

/-- A number of any size that fits into 64 bits. -/
def Number (s : Str) (n : Nat) : Prop := Dec s n ∧ n < 2 ^ 64

/-- A date-time or a date. -/
def UntilValue (E : Env) (p : Nat) (tz : Option Str) (s : Str) (u : GoTime × Bool) : Prop :=
  (DateTimeMeans E p tz s u.1 ∧ u.2 = true) ∨ (DateMeans s u.1 ∧ u.2 = false)

/-! ## Rules -/

/-- The names of rule parts. -/
def ruleParts : List Str := [c!"FREQ", c!"UNTIL", c!"COUNT", c!"INTERVAL", c!"BYSECOND", c!"BYMINUTE", c!"BYHOUR", c!"BYDAY", c!"BYMONTHDAY", c!"BYYEARDAY",
  c!"BYWEEKNO", c!"BYMONTH", c!"BYSETPOS", c!"WKST"]

/-- The text of the rule is these parts: names, and values. -/
def RuleText (s : Str) (ps : List (Str × Str)) : Prop := ps ≠ [] ∧ (∀ p ∈ ps, p.1 ∈ ruleParts ∧ ';' ∉ p.2) ∧ s = join [';'] (ps.map fun p => p.1 ++ '=' :: p.2)

/-- The values of the parts with this name, in order. -/
def partsNamed (ps : List (Str × Str)) (n : Str) : List Str := (ps.filter fun p => p.1 = n).map (·.2)

/-- Not given: the default; given once: what it says. -/
def Once {α : Type} (R : Str → α → Prop) (d : α) (vs : List Str) (x : α) : Prop :=
  match vs with
  | [] => x = d
  | [v] => R v x
  | _ => False

/-- The lists and the start of the week: at most once each. -/
structure ListsRead (W : Str → DayRecur → Prop) (ps : List (Str × Str)) (r : Recur) : Prop where
  bySecond : Once (CommaList (Within 0 60)) [] (partsNamed ps c!"BYSECOND") r.bySecond
  byMinute : Once (CommaList (Within 0 59)) [] (partsNamed ps c!"BYMINUTE") r.byMinute
  byHour : Once (CommaList (Within 0 23)) [] (partsNamed ps c!"BYHOUR") r.byHour
  byDay : Once (CommaList W) [] (partsNamed ps c!"BYDAY") r.byDay
  byMonthDay : Once (CommaList (Signed 31)) [] (partsNamed ps c!"BYMONTHDAY") r.byMonthDay
  byYearDay : Once (CommaList (Signed 366)) [] (partsNamed ps c!"BYYEARDAY") r.byYearDay
  byWeekNum : Once (CommaList (Signed 53)) [] (partsNamed ps c!"BYWEEKNO") r.byWeekNum
  byMonth : Once (CommaList (Within 1 12)) [] (partsNamed ps c!"BYMONTH") r.byMonth
  bySetPos : Once (CommaList (Signed 366)) [] (partsNamed ps c!"BYSETPOS") r.bySetPos
  weekStart : Once (fun v x => (v, x) ∈ weekdays) 0 (partsNamed ps c!"WKST") r.weekStart

/-- The rules of RFC 5545: FREQ must be there, no part is there twice, and not both COUNT and UNTIL.  (COUNT and INTERVAL within 64 bits.) -/
def RfcRule (E : Env) (p : Nat) (tz : Option Str) (s : Str) (r : Recur) : Prop :=
  ∃ ps, RuleText s ps ∧ (∃ f, partsNamed ps c!"FREQ" = [f] ∧ (f, r.freq) ∈ frequencies) ∧ Once Number 0 (partsNamed ps c!"COUNT") r.count ∧
    Once (UntilValue E p tz) ({}, false) (partsNamed ps c!"UNTIL") (r.until_, r.untilTime) ∧ Once Number 0 (partsNamed ps c!"INTERVAL") r.interval ∧
    (partsNamed ps c!"COUNT" = [] ∨ partsNamed ps c!"UNTIL" = []) ∧ ListsRead WeekdayNum ps r

/-! ## What the library takes besides -/

/-- The last one counts, but all must be readable. -/
inductive LastOf {α : Type} (R : Str → α → Prop) (d : α) : List Str → α → Prop
  | none : LastOf R d [] d
  | more {vs : List Str} {v : Str} {y x : α} : LastOf R d vs y → R v x → LastOf R d (vs ++ [v]) x

/-- As often as it is zero. -/
inductive IntervalOf : List Str → Nat → Prop
  | none : IntervalOf [] 0
  | more {vs : List Str} {v : Str} {n : Nat} : IntervalOf vs 0 → Number v n → IntervalOf (vs ++ [v]) n

/-- FREQ, COUNT and UNTIL may be repeated, INTERVAL behind zeros; BYDAY may have a plus sign without a number.  No UNTIL behind a COUNT other than zero, and no
COUNT behind an UNTIL other than the zero time. -/
structure LooseParts (E : Env) (p : Nat) (tz : Option Str) (ps : List (Str × Str)) (r : Recur) : Prop where
  freq : LastOf (fun v x => (v, x) ∈ frequencies) 0 (partsNamed ps c!"FREQ") r.freq
  count : LastOf Number 0 (partsNamed ps c!"COUNT") r.count
  until_ : LastOf (UntilValue E p tz) ({}, false) (partsNamed ps c!"UNTIL") (r.until_, r.untilTime)
  interval : IntervalOf (partsNamed ps c!"INTERVAL") r.interval
  noUntil : ∀ a v b, ps = a ++ (c!"UNTIL", v) :: b → LastOf Number 0 (partsNamed a c!"COUNT") 0
  noCount : ∀ a v b, ps = a ++ (c!"COUNT", v) :: b → ∃ u, LastOf (UntilValue E p tz) ({}, false) (partsNamed a c!"UNTIL") u ∧ u.1.isZero = true
  lists : ListsRead LooseWeekday ps r

def LooseRule (E : Env) (p : Nat) (tz : Option Str) (s : Str) (r : Recur) : Prop :=
  ∃ ps, RuleText s ps ∧ partsNamed ps c!"FREQ" ≠ [] ∧ LooseParts E p tz ps r

end Ics.Spec
