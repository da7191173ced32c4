import Verif.Spec.Wrong
import Verif.Spec.Refused
import Verif.Wording
/-!
# Specification: what the error of a value, parameter or property says

The conditions are those of `Verif.Spec.Wrong` and `Verif.Spec.Refused`; here is what is said in each case.  `X` gives the texts of the standard library.
-/

namespace Ics.Spec

open Ics

/-! ## Values -/

/-- No date and time: with a TZID either the zone is not there or the text is wrong, without one the text is said to be no UTC time if it ends with Z, else no local time. -/
def DateTimeSays (X : Call → Str) (E : Env) (p : Nat) (tz : Option Str) (s m : Str) : Prop :=
  (∀ t, ¬ DateTimeMeans E p tz s t) ∧
  match tz with
  | some n => ((∀ l, ¬ ZoneNamed E p n l) ∧ m = c!"error loading timezone for DateTime: " ++ X (.zone n)) ∨
      ((∃ l, ZoneNamed E p n l) ∧ m = c!"error parsing time in location for DateTime: " ++ X (.time c!"20060102T150405" s))
  | none => ((∃ a, s = a ++ ['Z']) ∧ m = c!"error parsing time in UTC for DateTime: " ++ X (.time c!"20060102T150405Z" s)) ∨
      ((∀ a, s ≠ a ++ ['Z']) ∧ m = c!"error parsing local time for DateTime: " ++ X (.time c!"20060102T150405" s))

/-- The digits that the text starts with, behind a T if there is one. -/
def DigitsOf (s ds : Str) : Prop :=
  ∃ r, (s = 'T' :: (ds ++ r) ∨ (s = ds ++ r ∧ ∀ s', s ≠ 'T' :: s')) ∧ (∀ c ∈ ds, '0' ≤ c ∧ c ≤ '9') ∧ ∀ c ∈ r.head?, ¬ ('0' ≤ c ∧ c ≤ '9')

/-- No duration.  The number that can not be read is that of the first item which is not right. -/
def DurSays (X : Call → Str) (s m : Str) : Prop :=
  (DurWrong s .invalidDuration ∧ m = c!"invalid Duration") ∨
  ∃ sign is r ds, sign ∈ [[], ['+'], ['-']] ∧ s = sign ++ 'P' :: (is.flatMap DurItem.print ++ r) ∧ r ≠ [] ∧ NoNumber r ∧ (∀ i ∈ is, i.n < 2 ^ 64) ∧
    (is = [] ∨ (DurItems is ∧ ∀ i ∈ is, i.unit ≠ 'W' ∧ i.unit ≠ 'S')) ∧ DigitsOf r ds ∧ m = c!"error decoding duration: " ++ X (.uint ds)

/-- No period: the part that is wrong is named. -/
def PeriodSays (X : Call → Str) (E : Env) (p : Nat) (tz : Option Str) (s m : Str) : Prop :=
  (('/' ∉ s ∨ ∃ a, '/' ∉ a ∧ s = a ++ ['/']) ∧ m = c!"invalid Period") ∨
  ∃ a b, s = a ++ '/' :: b ∧ '/' ∉ a ∧ b ≠ [] ∧
    ((∃ x, DateTimeSays X E p tz a x ∧ m = c!"error while decoding Period Start: " ++ x) ∨
     ((∃ t, DateTimeMeans E p tz a t) ∧
      if b.head? = some 'P' ∨ b.head? = some '+' then ∃ x, DurSays X b x ∧ m = c!"error while decoding Period: " ++ x
      else ∃ x, DateTimeSays X E (p + 1) tz b x ∧ m = c!"error while decoding Period End: " ++ x))

/-- No pair of numbers: it is said which of them is wrong. -/
def PairSays (X : Call → Str) (E : Env) (s m : Str) : Prop :=
  (';' ∉ s ∧ m = c!"invalid number of floats") ∨
  ∃ a b, s = a ++ ';' :: b ∧ ';' ∉ a ∧ ((E.floatParse a = none ∧ m = c!"error parsing TFloat[0]: " ++ X (.float a)) ∨
    (E.floatParse a ≠ none ∧ E.floatParse b = none ∧ m = c!"error parsing TFloat[1]: " ++ X (.float b)))

/-- This is said of the text as a value of this type. -/
def ValSays (X : Call → Str) (E : Env) (look : Str → Option Str) : Kind → Str → Str → Prop
  | .binary, s, m => (ValWrong E look .binary s .invalidEncoding ∧ m = c!"invalid Binary encoding") ∨
      (ValWrong E look .binary s .ext ∧ m = c!"error while decoding binary data: " ++ X (.base64 s))
  | .boolean, s, m => ValWrong E look .boolean s .invalidBoolean ∧ m = c!"invalid Boolean"
  | .calAddress, s, m => ValWrong E look .calAddress s .ext ∧ m = c!"error parsing CalendarAddress: " ++ X (.url s)
  | .date, s, m => ValWrong E look .date s .ext ∧ m = c!"error parsing Date: " ++ X (.time c!"20060102" s)
  | .dateTime, s, m => DateTimeSays X E 0 (look c!"TZID") s m
  | .duration, s, m => DurSays X s m
  | .integer, s, m => ValWrong E look .integer s .ext ∧ m = X (.int s)
  | .mtext, s, m => ValWrong E look .mtext s .invalidText ∧ m = c!"invalid encoded text"
  | .period, s, m => PeriodSays X E 0 (look c!"TZID") s m
  | .recur, s, m => ValWrong E look .recur s .invalidRecur ∧ m = c!"invalid Recur"
  | .text, s, m => ValWrong E look .text s .invalidText ∧ m = c!"invalid encoded text"
  | .tfloat, s, m => PairSays X E s m
  | .uri, s, m => ValWrong E look .uri s .ext ∧ m = c!"error decoding URI: " ++ X (.url s)
  | .utcOffset, s, m => ValWrong E look .utcOffset s .invalidOffset ∧ m = c!"invalid UTC Offset"

/-! ## Parameters -/

/-- The reason that is given for wrong values of a parameter. -/
def ParamCause (X : Call → Str) (E : Env) : PKind → List PVal → Str → Prop
  | .url, vs, m => ((∀ s, vs ≠ [⟨true, s⟩]) ∧ m = c!"invalid param value") ∨ ∃ s, vs = [⟨true, s⟩] ∧ E.urlParse s = none ∧ m = c!"error decoding URI: " ++ X (.url s)
  | .urls, vs, m => ∃ a v b, vs = a ++ v :: b ∧ (∀ w ∈ a, w.quoted = true ∧ ∃ u, E.urlParse w.data = some u) ∧
      ((v.quoted = false ∧ m = c!"invalid param value") ∨ (v.quoted = true ∧ E.urlParse v.data = none ∧ m = c!"error parsing CalendarAddress: " ++ X (.url v.data)))
  | k, vs, m => (ParamWrong E k vs .invalidParam ∧ m = c!"invalid param value") ∨ (ParamWrong E k vs .invalidBoolean ∧ m = c!"invalid Boolean")

/-- This is said of the parameter `p`, with the parameters `a` before it on the line, of a property called `me`: property and parameter are named, the parameter twice if its values
are wrong. -/
def ParamSays (X : Call → Str) (E : Env) (me : Str) (params : List PDef) (vals : List (Str × Kind)) (a : List (Str × List PVal)) (p : Str × List PVal) (m : Str) : Prop :=
  (∃ d ∈ params, d.name = upper p.1 ∧
    ((valuesOf a d.name ≠ [] ∧ m = c!"error decoding " ++ me ++ c!"->" ++ goParam d.name ++ c!": duplicate param") ∨
     (valuesOf a d.name = [] ∧ ∃ x, ParamCause X E d.kind p.2 x ∧ m = c!"error decoding " ++ me ++ c!"->" ++ goParam d.name ++ c!": error decoding " ++ goParam d.name ++ c!": " ++ x))) ∨
  (upper p.1 = c!"VALUE" ∧ 2 ≤ vals.length ∧
    ((NotOne p.2 ∧ m = c!"error decoding " ++ me ++ c!"->Value: invalid value") ∨
     ∃ v, p.2 = [v] ∧ ((valuesOf a c!"VALUE" ≠ [] ∧ m = c!"error decoding " ++ me ++ c!"->Value: duplicate param") ∨
      (valuesOf a c!"VALUE" = [] ∧ upper v.data ∉ vals.map (·.1) ∧ m = c!"error decoding " ++ me ++ c!": invalid value"))))

/-! ## Properties -/

/-- This is said of the property: of the first parameter that is at fault, or else of the value, whose type is named if the property has parameters or several types. -/
def PropSays (X : Call → Str) (E : Env) (me : Str) (sh : Shape) (ps : List (Str × List PVal)) (value m : Str) : Prop :=
  match sh with
  | .enum names => upper value ∉ names ∧ m = c!"error decoding " ++ me ++ c!": invalid value"
  | .fields params vals =>
    (∃ a p b, ps = a ++ p :: b ∧ ParamsRight E params vals a ∧ ParamSays X E me params vals a p m) ∨
    (ParamsRight E params vals ps ∧ ∃ i n k x, UsesType vals ps i ∧ vals[i]? = some (n, k) ∧ ValSays X E (otherParam ps) k value x ∧
      m = c!"error decoding " ++ me ++ (if params = [] ∧ vals.length = 1 then [] else c!"->" ++ k.goName) ++ c!": " ++ x)

/-! ## Validation -/

/-- This is said of a property that is refused: the parameter, or the type of the value, is named; that it is a property that is just a value, or not exactly one value, is said with
"error decoding", as is the error of a parameter. -/
def PropSaysInvalid (me : Str) (sp : PSpec) (p : PropVal) (m : Str) : Prop :=
  match sp.shape, p with
  | .enum names, .enum n => names.length ≤ n ∧ m = c!"error decoding " ++ me ++ c!": invalid value"
  | .fields params vals, p =>
    (∃ a d v b e, propParams sp p = a ++ (d, v) :: b ∧ (∀ x ∈ a, ParamFine x.1.kind x.2) ∧ ParamRefused d.kind v e ∧
      m = c!"error validating " ++ me ++ c!"->" ++ goParam d.name ++ c!": error decoding " ++ goParam d.name ++ c!": " ++ e.sentinel) ∨
    ((∀ x ∈ propParams sp p, ParamFine x.1.kind x.2) ∧
      ((∃ a v b e, propVals p = a ++ v :: b ∧ (∀ x ∈ a, ValFine x) ∧ ValRefused v e ∧
        m = if params = [] ∧ vals.length = 1 then c!"error decoding " ++ me ++ c!": " ++ e.sentinel
          else c!"error validating " ++ me ++ c!"->" ++ v.kind.goName ++ c!": " ++ e.sentinel) ∨
       ((∀ v ∈ propVals p, ValFine v) ∧ (propVals p).length ≠ 1 ∧ m = c!"error decoding " ++ me ++ c!": invalid value")))
  | _, _ => False

end Ics.Spec
