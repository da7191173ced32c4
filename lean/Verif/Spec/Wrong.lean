import Verif.Spec.PropertyLine
import Verif.Spec.Panics
/-!
# Specification: which error a wrong value, parameter or property gets

`ext` stands for the errors of the standard library: of `strconv` for numbers, `time` for dates and zones, `url` for addresses and `base64`.
-/

namespace Ics.Spec

open Ics

/-! ## Values -/

/-- There is no number below 2^64 here: however the text is read as digits (behind a T or not) and something else, there are too many. -/
def NoNumber (s : Str) : Prop :=
  ∀ (t : Bool) (ds : Str) (n : Nat) (r : Str), s = (if t then ['T'] else []) ++ ds ++ r → Dec ds n → (∀ c ∈ r.head?, ¬ ('0' ≤ c ∧ c ≤ '9')) → 2 ^ 64 ≤ n

/-- The items of a duration as far as they are right, and then something, where the number of an item should be, that is none. -/
def DurNumberWrong (s : Str) : Prop :=
  ∃ sign is r, sign ∈ [[], ['+'], ['-']] ∧ s = sign ++ 'P' :: (is.flatMap DurItem.print ++ r) ∧ r ≠ [] ∧ NoNumber r ∧ (∀ i ∈ is, i.n < 2 ^ 64) ∧
    (is = [] ∨ (DurItems is ∧ ∀ i ∈ is, i.unit ≠ 'W' ∧ i.unit ≠ 'S'))

/-- The errors for durations: a wrong number is reported by `strconv`. -/
def DurWrong (s : Str) (e : Err) : Prop :=
  (e = .ext ∧ DurNumberWrong s) ∨ (e = .invalidDuration ∧ ¬ DurNumberWrong s ∧ ∀ d, ¬ DurationMeans s d)

/-- The errors for periods: first it is cut at the slash, then comes the start, then the end or the duration. -/
def PeriodWrong (E : Env) (p : Nat) (tz : Option Str) (s : Str) (e : Err) : Prop :=
  (e = .invalidPeriod ∧ ('/' ∉ s ∨ ∃ a, '/' ∉ a ∧ s = a ++ ['/'])) ∨
  ∃ a b, s = a ++ '/' :: b ∧ '/' ∉ a ∧ b ≠ [] ∧
    ((e = .ext ∧ ∀ t, ¬ DateTimeMeans E p tz a t) ∨
     ((∃ t, DateTimeMeans E p tz a t) ∧
      if b.head? = some 'P' ∨ b.head? = some '+' then DurWrong b e else e = .ext ∧ ∀ u, ¬ DateTimeMeans E (p + 1) tz b u))

/-- The errors for a pair of numbers. -/
def PairWrong (E : Env) (s : Str) (e : Err) : Prop :=
  (e = .invalidTFloat ∧ ';' ∉ s) ∨ (e = .ext ∧ ∃ a b, s = a ++ ';' :: b ∧ ';' ∉ a ∧ (E.floatParse a = none ∨ E.floatParse b = none))

/-- The text gets this error as a value of this type. -/
def ValWrong (E : Env) (look : Str → Option Str) : Kind → Str → Err → Prop
  | .binary, s, e => (e = .invalidEncoding ∧ look c!"ENCODING" ≠ some c!"BASE64") ∨
      (e = .ext ∧ look c!"ENCODING" = some c!"BASE64" ∧ ∀ pad bs, ¬ Base64 pad (s.filter fun c => c ≠ '\r' ∧ c ≠ '\n') bs)
  | .boolean, s, e => e = .invalidBoolean ∧ ∀ b, ¬ BoolText s b
  | .calAddress, s, e => e = .ext ∧ E.urlParse s = none
  | .date, s, e => e = .ext ∧ ∀ t, ¬ DateMeans s t
  | .dateTime, s, e => e = .ext ∧ ∀ t, ¬ DateTimeMeans E 0 (look c!"TZID") s t
  | .duration, s, e => DurWrong s e
  | .integer, s, e => e = .ext ∧ ∀ i, IntLit s i → i < -(2 ^ 31 : Int) ∨ 2 ^ 31 ≤ i
  | .mtext, s, e => e = .invalidText ∧ ∀ ts, ¬ LooseList s ts
  | .period, s, e => PeriodWrong E 0 (look c!"TZID") s e
  | .recur, s, e => e = .invalidRecur ∧ (∀ r, ¬ LooseRule E 0 (look c!"TZID") s r) ∧ ¬ CrashRule E 0 (look c!"TZID") s
  | .text, s, e => e = .invalidText ∧ ∀ t, ¬ LooseText s t
  | .tfloat, s, e => PairWrong E s e
  | .uri, s, e => e = .ext ∧ E.urlParse s = none
  | .utcOffset, s, e => e = .invalidOffset ∧ ∀ o, ¬ LooseOffset s o

/-! ## Parameters -/

/-- Exactly one value is wanted. -/
def NotOne (vs : List PVal) : Prop := ∀ v, vs ≠ [v]

/-- The values get this error as values of this parameter. -/
def ParamWrong (E : Env) : PKind → List PVal → Err → Prop
  | .url, vs, e => (e = .invalidParam ∧ ∀ s, vs ≠ [⟨true, s⟩]) ∨ (e = .ext ∧ ∃ s, vs = [⟨true, s⟩] ∧ E.urlParse s = none)
  | .urls, vs, e => ∃ a v b, vs = a ++ v :: b ∧ (∀ w ∈ a, w.quoted = true ∧ ∃ u, E.urlParse w.data = some u) ∧
      ((e = .invalidParam ∧ v.quoted = false) ∨ (e = .ext ∧ v.quoted = true ∧ E.urlParse v.data = none))
  | .str must, vs, e => e = .invalidParam ∧ (NotOne vs ∨ (must = true ∧ ∃ v ∈ vs, v.quoted = false))
  | .fmt, vs, e => e = .invalidParam ∧ (NotOne vs ∨ ∃ v ∈ vs, ¬ FormatType v.data)
  | .enum _, vs, e => e = .invalidParam ∧ NotOne vs
  | .strs, vs, e => e = .invalidParam ∧ ∃ v ∈ vs, v.quoted = false
  | .range, vs, e => e = .invalidParam ∧ (NotOne vs ∨ ∃ v ∈ vs, upper v.data ≠ c!"THISANDFUTURE")
  | .bool, vs, e => (e = .invalidParam ∧ NotOne vs) ∨ (e = .invalidBoolean ∧ ∃ v, vs = [v] ∧ ∀ b, ¬ BoolText v.data b)

/-- The parameter `p` of a property, with the parameters `a` before it on the line, gets this error: it occurs for the second time, its values are wrong, or VALUE
does not name one of the types. -/
def ParamFault (E : Env) (params : List PDef) (vals : List (Str × Kind)) (a : List (Str × List PVal)) (p : Str × List PVal) (e : Err) : Prop :=
  (∃ d ∈ params, d.name = upper p.1 ∧ ((valuesOf a d.name ≠ [] ∧ e = .duplicateParam) ∨ (valuesOf a d.name = [] ∧ ParamWrong E d.kind p.2 e))) ∨
  (upper p.1 = c!"VALUE" ∧ 2 ≤ vals.length ∧
    ((NotOne p.2 ∧ e = .invalidValue) ∨
     ∃ v, p.2 = [v] ∧ ((valuesOf a c!"VALUE" ≠ [] ∧ e = .duplicateParam) ∨ (valuesOf a c!"VALUE" = [] ∧ upper v.data ∉ vals.map (·.1) ∧ e = .invalidValue))))

/-- None of these parameters is at fault. -/
def ParamsRight (E : Env) (params : List PDef) (vals : List (Str × Kind)) (ps : List (Str × List PVal)) : Prop :=
  ∀ a p b e, ps = a ++ p :: b → ¬ ParamFault E params vals a p e

/-! ## Properties -/

/-- The property gets this error: that of the first parameter that is at fault, or else that of the value. -/
def PropWrong (E : Env) (sh : Shape) (ps : List (Str × List PVal)) (value : Str) (e : Err) : Prop :=
  match sh with
  | .enum names => e = .invalidValue ∧ upper value ∉ names
  | .fields params vals =>
    (∃ a p b, ps = a ++ p :: b ∧ ParamsRight E params vals a ∧ ParamFault E params vals a p e) ∨
    (ParamsRight E params vals ps ∧ ∃ i n k, UsesType vals ps i ∧ vals[i]? = some (n, k) ∧ ValWrong E (otherParam ps) k value e)

end Ics.Spec
