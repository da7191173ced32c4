import Verif.Spec.TimeMeaning
import Verif.Spec.Rule
import Verif.Spec.Params
/-!
# Specification: which texts are values of the types of properties and parameters for the library, and what they mean

The texts of the types are described by relations between text and value; URIs and floating point numbers are left to the functions of the Go library that parse
them (`E.urlParse`, `E.floatParse`).
-/

namespace Ics.Spec

open Ics

/-- The spellings of truth values that `strconv.ParseBool` takes. -/
inductive BoolText : Str → Bool → Prop
  | yes {s : Str} : s ∈ [c!"1", c!"t", c!"T", c!"TRUE", c!"true", c!"True"] → BoolText s true
  | no {s : Str} : s ∈ [c!"0", c!"f", c!"F", c!"FALSE", c!"false", c!"False"] → BoolText s false

/-- A period: the start, a slash, and the end or a duration that is not negative.  Start and end in a time zone get locations of their own. -/
inductive PeriodMeans (E : Env) (p : Nat) (tz : Option Str) : Str → Period → Prop
  | until {a b : Str} {t u : GoTime} : '/' ∉ a → DateTimeMeans E p tz a t → DateTimeMeans E (p + 1) tz b u → PeriodMeans E p tz (a ++ '/' :: b) ⟨t, u, {}⟩
  | lasting {a b : Str} {t : GoTime} {d : Duration} : '/' ∉ a → DateTimeMeans E p tz a t → DurationMeans b d → d.neg = false →
      PeriodMeans E p tz (a ++ '/' :: b) ⟨t, {}, d⟩

/-- Two numbers with a semicolon between them. -/
def PairMeans (E : Env) (s : Str) (x : UInt64 × UInt64) : Prop := ∃ a b, s = a ++ ';' :: b ∧ ';' ∉ a ∧ E.floatParse a = some x.1 ∧ E.floatParse b = some x.2

/-- The text is a value of this type; `look` gives the parameters TZID and ENCODING. -/
def ValMeans (E : Env) (look : Str → Option Str) : Kind → Str → Val → Prop
  | .binary, s, v => ∃ bs pad, v = .binary bs ∧ look c!"ENCODING" = some c!"BASE64" ∧ Base64 pad (s.filter fun c => c ≠ '\r' ∧ c ≠ '\n') bs
  | .boolean, s, v => ∃ b, v = .boolean b ∧ BoolText s b
  | .calAddress, s, v => ∃ u, v = .calAddress u ∧ E.urlParse s = some u
  | .date, s, v => ∃ t, v = .date t ∧ DateMeans s t
  | .dateTime, s, v => ∃ t, v = .dateTime t ∧ DateTimeMeans E 0 (look c!"TZID") s t
  | .duration, s, v => ∃ d, v = .duration d ∧ DurationMeans s d
  | .integer, s, v => ∃ i, v = .integer i ∧ IntLit s i ∧ -(2 ^ 31 : Int) ≤ i ∧ i < 2 ^ 31
  | .mtext, s, v => ∃ ts, v = .mtext ts ∧ LooseList s ts
  | .period, s, v => ∃ p, v = .period p ∧ PeriodMeans E 0 (look c!"TZID") s p
  | .recur, s, v => ∃ r, v = .recur r ∧ LooseRule E 0 (look c!"TZID") s r
  | .text, s, v => ∃ t, v = .text t ∧ LooseText s t
  | .tfloat, s, v => ∃ x, v = .tfloat x ∧ PairMeans E s x
  | .uri, s, v => ∃ u, v = .uri u ∧ E.urlParse s = some u
  | .utcOffset, s, v => ∃ o, v = .utcOffset o ∧ LooseOffset s o

/-! ## Parameters -/

/-- What the library makes of the caret: the escape sequences of RFC 6868 are replaced by what they mean, and kept besides; before another character the caret is
tripled; at the end it stays. -/
inductive CaretText : Str → Str → Prop
  | nil : CaretText [] []
  | last : CaretText ['^'] ['^']
  | plain {s t : Str} (c : Char) : c ≠ '^' → CaretText s t → CaretText (c :: s) (c :: t)
  | newline {s t : Str} : CaretText s t → CaretText ('^' :: 'n' :: s) ('\n' :: '^' :: 'n' :: t)
  | quote {s t : Str} : CaretText s t → CaretText ('^' :: '\'' :: s) ('"' :: '^' :: '\'' :: t)
  | caret {s t : Str} : CaretText s t → CaretText ('^' :: '^' :: s) ('^' :: '^' :: '^' :: t)
  | other {s t : Str} (c : Char) : c ≠ 'n' → c ≠ '\'' → c ≠ '^' → CaretText s t → CaretText ('^' :: c :: s) ('^' :: '^' :: '^' :: c :: t)

/-- The values are a value of this parameter. -/
def ParamMeans (E : Env) : PKind → List PVal → ParamVal → Prop
  | .url, vs, q => ∃ s u, vs = [⟨true, s⟩] ∧ q = .url u ∧ E.urlParse s = some u
  | .urls, vs, q => ∃ us, q = .urls us ∧ Pairwise2 (fun (v : PVal) u => v.quoted = true ∧ E.urlParse v.data = some u) vs us
  | .str must, vs, q => ∃ v t, vs = [v] ∧ q = .str t ∧ (must = true → v.quoted = true) ∧ CaretText v.data t
  | .fmt, vs, q => ∃ v, vs = [v] ∧ q = .str v.data ∧ FormatType v.data
  | .enum names, vs, q => ∃ v, vs = [v] ∧
      ((∃ n, q = .enum (n + 1) ∧ names[n]? = some (upper v.data) ∧ upper v.data ∉ names.take n) ∨ (q = .enum 0 ∧ upper v.data ∉ names))
  | .strs, vs, q => ∃ ts, q = .strs ts ∧ Pairwise2 (fun (v : PVal) t => v.quoted = true ∧ CaretText v.data t) vs ts
  | .range, vs, q => ∃ v, vs = [v] ∧ q = .unit ∧ upper v.data = c!"THISANDFUTURE"
  | .bool, vs, q => ∃ v b, vs = [v] ∧ q = .bool b ∧ BoolText v.data b

end Ics.Spec
