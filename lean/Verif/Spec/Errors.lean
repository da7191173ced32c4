import Verif.Spec.Fault
/-!
# Specification: what each error of Decode means
-/

namespace Ics.Spec

open Ics

/-- The errors of the values of a type; `ext` are errors of the standard library (numbers, times, addresses, BASE64). -/
def Kind.errors : Kind → List Err
  | .binary => [.invalidEncoding, .ext]
  | .boolean => [.invalidBoolean]
  | .calAddress | .uri | .date | .dateTime | .integer => [.ext]
  | .duration => [.invalidDuration, .ext]
  | .mtext | .text => [.invalidText]
  | .period => [.invalidPeriod, .invalidDuration, .ext]
  | .recur => [.invalidRecur]
  | .tfloat => [.invalidTFloat, .ext]
  | .utcOffset => [.invalidOffset]

/-- The errors of parameters. -/
def paramErrors : List Err := [.duplicateParam, .invalidParam, .invalidValue, .invalidBoolean, .ext]

/-- The errors of a property. -/
def shapeErrors (sp : PSpec) : List Err :=
  match sp.shape with
  | .enum _ => [.invalidValue]
  | .fields _ vals => paramErrors ++ vals.flatMap fun x => Kind.errors x.2

/-- All of them. -/
def valueErrors : List Err := [.duplicateParam, .invalidParam, .invalidValue, .invalidBoolean, .ext, .invalidEncoding, .invalidDuration, .invalidText, .invalidPeriod, .invalidRecur,
  .invalidTFloat, .invalidOffset]

/-- The errors of content lines. -/
def lineErrors : List Err := [.invalidContentLine, .invalidContentLineName, .invalidContentLineParamName, .invalidContentLineQuotedParamValue, .invalidContentLineParamValue,
  .invalidContentLineValue]

/-- A line is looked at in this block, and no line before it is at fault.  The lines of an alarm are looked at when it has ended. -/
inductive Looked (E : Env) (ls : List Line) : Level → Line → Prop
  | direct {pre r : List Line} {l : Line} {p : Level} {st : List Level} : ls = pre ++ l :: r → Midway E pre (p :: st) → p.frame ≠ .alarm → Looked E ls p l
  | alarm {pre r k post : List Line} {l m : Line} {p q : Level} {st sq : List Level} {a : AKind} : ls = pre ++ l :: r → Midway E pre (p :: st) → p.frame = .alarm → l.name = c!"END" →
      Acts p.own a → ownLines p.own ++ [l] = k ++ m :: post → Sails (SectFault E) (alarmStart a) k (q :: sq) → Looked E ls q m

/-- A line of an alarm is read, and no line before it is at fault. -/
def InAlarm (E : Env) (ls : List Line) (p : Level) (l : Line) : Prop := ∃ pre r st, ls = pre ++ l :: r ∧ Midway E pre (p :: st) ∧ p.frame = .alarm

/-- What the document is wrong about, if `Decode` returns this error. -/
def Means (E : Env) (s : Stream) : Err → Prop
  /- the first line does not begin a calendar -/
  | .invalidCalendar => ∃ l r, s.lines = l :: r ∧ ¬ Opening l
  /- the document ends too early; or an alarm ends in a component that is unknown -/
  | .unexpectedEOF => (s.term = .done ∧ (s.lines = [] ∨ ∃ p st, Midway E s.lines (p :: st) ∧ p.frame ≠ .alarm)) ∨
      ∃ p l a st, InAlarm E s.lines p l ∧ l.name = c!"END" ∧ Acts p.own a ∧ Sails (SectFault E) (alarmStart a) (ownLines p.own ++ [l]) st
  /- a property that may occur once occurs again in the same block -/
  | .multiple => ∃ p l f, Looked E s.lines p l ∧ f ∈ p.frame.fields ∧ f.key = upper l.name ∧ f.mult ≠ .many ∧ HasLine p.own f.key
  /- a block ends without a property that is required -/
  | .missingRequired => ∃ p l f, Looked E s.lines p l ∧ Ends l ∧ l.value = p.name ∧ f ∈ p.frame.fields ∧ f.mult = .req ∧ ¬ HasLine p.own f.key
  /- a block ends with the required properties, but one of the rules between its properties does not hold -/
  | .requirementNotMet => ∃ p l ρ, Looked E s.lines p l ∧ Ends l ∧ l.value = p.name ∧ (∀ f ∈ p.frame.fields, f.mult = .req → HasLine p.own f.key) ∧ ρ ∈ p.frame.rules ∧
      ¬ RuleMet p.frame p.own ρ
  /- an END line with a name that is not that of the innermost open block -/
  | .invalidEnd => ∃ p l, Looked E s.lines p l ∧ Ends l ∧ ((p.frame.IsSection ∧ l.value ≠ p.name) ∨ (p.frame = .unknown ∧ upper l.value ≠ p.name))
  /- BEGIN in an alarm, or a second ACTION -/
  | .invalidStructure => ∃ p l, InAlarm E s.lines p l ∧ (l.name = c!"BEGIN" ∨ (l.name = c!"ACTION" ∧ ∃ a, Acts p.own a))
  /- an alarm ends without an ACTION that is known -/
  | .missingAlarmAction => ∃ p l, InAlarm E s.lines p l ∧ l.name = c!"END" ∧ ∀ a, ¬ Acts p.own a
  | e =>
    /- a text that is not a content line, where a line is read -/
    (e ∈ lineErrors ∧ s.term = .error e ∧ (s.lines = [] ∨ ∃ st, Midway E s.lines st)) ∨
    /- the parameters or the value of a property are wrong -/
    (e ∈ valueErrors ∧ ∃ p l f, Looked E s.lines p l ∧ f ∈ p.frame.fields ∧ f.key = upper l.name ∧ (f.mult = .many ∨ ¬ HasLine p.own f.key) ∧
      f.spec.decode E l.params l.value = .err e)

end Ics.Spec
