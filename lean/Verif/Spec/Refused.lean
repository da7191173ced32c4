import Verif.Spec.Valid
/-!
# Specification: which error Encode returns for a calendar that it refuses
-/

namespace Ics.Spec

open Ics

/-- The first in a list that is not fine gets this error. -/
def First {α : Type} (Fine : α → Prop) (Wrong : α → Err → Prop) (l : List α) (e : Err) : Prop :=
  ∃ a x b, l = a ++ x :: b ∧ (∀ y ∈ a, Fine y) ∧ Wrong x e

/-- What is asked of a rule, in order, with the error if it is not so. -/
def ruleChecks (r : Recur) : List (Err × Prop) :=
  [(.invalidRecurFrequency, r.freq ≤ 6), (.invalidRecurBySecond, ∀ x ∈ r.bySecond, x ≤ 60), (.invalidRecurByMinute, ∀ x ∈ r.byMinute, x ≤ 59),
   (.invalidRecurByHour, ∀ x ∈ r.byHour, x ≤ 23), (.invalidRecurByDay, ∀ x ∈ r.byDay, 1 ≤ x.day ∧ x.day ≤ 7),
   (.invalidRecurByMonthDay, ∀ x ∈ r.byMonthDay, Ordinal 31 x), (.invalidRecurByYearDay, ∀ x ∈ r.byYearDay, Ordinal 366 x),
   (.invalidRecurByWeekNum, ∀ x ∈ r.byWeekNum, Ordinal 53 x), (.invalidRecurByMonth, ∀ x ∈ r.byMonth, 1 ≤ x ∧ x ≤ 12),
   (.invalidRecurBySetPos, ∀ x ∈ r.bySetPos, Ordinal 366 x), (.invalidRecurWeekStart, r.weekStart ≤ 7)]

/-- The value is refused with this error. -/
def ValRefused : Val → Err → Prop
  | .date t, e => e = .invalidTime ∧ ZeroTime t
  | .dateTime t, e => e = .invalidTime ∧ ZeroTime t
  | .text t, e => e = .invalidText ∧ ¬ NoControl t
  | .mtext ts, e => e = .invalidText ∧ ∃ t ∈ ts, ¬ NoControl t
  | .period p, e => (e = .invalidPeriodStart ∧ ZeroTime p.start) ∨ (e = .invalidPeriodDuration ∧ ¬ ZeroTime p.start ∧ ZeroTime p.stop ∧ p.dur.neg = true) ∨
      (e = .invalidPeriodEnd ∧ ¬ ZeroTime p.start ∧ ¬ ZeroTime p.stop ∧ ¬ (Before p.start p.stop ∧ p.start.loc = p.stop.loc))
  | .recur r, e => First (fun x => x.2) (fun x e => ¬ x.2 ∧ e = x.1) (ruleChecks r) e
  | .tfloat t, e => e = .invalidFloat ∧ ¬ (NotFinite t.1 ∧ NotFinite t.2)
  | _, _ => False

/-- The parameter is refused with this error. -/
def ParamRefused : PKind → ParamVal → Err → Prop
  | .str _, .str s, e => e = .invalidText ∧ ¬ NoControl s
  | .strs, .strs ss, e => e = .invalidText ∧ ∃ s ∈ ss, ¬ NoControl s
  | .fmt, .str s, e => e = .invalidValue ∧ ¬ FormatType s
  | _, _, _ => False

/-- The property is refused with this error: first for its parameters, then for its values, then if there is not exactly one value. -/
def PropRefused (sp : PSpec) (p : PropVal) (e : Err) : Prop :=
  match sp.shape, p with
  | .enum names, .enum n => e = .invalidValue ∧ names.length ≤ n
  | _, p =>
    First (fun x => ParamFine x.1.kind x.2) (fun x => ParamRefused x.1.kind x.2) (propParams sp p) e ∨
    ((∀ x ∈ propParams sp p, ParamFine x.1.kind x.2) ∧
      (First ValFine ValRefused (propVals p) e ∨ ((∀ v ∈ propVals p, ValFine v) ∧ (propVals p).length ≠ 1 ∧ e = .invalidValue)))

/-- What is looked at in a calendar: properties, and alarms without type. -/
inductive Entry where
  | prop (f : SField) (p : PropVal)
  | noAlarm

def sectEntries {κ σ : Type} (T : Tab κ) (s : Sect σ) : List Entry := (sectProps T s).map fun x => .prop x.1 x.2

def subEntries : SubKind → Sub → List Entry
  | .leaf T, .leaf s => sectEntries T s
  | .alarm, .alarm (some (a, s)) => sectEntries a.tab s
  | .alarm, .alarm none => [.noAlarm]
  | _, _ => []

def compEntries (T : Tab SubKind) (s : Comp) : List Entry := sectEntries T s ++ below subEntries T s

/-- All of them, in order: the properties of the calendar, then component by component, in each the properties before its parts. -/
def calEntries (c : Cal) : List Entry := sectEntries tabCalendar c ++ below compEntries tabCalendar c

def EntryFine : Entry → Prop
  | .prop f p => PropFine f.spec p
  | .noAlarm => False

def EntryRefused : Entry → Err → Prop
  | .prop f p, e => PropRefused f.spec p e
  | .noAlarm, e => e = .invalidAlarm

end Ics.Spec
