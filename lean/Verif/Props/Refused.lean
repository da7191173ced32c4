import Verif.RefusedLemmas
import Verif.Props.Encode
import Verif.Props.Valid
/-!
# Theorems about which error Encode returns: C86
-/

namespace Ics.Props

open Spec

/-! ## C86 Which error Encode returns -/

/-- C86.  Validation refuses a value with an error exactly if `ValRefused` says so. -/
theorem C86_value (v : Val) (e : Err) : v.valid = .err e ↔ ValRefused v e := val_refused v e

/-- C86.  Each value is accepted, or refused with one error, and not both. -/
theorem C86_value_all (v : Val) : (ValFine v ∧ ∀ e, ¬ ValRefused v e) ∨ (¬ ValFine v ∧ ∃ e, ValRefused v e ∧ ∀ e', ValRefused v e' → e' = e) := by
  simp only [← val_fine_iff, ← val_refused]
  cases h : v.valid with
  | ok u => exact .inl ⟨rfl, fun e => (by simp)⟩
  | err e => exact .inr ⟨(by simp), e, rfl, fun e' h => (by cases h; rfl)⟩
  | panic => exact absurd h (Val.valid_ne_panic v)

/-- C86.  The same for parameters, -/
theorem C86_parameter (k : PKind) (v : ParamVal) (e : Err) : k.valid v = .err e ↔ ParamRefused k v e := param_refused k v e

/-- C86.  and for properties, of the Go types: the parameters are looked at first, then the values, then whether there is one value. -/
theorem C86_property (sp : PSpec) (p : PropVal) (ht : sp.typed p = true) (e : Err) : sp.valid p = .err e ↔ PropRefused sp p e := prop_refused ht e

/-- C86.  `Encode` returns a validation error exactly if it is that of the first property that is refused, or of an alarm without type, in the order of `calEntries`:
the properties of the calendar, then component by component, in each the properties before its parts.  Then nothing has been written. -/
theorem C86_encode (E : Env) (W : Sink) (cut : Str → List Str) (c : Cal) (ht : c.typed = true) (e : Err) :
    (∃ o, encode E W cut c = .done o ∧ o.err = some (.validation e)) ↔ First EntryFine EntryRefused (calEntries c) e := by
  rw [← cal_refused ht]
  constructor
  · rintro ⟨o, h1, h2⟩
    exact ((C06_nothing_written E W cut c).1 o e h1 h2).2.2
  · exact (C06_nothing_written E W cut c).2 e

/-- C86.  Nothing has been written then. -/
theorem C86_nothing_written (E : Env) (W : Sink) (cut : Str → List Str) (c : Cal) (ht : c.typed = true) (e : Err) (h : First EntryFine EntryRefused (calEntries c) e) :
    ∃ o, encode E W cut c = .done o ∧ o.err = some (.validation e) ∧ o.f.out = [] ∧ o.f.calls = 0 := by
  obtain ⟨o, h1, h2⟩ := (C86_encode E W cut c ht e).2 h
  obtain ⟨h3, h4, _⟩ := (C06_nothing_written E W cut c).1 o e h1 h2
  exact ⟨o, h1, h2, h3, h4⟩

/-- C86.  The entries are all properties of the calendar, in the same order, and the alarms without type. -/
theorem C86_entries (c : Cal) : (calEntries c).filterMap (fun x => match x with | .prop f p => some (f, p) | .noAlarm => none) = calProps c := by
  let g : Entry → Option (SField × PropVal) := fun x => match x with | .prop f p => some (f, p) | .noAlarm => none
  have sect : ∀ {κ σ : Type} (T : Tab κ) (s : Sect σ), (sectEntries T s).filterMap g = sectProps T s := by
    intro κ σ T s
    rw [sectEntries, List.filterMap_map]
    show (sectProps T s).filterMap (fun x => some x) = _
    exact List.filterMap_some
  have down : ∀ {κ σ : Type} (a : κ → σ → List Entry) (b : κ → σ → List (SField × PropVal)) (T : Tab κ) (s : Sect σ), (∀ k y, (a k y).filterMap g = b k y) →
      (below a T s).filterMap g = below b T s := by
    intro κ σ a b T s h
    unfold below
    rw [List.filterMap_flatMap]
    refine congrArg List.flatten (List.map_congr_left fun x _ => ?_)
    rw [List.filterMap_flatMap]
    exact congrArg List.flatten (List.map_congr_left fun y _ => h _ _)
  show (calEntries c).filterMap g = _
  rw [calEntries, calProps, List.filterMap_append, sect, down compEntries compProps]
  intro T s
  rw [compEntries, compProps, List.filterMap_append, sect, down subEntries subProps]
  intro k s
  unfold subEntries subProps
  split
  · exact sect _ _
  · exact sect _ _
  · rfl
  · next h1 h2 h3 => split <;> simp_all

/-! ### Instances -/

/-- A period without start; one that ends before it starts; one with a negative duration. -/
example : ValRefused (.period {}) .invalidPeriodStart ∧
    ValRefused (.period { start := ⟨63763119600, 0, .utc⟩, stop := ⟨63763119599, 0, .utc⟩ }) .invalidPeriodEnd ∧
    ValRefused (.period { start := ⟨63763119600, 0, .utc⟩, dur := { neg := true, hours := 1 } }) .invalidPeriodDuration := by
  simp only [← C86_value]; decide +kernel

/-- A rule with two things wrong gets the error that comes first. -/
example : ValRefused (.recur { freq := 3, byMonth := [13], byHour := [24] }) .invalidRecurByHour ∧ ¬ ValRefused (.recur { freq := 3, byMonth := [13], byHour := [24] }) .invalidRecurByMonth := by
  simp only [← C86_value]; decide +kernel

/-- A calendar with a product, and an event with a stamp and an alarm without type. -/
def refusedCal (product : Str) (t : GoTime) : Cal := sect tabCalendar [(c!"VERSION", val1 0 (.text c!"2.0")), (c!"PRODID", val1 0 (.text product))]
  [[sect tabEvent [(c!"DTSTAMP", val1 0 (.dateTime t)), (c!"UID", val1 0 (.text c!"1"))] [[Sub.alarm none]]], [], [], [], []]

/-- Three things that are refused: a property of the calendar decides before one of the event, and that before the alarm without type. -/
example : let c := refusedCal c!"\u0001" ⟨0, 0, .utc⟩
    c.typed = true ∧ First EntryFine EntryRefused (calEntries c) .invalidText ∧ ¬ First EntryFine EntryRefused (calEntries c) .invalidTime := by
  intro c
  have ht : c.typed = true := by decide +kernel
  exact ⟨ht, (cal_refused ht _).1 (by decide +kernel), fun h => absurd ((cal_refused ht _).2 h) (by decide +kernel)⟩

example : First EntryFine EntryRefused (calEntries (refusedCal c!"x" ⟨0, 0, .utc⟩)) .invalidTime := (cal_refused (by decide +kernel) _).1 (by decide +kernel)

example : First EntryFine EntryRefused (calEntries (refusedCal c!"x" ⟨1, 0, .utc⟩)) .invalidAlarm := (cal_refused (by decide +kernel) _).1 (by decide +kernel)

end Ics.Props
