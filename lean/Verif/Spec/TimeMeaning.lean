import Verif.Spec.Time
import Verif.Time
/-!
# Specification: which texts are dates, times and durations for the library, and what they mean

Durations are described item by item, dates by counting days from 1 January of year 0.
-/

namespace Ics.Spec

open Ics

/-! ## Dates and times -/

/-- 1 January of year 0 and `k` days is this date. -/
def DayCount (k y m d : Nat) : Prop := Nat.repeat nextDay k (0, 1, 1) = ((y : Int), m, d)

/-- Seconds since 1 January of year 1 of the midnight `k` days after 1 January of year 0 (which had 366 days). -/
def midnight (k : Nat) : Int := 86400 * ((k : Int) - 366)

/-- The text is a date; its meaning is midnight UTC. -/
def DateMeans (s : Str) (t : GoTime) : Prop := ∃ y m d k : Nat, DateText s y m d ∧ DayCount k y m d ∧ t = ⟨midnight k, 0, .utc⟩

/-- The time zone that a TZID names: `UTC` (or nothing), `Local`, or one of the tz database.  `p` is the identity of the location that is loaded. -/
inductive ZoneNamed (E : Env) (p : Nat) : Str → Loc → Prop
  | empty : ZoneNamed E p [] .utc
  | utc : ZoneNamed E p c!"UTC" .utc
  | local : ZoneNamed E p c!"Local" .local
  | zone {n : Str} {r : Nat} : n ≠ [] → n ≠ c!"UTC" → n ≠ c!"Local" → E.loadZone n = some r → ZoneNamed E p n (.zone n p r)

/-- The text is a date, `T`, and a time of day (against RFC 5545 fractional seconds are allowed); with a TZID it is a time in that zone, without it is UTC if there
is a `Z` at the end and local time else.  `instant` is the choice that package time makes for the reading of a clock in a zone. -/
def DateTimeMeans (E : Env) (p : Nat) (tz : Option Str) (s : Str) (t : GoTime) : Prop :=
  ∃ a c f y m d h mi sec ns k l, DateText a y m d ∧ DayCount k y m d ∧ ClockText c h mi sec ∧ FracText f ns ∧
    t = ⟨instant E l (midnight k + 3600 * h + 60 * mi + sec), ns, l⟩ ∧
    match tz with
    | some n => ZoneNamed E p n l ∧ s = a ++ 'T' :: (c ++ f)
    | none => (l = .utc ∧ s = a ++ 'T' :: (c ++ f) ++ ['Z']) ∨ (l = .local ∧ s = a ++ 'T' :: (c ++ f))

/-- The text is a time of day, with a TZID in that zone, without UTC if there is a `Z` at the end and local time else; its meaning is that time on 1 January of year 0, which is
366 days before the first of year 1. -/
def TimeMeans (E : Env) (p : Nat) (tz : Option Str) (s : Str) (t : GoTime) : Prop :=
  ∃ c f h mi sec ns l, ClockText c h mi sec ∧ FracText f ns ∧ t = ⟨instant E l (-366 * 86400 + 3600 * h + 60 * mi + sec), ns, l⟩ ∧
    match tz with
    | some n => ZoneNamed E p n l ∧ s = c ++ f
    | none => (l = .utc ∧ s = c ++ f ++ ['Z']) ∨ (l = .local ∧ s = c ++ f)

/-! ## Durations -/

/-- The order of days, hours, minutes and seconds. -/
def durRank (u : Char) : Nat := if u = 'D' then 0 else if u = 'H' then 1 else if u = 'M' then 2 else 3

/-- An item that may come first: days (not with a T), hours and minutes (with or without), seconds (with). -/
def DurFirst (i : DurItem) : Prop := (i.unit = 'D' ∧ i.t = false) ∨ i.unit = 'H' ∨ i.unit = 'M' ∨ (i.unit = 'S' ∧ i.t = true)

/-- An item that may come behind another one: behind seconds there is nothing; each new T starts anew with hours, else the units get smaller. -/
def DurNext (i j : DurItem) : Prop := i.unit ≠ 'S' ∧ (j.unit = 'H' ∨ j.unit = 'M' ∨ j.unit = 'S') ∧ (j.t = true ∨ durRank i.unit < durRank j.unit)

/-- The items of a duration: weeks alone, or others in order. -/
def DurItems (is : List DurItem) : Prop :=
  (∃ i, is = [i] ∧ i.unit = 'W' ∧ i.t = false) ∨
  ((∃ i l, is = i :: l ∧ DurFirst i) ∧ ∀ a i j b, is = a ++ i :: j :: b → DurNext i j)

/-- The durations that the library takes: an optional sign, `P`, the items.  Of two items with the same unit the last one counts. -/
def DurationMeans (s : Str) (d : Duration) : Prop :=
  ∃ (sign : Str) (is : List DurItem), s = sign ++ 'P' :: is.flatMap DurItem.print ∧ DurItems is ∧ (∀ i ∈ is, i.n < 2 ^ 64) ∧
    ((sign = ['-'] ∧ d.neg = true) ∨ ((sign = [] ∨ sign = ['+']) ∧ d.neg = false)) ∧
    d.weeks = lastOf 'W' 0 is ∧ d.days = lastOf 'D' 0 is ∧ d.hours = lastOf 'H' 0 is ∧ d.minutes = lastOf 'M' 0 is ∧ d.seconds = lastOf 'S' 0 is

end Ics.Spec
