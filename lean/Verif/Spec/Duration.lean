import Verif.Duration
/-!
# Specification of durations: the grammar of RFC 5545 section 3.3.6, and a reading of decimal digits

Independent of the decoder: strings are built from the grammar, with the numbers they denote.
-/

namespace Ics.Spec

open Ics

/-- `Dec s n`: `s` is a non-empty string of decimal digits denoting `n` (leading zeros allowed). -/
inductive Dec : Str → Nat → Prop
  | one (d : Fin 10) : Dec [Char.ofNat (48 + d)] d
  | snoc {s n} (d : Fin 10) : Dec s n → Dec (s ++ [Char.ofNat (48 + d)]) (10 * n + d)

/-- A number with its unit letter. -/
def Unit (u : Char) (s : Str) (n : Nat) : Prop := ∃ ds, Dec ds n ∧ s = ds ++ [u]

/-- dur-second -/
def DurSecond (s : Str) (sec : Nat) : Prop := Unit 'S' s sec

/-- dur-minute = 1*DIGIT "M" [dur-second] -/
def DurMinute (s : Str) (min sec : Nat) : Prop :=
  (Unit 'M' s min ∧ sec = 0) ∨ ∃ a b, s = a ++ b ∧ Unit 'M' a min ∧ DurSecond b sec

/-- dur-hour = 1*DIGIT "H" [dur-minute] -/
def DurHour (s : Str) (h min sec : Nat) : Prop :=
  (Unit 'H' s h ∧ min = 0 ∧ sec = 0) ∨ ∃ a b, s = a ++ b ∧ Unit 'H' a h ∧ DurMinute b min sec

/-- dur-time = "T" (dur-hour / dur-minute / dur-second) -/
def DurTime (s : Str) (h min sec : Nat) : Prop :=
  ∃ t, s = 'T' :: t ∧ (DurHour t h min sec ∨ (DurMinute t min sec ∧ h = 0) ∨ (DurSecond t sec ∧ h = 0 ∧ min = 0))

/-- dur-date = dur-day [dur-time] -/
def DurDate (s : Str) (d h min sec : Nat) : Prop :=
  (Unit 'D' s d ∧ h = 0 ∧ min = 0 ∧ sec = 0) ∨ ∃ a b, s = a ++ b ∧ Unit 'D' a d ∧ DurTime b h min sec

/-- dur-date / dur-time / dur-week -/
def DurBody (s : Str) (x : Duration) : Prop :=
  (DurDate s x.days x.hours x.minutes x.seconds ∧ x.weeks = 0) ∨
  (DurTime s x.hours x.minutes x.seconds ∧ x.weeks = 0 ∧ x.days = 0) ∨
  (Unit 'W' s x.weeks ∧ x.days = 0 ∧ x.hours = 0 ∧ x.minutes = 0 ∧ x.seconds = 0)

/-- dur-value = (["+"] / "-") "P" (dur-date / dur-time / dur-week) -/
def RfcDuration (s : Str) (x : Duration) : Prop :=
  ∃ t, DurBody t x ∧ ((x.neg = true ∧ s = '-' :: 'P' :: t) ∨
    (x.neg = false ∧ (s = 'P' :: t ∨ s = '+' :: 'P' :: t)))

/-- One item of the language the decoder really accepts: an optional "T", a number, a unit letter. -/
structure DurItem where
  t : Bool
  n : Nat
  unit : Char
  digits : Str
  dec : Dec digits n

def DurItem.print (i : DurItem) : Str := (if i.t then ['T'] else []) ++ i.digits ++ [i.unit]

/-- The number written with a unit: the last one wins, `dflt` if there is none. -/
def lastOf (u : Char) (dflt : Nat) : List DurItem → Nat
  | [] => dflt
  | i :: l => lastOf u (if i.unit = u then i.n else dflt) l

end Ics.Spec
