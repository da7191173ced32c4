import Verif.Codec
/-!
# The size of a calendar in memory

Counted are the characters of texts, the octets of binary values, the elements of lists, and one for each parameter, property and
component.  Values of fixed size (numbers, times, durations) count with their property.  What `net/url` keeps of an address and what
`time.LoadLocation` keeps of a zone is not counted.
-/

namespace Ics.Spec

/-- Texts in a list: their characters, and one for each. -/
def listSize : List Str → Nat
  | [] => 0
  | t :: ts => t.length + 1 + listSize ts

/-- The elements of the lists of a recurrence rule. -/
def recurSize (r : Recur) : Nat :=
  r.bySecond.length + r.byMinute.length + r.byHour.length + r.byDay.length + r.byMonthDay.length + r.byYearDay.length +
    r.byWeekNum.length + r.byMonth.length + r.bySetPos.length

/-- What a value holds. -/
def valSize : Val → Nat
  | .binary b => b.length
  | .text t => t.length
  | .mtext ts => listSize ts
  | .recur r => recurSize r
  | _ => 0

/-- What a parameter holds. -/
def paramSize : ParamVal → Nat
  | .str s => s.length
  | .strs ss => listSize ss
  | .urls us => us.length
  | _ => 0

/-- The parameters that are set. -/
def paramsSize : List (Option ParamVal) → Nat
  | [] => 0
  | none :: ps => paramsSize ps
  | some p :: ps => 1 + paramSize p + paramsSize ps

/-- The values that are set. -/
def valsSize : List (Option Val) → Nat
  | [] => 0
  | none :: vs => valsSize vs
  | some v :: vs => valSize v + valsSize vs

/-- A property. -/
def propSize : PropVal → Nat
  | .enum _ => 1
  | .fields ps vs => 1 + paramsSize ps + valsSize vs

/-- The sum of a measure over lists of lists. -/
def sumSize {α : Type} (w : α → Nat) (ls : List (List α)) : Nat := (ls.map fun l => (l.map w).sum).sum

/-- A section whose subsections have the given size. -/
def sectSize {σ : Type} (w : σ → Nat) (s : Sect σ) : Nat := 1 + sumSize propSize s.fields + sumSize w s.subs

/-- Sections without subsections. -/
def noSize : Empty → Nat := nofun

/-- An alarm, STANDARD or DAYLIGHT. -/
def subSize : Sub → Nat
  | .leaf s => sectSize noSize s
  | .alarm none => 1
  | .alarm (some (_, s)) => sectSize noSize s

/-- A component. -/
def compSize (c : Comp) : Nat := sectSize subSize c

/-- A calendar. -/
def calSize (c : Cal) : Nat := sectSize compSize c

end Ics.Spec
