import Verif.Spec.Size
/-!
# Specification: the size of what Encode writes

What is written is measured against the size of the calendar (Spec/Size.lean) and against the texts that do not come from the calendar itself: those that `net/url` and
`strconv` make of addresses and floats, and the names of time zones.
-/

namespace Ics.Spec

open Ics

/-- The clock reading of the time fits 64 bits: true of every `time.Time` whose date Go can tell. -/
def TimeFits (E : Env) (t : GoTime) : Prop := -(2 ^ 63) ≤ t.wall E ∧ t.wall E < 2 ^ 63

/-- The numbers and times in the value fit the types they have in Go. -/
def ValFits (E : Env) : Val → Prop
  | .date t | .dateTime t => TimeFits E t
  | .duration d => d.WF
  | .integer i => -(2 ^ 63) ≤ i ∧ i < 2 ^ 63
  | .period p => TimeFits E p.start ∧ TimeFits E p.stop ∧ p.dur.WF
  | .recur r => r.WF ∧ TimeFits E r.until_
  | _ => True

/-- The numbers and times in the property fit the types they have in Go. -/
def PropFits (E : Env) : PropVal → Prop
  | .enum _ => True
  | .fields _ vs => ∀ v, some v ∈ vs → ValFits E v

/-- The name of a location, if it is one of the time zones. -/
def locName : Loc → Str
  | .zone n _ _ => n
  | _ => []

/-- Texts from elsewhere in a value. -/
def valOutside (E : Env) : Val → Nat
  | .calAddress u | .uri u => (E.urlString u).length
  | .tfloat t => (E.floatFormat t.1).length + (E.floatFormat t.2).length
  | .dateTime t => (locName t.loc).length
  | .period p => (locName p.start.loc).length
  | .recur r => (locName r.until_.loc).length
  | _ => 0

/-- Texts from elsewhere in a parameter. -/
def paramOutside (E : Env) : ParamVal → Nat
  | .url u => (E.urlString u).length
  | .urls us => (us.map fun u => (E.urlString u).length).sum
  | _ => 0

/-- Texts from elsewhere in what is set. -/
def setOutside {α : Type} (f : α → Nat) (xs : List (Option α)) : Nat := (xs.map fun
  | none => 0
  | some x => f x).sum

/-- Texts from elsewhere in a property. -/
def propOutside (E : Env) : PropVal → Nat
  | .enum _ => 0
  | .fields ps vs => setOutside (paramOutside E) ps + setOutside (valOutside E) vs

/-- Texts from elsewhere in a section. -/
def sectOutside {σ : Type} (E : Env) (w : σ → Nat) (s : Sect σ) : Nat := sumSize (propOutside E) s.fields + sumSize w s.subs

/-- In an alarm, STANDARD or DAYLIGHT. -/
def subOutside (E : Env) : Sub → Nat
  | .leaf s => sectOutside E noSize s
  | .alarm none => 0
  | .alarm (some (_, s)) => sectOutside E noSize s

/-- In a component. -/
def compOutside (E : Env) (c : Comp) : Nat := sectOutside E (subOutside E) c

/-- In a calendar. -/
def calOutside (E : Env) (c : Cal) : Nat := sectOutside E (compOutside E) c

/-- What is taken of the Go library when a document is read and written again: an address read from a text is written with at most `U` characters for each of that text, and `U` more; a
float takes at most `F` characters; the offsets of time zones fit 32 bits. -/
structure Moderate (E : Env) (U F : Nat) : Prop where
  url : ∀ s u, E.urlParse s = some u → (E.urlString u).length ≤ U * (s.length + 1)
  float : ∀ f, (E.floatFormat f).length ≤ F
  zone : ∀ r t, (E.zoneOff r t).natAbs ≤ 2 ^ 31
  here : ∀ t, (E.localOff t).natAbs ≤ 2 ^ 31

end Ics.Spec
