import Verif.Spec.Output
import Verif.Spec.Machines
/-!
# The characters of a calendar

Which texts there are in a calendar, and which the Go library makes of what is in it.
-/

namespace Ics.Spec

open Ics

/-- The texts in a value: its own, and the names of time zones. -/
def valStrings : Val → List Str
  | .text t => [t]
  | .mtext ts => ts
  | .dateTime t => [locName t.loc]
  | .period p => [locName p.start.loc, locName p.stop.loc]
  | .recur r => [locName r.until_.loc]
  | _ => []

/-- The texts in a parameter. -/
def paramStrings : ParamVal → List Str
  | .str s => [s]
  | .strs ss => ss
  | _ => []

/-- What the Go library writes for a value. -/
def valLibrary (E : Env) : Val → List Str
  | .calAddress u | .uri u => [E.urlString u]
  | .tfloat t => [E.floatFormat t.1, E.floatFormat t.2]
  | _ => []

/-- What the Go library writes for a parameter. -/
def paramLibrary (E : Env) : ParamVal → List Str
  | .url u => [E.urlString u]
  | .urls us => us.map E.urlString
  | _ => []

/-- Of all parameters and values that are set. -/
def propWith (f : ParamVal → List Str) (g : Val → List Str) : PropVal → List Str
  | .enum _ => []
  | .fields ps vs => (ps.filterMap id).flatMap f ++ (vs.filterMap id).flatMap g

/-- All texts in a calendar. -/
def calTexts (c : Cal) : List Str := (everyProp c).flatMap (propWith paramStrings valStrings)

/-- All texts that the Go library writes for a calendar. -/
def calLibrary (E : Env) (c : Cal) : List Str := (everyProp c).flatMap (propWith (paramLibrary E) (valLibrary E))

/-- The characters of the format itself: CR, LF, and the printable ones of ASCII. -/
def OfFormat (ch : Char) : Prop := ch = '\r' ∨ ch = '\n' ∨ (32 ≤ ch.toNat ∧ ch.toNat ≤ 126)

instance (ch : Char) : Decidable (OfFormat ch) := by unfold OfFormat; infer_instance

end Ics.Spec
