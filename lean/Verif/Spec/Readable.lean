import Verif.Spec.Writable
import Verif.Spec.Written
import Verif.Spec.Rule
/-!
# Specification: which parameters and values can be read again once they are written

The values read need not be those written (fractions of a second are dropped, empty parameters vanish, hours of offsets wrap around); here is said only when
there is anything that is read.
-/

namespace Ics.Spec

open Ics Rfc

/-- URIs in parameters are written without quotes, and read only with quotes.  An empty one, and an empty list, are not written. -/
def ParamReadable (E : Env) : ParamVal → Prop
  | .url u => E.urlString u = []
  | .urls us => us = []
  | _ => True

/-- Where Go finds the location of this name: it is one of the three that always are there, or in the database of zones. -/
def LocKnown (E : Env) : Loc → Prop
  | .zone n _ _ => n = [] ∨ n = c!"UTC" ∨ n = c!"Local" ∨ ∃ r, E.loadZone n = some r
  | _ => True

/-- The URI, once written, is a URI. -/
def UriReadable (E : Env) (u : Url) : Prop := ∃ w, E.urlParse (E.urlString u) = some w

/-- The float, once written, is a float. -/
def FloatReadable (E : Env) (f : UInt64) : Prop := ∃ x, E.floatParse (E.floatFormat f) = some x

/-- A rule that is read again: the weeks of its days are at most 53, and its end, if it is written, has a year of four digits (and, if it has a time, a zone that is
known). -/
def RuleReadable (E : Env) (r : Recur) : Prop :=
  (∀ x ∈ r.byDay, x.occ = 0 ∨ Ordinal 53 x.occ) ∧
  (r.count = 0 → r.until_.isZero = false → FourDigits E r.until_ ∧ (r.untilTime = true → LocKnown E r.until_.loc))

/-- An offset that is read again.  The sign stands before a zero that is refused: only whole hours, of which 256 count as none, and more than 99 as none too. -/
def OffsetReadable (o : Int) : Prop :=
  0 ≤ o ∨ (o ≠ -9223372036854775808 ∧ ¬ (o.natAbs % 3600 = 0 ∧ (o.natAbs / 3600 % 256 = 0 ∨ 99 < o.natAbs / 3600 % 256)))

/-- A value whose text, with the zone written beside it, is a text of its type for the decoder. -/
def ValReadable (E : Env) : Val → Prop
  | .calAddress u | .uri u => UriReadable E u
  | .date t => FourDigits E t
  | .dateTime t => FourDigits E t ∧ LocKnown E t.loc
  | .integer i => -2147483648 ≤ i ∧ i ≤ 2147483647
  | .period p => FourDigits E p.start ∧ LocKnown E p.start.loc ∧ (p.stop.isZero = false → FourDigits E p.stop)
  | .recur r => RuleReadable E r
  | .tfloat t => FloatReadable E t.1 ∧ FloatReadable E t.2
  | .utcOffset o => OffsetReadable o
  | .binary _ | .boolean _ | .duration _ | .mtext _ | .text _ => True

/-- The numbers in the value fit the types they have in Go. -/
def ValSized : Val → Prop
  | .duration d => d.WF
  | .period p => p.dur.WF
  | .recur r => r.WF
  | _ => True

end Ics.Spec
