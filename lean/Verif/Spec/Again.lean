import Verif.Spec.Valid
import Verif.Spec.Time
/-!
# Specification: decoded calendars that can be written and read again

What the zones of the tz database are like, and what of the things decoded is lost when they are written.
-/

namespace Ics.Spec

open Ics

/-- Seconds from 1 January of year 1 back to 1 January of year 0, and up to 1 January of year 10000. -/
def yearZero : Int := -366 * 86400
def yearTenThousand : Int := 3652059 * 86400

/-- `x` is within two and a half days of `y`. -/
def Near (x y : Int) : Prop := y - 216000 ≤ x ∧ x ≤ y + 216000

/-- The offset of a time zone from UTC, at each instant: at most fifteen hours, at most one change within thirty hours of any instant, and none around
the beginning of year 0 and the end of year 9999. -/
structure SaneZone (f : Int → Int) : Prop where
  small : ∀ x, -54000 ≤ f x ∧ f x ≤ 54000
  one : ∀ w, ∃ t a b, ∀ x, w - 108000 ≤ x → x ≤ w + 108000 → f x = if x < t then a else b
  first : ∀ x y, Near x yearZero → Near y yearZero → f x = f y
  last : ∀ x y, Near x yearTenThousand → Near y yearTenThousand → f x = f y

/-- The local time zone and all those that can be loaded are sane, and their names need no quotes. -/
structure SaneEnv (E : Env) : Prop where
  loc : SaneZone E.localOff
  zone : ∀ n r, E.loadZone n = some r → SaneZone (E.zoneOff r)
  name : ∀ n r, E.loadZone n = some r → ∀ c ∈ n, BareChar c

/-- Decoded parameters that are not lost: not a URI (written without quotes), not empty, not FALSE, and no caret in a text. -/
def ParamKept : PKind → ParamVal → Prop
  | .url, _ => False
  | .urls, _ => False
  | _, .bool b => b = true
  | _, .str s => s ≠ [] ∧ '^' ∉ s
  | _, .strs ss => ∀ s ∈ ss, '^' ∉ s
  | _, _ => True

/-- Decoded values that are not lost: times without a fraction of a second, no zero time in the place of an end; URIs and numbers that the Go library reads back
from what it writes. -/
def ValKept (E : Env) : Val → Prop
  | .dateTime t => t.nsec = 0
  | .period p => p.start.nsec = 0 ∧ p.stop.nsec = 0 ∧ (ZeroTime p.stop → p.stop.loc = .utc)
  | .recur r => r.until_.nsec = 0 ∧ (ZeroTime r.until_ → r.untilTime = false)
  | .calAddress u => E.urlParse (E.urlString u) = some u ∧ ∀ c ∈ E.urlString u, NoCtl c
  | .uri u => E.urlParse (E.urlString u) = some u ∧ ∀ c ∈ E.urlString u, NoCtl c
  | .tfloat x => ∀ y ∈ [x.1, x.2], E.floatParse (E.floatFormat y) = some y ∧ ∀ c ∈ E.floatFormat y, NoCtl c ∧ c ≠ ';'
  | _ => True

/-- All parameters of a calendar, with their kinds. -/
def calParams (c : Cal) : List (PKind × ParamVal) := (calProps c).flatMap fun x => (propParams x.1.spec x.2).map fun y => (y.1.kind, y.2)

end Ics.Spec
