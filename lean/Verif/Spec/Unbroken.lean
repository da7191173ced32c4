import Verif.Spec.Document
import Verif.Spec.Structure
/-!
# Specification: the lines of a text, and values that do not break them
-/

namespace Ics.Spec

/-! ## What the package takes from elsewhere -/

/-- URIs as the library writes them, and format types, without control characters. -/
def UnbrokenParam (E : Env) : PKind → ParamVal → Prop
  | .url, .url u => ∀ c ∈ E.urlString u, NoCtl c
  | .urls, .urls us => ∀ u ∈ us, ∀ c ∈ E.urlString u, NoCtl c
  | .fmt, .str s => ∀ c ∈ s, NoCtl c
  | _, _ => True

/-- Names of time zones, and URIs and floats as the library writes them, without control characters. -/
def UnbrokenVal (E : Env) (v : Val) : Prop :=
  (∀ name ptr rules, valLoc v = .zone name ptr rules → ∀ c ∈ name, NoCtl c) ∧
  match v with
  | .calAddress u => ∀ c ∈ E.urlString u, NoCtl c
  | .uri u => ∀ c ∈ E.urlString u, NoCtl c
  | .tfloat t => ∀ c ∈ E.floatFormat t.1 ++ E.floatFormat t.2, NoCtl c
  | _ => True

/-- No URI, float, format type or time zone name of the calendar is written with control characters. -/
def Unbroken (E : Env) (c : Cal) : Prop :=
  ∀ x ∈ calProps c, (∀ y ∈ propParams x.1.spec x.2, UnbrokenParam E y.1.kind y.2) ∧ ∀ v ∈ propVals x.2, UnbrokenVal E v

/-! ## Lines of a text -/

/-- The text of these lines, each with CR LF behind it. -/
def joinRows (rows : List Str) : Str := rows.flatMap fun r => r ++ ['\r', '\n']

/-- The line is this control line, or one of a property of this name. -/
def RowOf : Outline → Str → Prop
  | .ctl n v, r => r = n ++ ':' :: v
  | .prop n _, r => ∃ d t, r = n ++ d :: t ∧ (d = ';' ∨ d = ':')

/-- The text is one line for each entry of the outline, in that order, with no control characters in them. -/
def TextOf (o : List Outline) (s : Str) : Prop :=
  ∃ rows, s = joinRows rows ∧ Pairwise2 RowOf o rows ∧ ∀ r ∈ rows, ∀ c ∈ r, NoCtl c

end Ics.Spec
