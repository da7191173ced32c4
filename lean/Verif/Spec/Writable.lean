import Verif.Spec.Document
/-!
# Specification: parameters that end up on the line of their property

Only what the package does not look at itself: what the Go library makes of a URI, and the characters of a format type.
-/

namespace Ics.Spec

/-- A URI that the library writes without control characters and with no quote at the beginning. -/
def UrlPlain (E : Env) (u : Url) : Prop := (∀ c ∈ E.urlString u, NoCtl c) ∧ (E.urlString u).head? ≠ some '"'

/-- URIs are plain, and format types have no control characters (validation does not look for them there). -/
def ParamWritable (E : Env) : PKind → ParamVal → Prop
  | .url, .url u => UrlPlain E u
  | .urls, .urls us => ∀ u ∈ us, UrlPlain E u
  | .fmt, .str s => ∀ c ∈ s, NoCtl c
  | _, _ => True

/-- The library writes the URIs it has read plainly, and floats without control characters and semicolons. -/
structure PlainEnv (E : Env) : Prop where
  url : ∀ s u, E.urlParse s = some u → UrlPlain E u
  float : ∀ f, ∀ c ∈ E.floatFormat f, NoCtl c ∧ c ≠ ';'

end Ics.Spec
