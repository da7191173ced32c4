import Verif.Spec.ContentLine
import Verif.Tokens
/-!
# Specification: the tokens of a content line
-/

namespace Ics.Spec

open Ics

/-- The token of a value of a parameter. -/
def valToken (v : PVal) : Token := ⟨if v.quoted then .paramQuotedValue else .paramValue, v.data⟩

/-- The tokens of the parameters: for each its name and its values. -/
def paramTokens (ps : List (Str × List PVal)) : List Token := ps.flatMap fun p => ⟨.paramName, p.1⟩ :: p.2.map valToken

/-- The tokens of a content line: its name, its parameters, its value. -/
def lineTokens (l : Line) : List Token := ⟨.name, l.name⟩ :: (paramTokens l.params ++ [⟨.value, l.value⟩])

/-- The document has a last line without a line end. -/
def NoLastLineEnd (s : Str) : Prop := ∃ ls l, s = ls.flatMap printLine ++ printBare l ∧ ∀ x ∈ ls ++ [l], LineOk x

end Ics.Spec
