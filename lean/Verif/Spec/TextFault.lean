import Verif.Spec.ContentLine
/-!
# Specification: which error a text gets that is not a content line
-/

namespace Ics.Spec

open Ics

/-- The text ends here, or goes on with a character that is none of these. -/
def Stops (P : Char → Prop) (r : Str) : Prop := ∀ c ∈ r.head?, ¬ P c

/-- Values of a parameter, with a comma behind each. -/
def printCommas (vs : List PVal) : Str := vs.flatMap fun v => printVal v ++ [',']

/-- The characters that may stand behind a value: separators; and if it has no quotes, the characters by which it goes on (a quote only at its beginning). -/
def Behind (v : PVal) (c : Char) : Prop := c ∈ [',', ';', ':'] ∨ (v.quoted = false ∧ NoCtl c ∧ (c = '"' → v.data = []))

/-- What is wrong with the values of a parameter: a quote that is not closed before the end of the line, or something behind a value that does not belong there. -/
inductive ValuesFault : Str → Err → Prop
  | quoted {vs : List PVal} {q r : Str} : (∀ v ∈ vs, ParamValOk v) → (∀ c ∈ q, NoCtl c ∧ c ≠ '"') → Stops NoCtl r →
      ValuesFault (printCommas vs ++ '"' :: (q ++ r)) .invalidContentLineQuotedParamValue
  | behind {vs : List PVal} {v : PVal} {r : Str} : (∀ w ∈ vs, ParamValOk w) → ParamValOk v → Stops (Behind v) r →
      ValuesFault (printCommas vs ++ (printVal v ++ r)) .invalidContentLineParamValue

/-- What is wrong with a text: it does not begin with a name, the name is not followed by a semicolon or colon, the name of a parameter is not followed by an equals
sign, its values are wrong, or there is a control character in the value (and not a line end). -/
inductive TextFault : Str → Err → Prop
  | start {c : Char} {r : Str} : ¬ IanaChar c → TextFault (c :: r) .invalidContentLine
  | name {n r : Str} : n ≠ [] → (∀ c ∈ n, IanaChar c) → Stops (fun c => IanaChar c ∨ c = ';' ∨ c = ':') r → TextFault (n ++ r) .invalidContentLineName
  | pname {n m r : Str} {ps : List (Str × List PVal)} : LineOk ⟨n, ps, []⟩ → (∀ c ∈ m, IanaChar c) → Stops (fun c => IanaChar c ∨ c = '=') r →
      TextFault (n ++ (printParams ps ++ ';' :: (m ++ r))) .invalidContentLineParamName
  | pvalues {n m r : Str} {ps : List (Str × List PVal)} {e : Err} : LineOk ⟨n, ps, []⟩ → (∀ c ∈ m, IanaChar c) → ValuesFault r e →
      TextFault (n ++ (printParams ps ++ ';' :: (m ++ '=' :: r))) e
  | value {n v r : Str} {c : Char} {ps : List (Str × List PVal)} : LineOk ⟨n, ps, v⟩ → ¬ NoCtl c → (∀ r', c :: r ≠ '\r' :: '\n' :: r') →
      TextFault (n ++ (printParams ps ++ ':' :: (v ++ c :: r))) .invalidContentLineValue

end Ics.Spec
