import Verif.Tokeniser
/-!
# Specification of content lines (RFC 5545 section 3.1), independent of the tokeniser's code

The character classes are spelled out again as numeric ranges.
-/

namespace Ics.Spec

open Ics

/-- ALPHA / DIGIT / "-". -/
def IanaChar (c : Char) : Prop :=
  (65 ≤ c.toNat ∧ c.toNat ≤ 90) ∨ (97 ≤ c.toNat ∧ c.toNat ≤ 122) ∨ (48 ≤ c.toNat ∧ c.toNat ≤ 57) ∨ c.toNat = 45

/-- No control character except tab. -/
def NoCtl (c : Char) : Prop := (32 ≤ c.toNat ∧ c.toNat ≠ 127) ∨ c.toNat = 9

/-- Parameter value characters: in quotes anything but quotes and controls, unquoted also no ; : , -/
def ParamValOk (v : PVal) : Prop :=
  ∀ c ∈ v.data, NoCtl c ∧ c.toNat ≠ 34 ∧
    (v.quoted = false → c.toNat ≠ 59 ∧ c.toNat ≠ 58 ∧ c.toNat ≠ 44)

structure LineOk (l : Line) : Prop where
  name_ne : l.name ≠ []
  name : ∀ c ∈ l.name, IanaChar c
  pname : ∀ p ∈ l.params, ∀ c ∈ p.1, IanaChar c
  pvals_ne : ∀ p ∈ l.params, p.2 ≠ []
  pvals : ∀ p ∈ l.params, ∀ v ∈ p.2, ParamValOk v
  value : ∀ c ∈ l.value, NoCtl c

def printVal (v : PVal) : Str := if v.quoted then '"' :: v.data ++ ['"'] else v.data

def printVals : List PVal → Str
  | [] => []
  | [v] => printVal v
  | v :: vs => printVal v ++ ',' :: printVals vs

def printParams : List (Str × List PVal) → Str
  | [] => []
  | (n, vs) :: ps => ';' :: n ++ '=' :: printVals vs ++ printParams ps

/-- The content line without its line end. -/
def printBare (l : Line) : Str := l.name ++ printParams l.params ++ ':' :: l.value

/-- The content line with CR LF. -/
def printLine (l : Line) : Str := printBare l ++ ['\r', '\n']

end Ics.Spec
