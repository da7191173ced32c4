import Verif.Param
import Verif.Spec.ContentLine
/-!
# RFC 6868 and parameters, independent of the package's code
-/

namespace Ics.Spec

open Ics

/-- `^n`, `^'` and `^^` for newline, quote and caret. -/
def escape6868 (c : Char) : Str :=
  if c = '\n' then ['^', 'n'] else if c = '"' then ['^', '\''] else if c = '^' then ['^', '^'] else [c]

/-- The encoding of RFC 6868. -/
def rfcEnc6868 (s : Str) : Str := s.flatMap escape6868

/-- The decoding of RFC 6868: the three sequences are replaced, everything else (also other uses of the caret) is kept. -/
def rfcDec6868 : Str → Str
  | '^' :: 'n' :: r => '\n' :: rfcDec6868 r
  | '^' :: '\'' :: r => '"' :: rfcDec6868 r
  | '^' :: '^' :: r => '^' :: rfcDec6868 r
  | c :: r => c :: rfcDec6868 r
  | [] => []

/-- The two are inverse to each other, as they should. -/
theorem rfc6868_inverse (s : Str) : rfcDec6868 (rfcEnc6868 s) = s := by
  induction s with
  | nil => rfl
  | cons c s ih =>
    show rfcDec6868 (escape6868 c ++ rfcEnc6868 s) = _
    unfold escape6868
    split
    · next h => subst h; simp [rfcDec6868, ih]
    · split
      · next h => subst h; simp [rfcDec6868, ih]
      · split
        · next h => subst h; simp [rfcDec6868, ih]
        · next h =>
          simp only [List.singleton_append]
          rw [rfcDec6868, ih]
          all_goals intro _ h1; exact absurd h1 h

/-- Text the encoder can write and the decoder restores: no controls but tab, no carets and no quotes. -/
def PlainText (s : Str) : Prop := ∀ c ∈ s, NoCtl c ∧ c.toNat ≠ 94 ∧ c.toNat ≠ 34

/-- The characters the package allows next to the slash of a format type. -/
def FormatChar (c : Char) : Prop :=
  (97 ≤ c.toNat ∧ c.toNat ≤ 122) ∨ (43 ≤ c.toNat ∧ c.toNat ≤ 94) ∨ c.toNat = 33 ∨ c.toNat = 35 ∨ c.toNat = 36 ∨ c.toNat = 38 ∨ c.toNat = 95

/-- Somewhere in the text a slash stands between two such characters. -/
def FormatType (s : Str) : Prop := ∃ x a b y, s = x ++ a :: '/' :: b :: y ∧ FormatChar a ∧ FormatChar b

/-- The values of parameters that survive writing and reading. -/
inductive GoodParam : PKind → ParamVal → Prop
  | str (q : Bool) (s : Str) : s ≠ [] → PlainText s → GoodParam (.str q) (.str s)
  | fmt (s : Str) : PlainText s → FormatType s → GoodParam .fmt (.str s)
  | names (l : List Str) (n : Nat) : n ≤ l.length → GoodParam (.enum l) (.enum n)
  | strs (l : List Str) : l ≠ [] → (∀ s ∈ l, PlainText s) → GoodParam .strs (.strs l)
  | range : GoodParam .range .unit
  | bool : GoodParam .bool (.bool true)

end Ics.Spec
