import Verif.Spec.Fault
/-!
# Specification: exactly the documents that Decode accepts, and what they are read as

This is a grammar for documents as they are, not as they should be: names behind END are compared as they are written, unknown components are skipped,
and an alarm goes on to the next line that is called END in upper case, although what it holds may have ended before.
-/

namespace Ics.Spec

open Ics

variable {κ σ : Type}

/-- The lines behind the BEGIN line of an unknown component, with the END line.  The END line has the name in upper case; a component in it has to have the name on its END line,
in upper case, that is on its BEGIN line, as it is written. -/
inductive Skipped : Str → List Line → Prop
  | fin {n : Str} {e : Line} : Ends e → upper e.value = n → Skipped n [e]
  | line {n : Str} {l : Line} {r : List Line} : ¬ Begins l → ¬ Ends l → Skipped n r → Skipped n (l :: r)
  | block {n : Str} {b : Line} {k r : List Line} : Begins b → Skipped b.value k → Skipped n r → Skipped n (b :: k ++ r)

/-- The parts of a component in which these names are known.  The lines of a block are those behind the BEGIN line, with the END line. -/
inductive Parts (known : List Str) : List Line → List Item → Prop
  | nil : Parts known [] []
  | line {l : Line} {r : List Line} {is : List Item} : ¬ Begins l → ¬ Ends l → Parts known r is → Parts known (l :: r) (.line l :: is)
  | known {b : Line} {k r : List Line} {is : List Item} : Begins b → upper b.value ∈ known → Parts known r is → Parts known (b :: k ++ r) (.block (upper b.value) k :: is)
  | unknown {b : Line} {k r : List Line} {is : List Item} : Begins b → upper b.value ∉ known → Skipped (upper b.value) k → Parts known r is →
      Parts known (b :: k ++ r) (.block (upper b.value) k :: is)

/-- The parts of a component are read as `s`: each field holds, in order, what its lines are decoded as; each kind of subsection, in order, what its blocks are read as (by `R`);
the numbers of lines are as required; the rules hold. -/
def Filled (E : Env) (T : Tab κ) (R : κ → List Line → σ → Prop) (is : List Item) (s : Sect σ) : Prop :=
  s.fields.length = T.fields.length ∧ s.subs.length = T.subs.length ∧
    (∀ (i : Nat) (f : SField), T.fields[i]? = some f →
      Pairwise2 (fun l p => f.spec.decode E l.params l.value = .ok p) (linesNamed is f.key) (s.fields.getD i []) ∧ CountOk f.mult (linesNamed is f.key).length) ∧
    (∀ (i : Nat) (x : Str × κ), T.subs[i]? = some x → Pairwise2 (R x.2) (blocksNamed is x.1) (s.subs.getD i [])) ∧
    SectRules T s

/-- The lines behind the BEGIN line of a component, with the END line, are read as `s`. -/
def ExactSect (E : Env) (T : Tab κ) (R : κ → List Line → σ → Prop) (ls : List Line) (s : Sect σ) : Prop :=
  ∃ k e is, ls = k ++ [e] ∧ Ends e ∧ e.value = T.name ∧ Parts (T.subs.map (·.1)) k is ∧ Filled E T R is s

/-- The values of the lines that are called ACTION in upper case. -/
def exactActions (k : List Line) : List Str := (k.filter fun l => l.name = c!"ACTION").map (·.value)

/-- The lines of an alarm go up to the first that is called END in upper case; none of them is called BEGIN in upper case.  The last one that is called ACTION in upper case says
what kind of alarm it is, those before have values that are not known.  The alarm is read from the first of the lines, up to an END line, in any case, with its name. -/
def ExactSub (E : Env) : SubKind → List Line → Sub → Prop
  | .leaf T, k, .leaf s => ExactSect E T (fun x => nomatch x) k s
  | .alarm, k, .alarm (some (a, s)) => ∃ body e, k = body ++ [e] ∧ e.name = c!"END" ∧ (∀ l ∈ body, l.name ≠ c!"BEGIN" ∧ l.name ≠ c!"END") ∧
      (∃ us, exactActions body = us ++ [a.action] ∧ ∀ u ∈ us, ∀ b : AKind, u ≠ b.action) ∧ ∃ p q, k = p ++ q ∧ ExactSect E a.tab (fun x => nomatch x) p s
  | _, _, _ => False

def ExactComp (E : Env) (T : Tab SubKind) (k : List Line) (s : Comp) : Prop := ExactSect E T (ExactSub E) k s

/-- The lines are a calendar, read as `c`. -/
def ExactDoc (E : Env) (ls : List Line) (c : Cal) : Prop := ∃ b k, ls = b :: k ∧ Opening b ∧ ExactSect E tabCalendar (ExactComp E) k c

end Ics.Spec
