import Verif.Spec.Exact
/-!
# Specification: statements about each component of a document and what it is read as

This is `EachPart` of Spec/Structure.lean for documents of any kind, with names in any case: components are divided as in Spec/Exact.lean.
-/

namespace Ics.Spec

open Ics

variable {κ σ : Type}

/-- The lines behind the BEGIN line of a component, with the END line, have these parts. -/
def Cut (T : Tab κ) (ls : List Line) (is : List Item) : Prop := ∃ k e, ls = k ++ [e] ∧ Ends e ∧ e.value = T.name ∧ Parts (T.subs.map (·.1)) k is

def SubEach (P : Claim) : SubKind → List Line → Sub → Prop
  | .leaf T, k, .leaf s => ∃ is, Cut T k is ∧ P T.fields is s.fields
  | .alarm, k, .alarm (some (a, s)) => ∃ p q is, k = p ++ q ∧ Cut a.tab p is ∧ P a.tab.fields is s.fields
  | _, _, _ => False

def CompEach (P : Claim) (T : Tab SubKind) (k : List Line) (s : Comp) : Prop := ∃ is, Cut T k is ∧ P T.fields is s.fields ∧
  ∀ (i : Nat) (x : Str × SubKind), T.subs[i]? = some x → Pairwise2 (SubEach P x.2) (blocksNamed is x.1) (s.subs.getD i [])

/-- The blocks in the document are the components of the calendar, in order, and `P` holds for each of them. -/
def CalEach (P : Claim) (ls : List Line) (c : Cal) : Prop := ∃ b k is, ls = b :: k ∧ Opening b ∧ Cut tabCalendar k is ∧ P tabCalendar.fields is c.fields ∧
  ∀ (i : Nat) (x : Str × Tab SubKind), tabCalendar.subs[i]? = some x → Pairwise2 (CompEach P x.2) (blocksNamed is x.1) (c.subs.getD i [])

end Ics.Spec
