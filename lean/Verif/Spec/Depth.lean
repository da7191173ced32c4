import Verif.Tokeniser
/-!
# How deep a document is nested

Counted from the lines alone.
-/

namespace Ics.Spec

/-- The lines that begin a block. -/
def begins : List Line → Nat
  | [] => 0
  | l :: r => (if upper l.name = c!"BEGIN" then 1 else 0) + begins r

/-- The lines that end a block. -/
def ends : List Line → Nat
  | [] => 0
  | l :: r => (if upper l.name = c!"END" then 1 else 0) + ends r

/-- No more than `n` blocks are open at any place. -/
def OpenAtMost (n : Nat) (ls : List Line) : Prop := ∀ p r, ls = p ++ r → begins p ≤ ends p + n

/-- The names BEGIN and END are written in upper case. -/
def Capital (ls : List Line) : Prop := ∀ l ∈ ls, (upper l.name = c!"BEGIN" → l.name = c!"BEGIN") ∧ (upper l.name = c!"END" → l.name = c!"END")

/-- `n` blocks of a component nobody knows, one in the other. -/
def nest : Nat → List Line
  | 0 => []
  | n + 1 => ⟨c!"BEGIN", [], c!"A"⟩ :: nest n ++ [⟨c!"END", [], c!"A"⟩]

/-- A calendar with nothing in it but those. -/
def deep (n : Nat) : List Line :=
  ⟨c!"BEGIN", [], c!"VCALENDAR"⟩ :: nest n ++ [⟨c!"VERSION", [], c!"2.0"⟩, ⟨c!"PRODID", [], c!"x"⟩, ⟨c!"END", [], c!"VCALENDAR"⟩]

end Ics.Spec
