import Verif.Spec.Document
/-!
# Specification: how far Encode comes
-/

namespace Ics.Spec

open Ics

/-- One of the characters for which RFC 6868 has a sequence with a caret: line feed, caret, quote. -/
def Marked (s : Str) : Bool := s.any fun c => c == '\n' || c == '^' || c == '"'

/-- The texts in the parameters of a calendar, in the order in which they stand in the document. -/
def textsInOrder (c : Cal) : List Str := (calProps c).flatMap fun x => (propParams x.1.spec x.2).flatMap fun y => paramTexts y.2

/-! ## The same calendar with other texts in the parameters -/

def mendParam (f : Str → Str) : ParamVal → ParamVal
  | .str s => .str (f s)
  | .strs ss => .strs (ss.map f)
  | v => v

def mendProp (f : Str → Str) : PropVal → PropVal
  | .enum n => .enum n
  | .fields ps vs => .fields (ps.map fun p => p.map (mendParam f)) vs

def mendSect {σ : Type} (f : Str → Str) (g : σ → σ) (s : Sect σ) : Sect σ := ⟨s.fields.map fun ps => ps.map (mendProp f), s.subs.map fun ss => ss.map g⟩

def mendSub (f : Str → Str) : Sub → Sub
  | .leaf s => .leaf (mendSect f id s)
  | .alarm none => .alarm none
  | .alarm (some (k, s)) => .alarm (some (k, mendSect f id s))

/-- The calendar with every text in a parameter replaced. -/
def mendCal (f : Str → Str) (c : Cal) : Cal := mendSect f (mendSect f (mendSub f)) c

/-- A character because of which a parameter is written in quotes. -/
def NeedsQuotes (s : Str) : Prop := ∃ c ∈ s, c = '"' ∨ c = ';' ∨ c = ':' ∨ c = ','

/-- Texts to stand in for those with such characters: without them, not empty, and in quotes if the other is.  All else stays. -/
structure StandIn (f : Str → Str) : Prop where
  same : ∀ s, Marked s = false → f s = s
  plain : ∀ s, Marked s = true → Marked (f s) = false
  some : ∀ s, Marked s = true → f s ≠ []
  quotes : ∀ s, Marked s = true → (NeedsQuotes (f s) ↔ NeedsQuotes s)

/-- What one call of the caller's writer is given: a fold, or a part of one line with at most 75 octets, with or without the end of the line. -/
def OfOneLine (p : Bytes) : Prop := p = [13, 10, 32] ∨ ∃ l : Bytes, l.length ≤ 75 ∧ (∀ b ∈ l, b ≠ 13 ∧ b ≠ 10) ∧ (p = l ∨ p = l ++ [13, 10])

end Ics.Spec
