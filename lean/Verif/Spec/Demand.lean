import Verif.Codec
import Verif.Unfolder
/-!
# Specification: what is known when only a part of the input has arrived
-/

namespace Ics.Spec

open Ics

/-- What comes next decides what `Decode` returns. -/
def Unsettled (E : Env) (b : Bytes) : Prop := ∃ q1 q2, decodeDoc E (runes (b ++ q1)) ≠ decodeDoc E (runes (b ++ q2))

/-- The octets end in the middle of a character. -/
def CutShort (b : Bytes) : Prop := ∃ a p c t, b = a ++ p ∧ p ≠ [] ∧ t ≠ [] ∧ encodeChar c = p ++ t

/-- The caller's reader when it has been called like this before: what a second call of `Decode` with the same reader reads from. -/
def afterCalls (R : Reader) (h : List Nat) : Reader := fun h' => R (h' ++ h)

/-- A connection that delivers these pieces, each with one call if the buffer is large enough, and what is left of it with the next, and then the end. -/
abbrev connection (ps : List Bytes) : Reader := piecesReader 0 ps

end Ics.Spec
