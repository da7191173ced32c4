import Verif.Unfolder
/-!
# Specification: pieces on which a `Read` does not return
-/

namespace Ics.Spec

open Ics

/-- The piece has a fold in it, and its last three octets are those of a fold, in this order or turned round. -/
def Stuck (b : Bytes) : Prop := [13, 10, 32] <:+: b ∧ ([13, 10, 32] <:+ b ∨ [32, 13, 10] <:+ b ∨ [10, 32, 13] <:+ b)

/-- The same reader, but the call with which the history becomes `h` fails, without octets. -/
def failsAt (R : Reader) (h : List Nat) : Reader := fun h' => if h' = h then ([], some 0) else R h'

end Ics.Spec
