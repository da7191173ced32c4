import Verif.Spec.Folding
import Verif.Unfolder
/-!
# Specification of where a reader cuts its data

`hist` is the list of the sizes of the buffers the caller's reader was called with, the last call first; `delivered R hist` is what it delivered.
-/

namespace Ics.Spec

open Ics

/-- A call with a buffer of `asked` octets delivers `piece` after `before`, and a fold marker is cut by that: its SPACE comes with this call but not its CR LF, or its LF SPACE
but not its CR (unless the call asks for exactly two octets, which is how the unfolding reader looks for the rest of a marker). -/
def Splits (before : Bytes) (asked : Nat) (piece : Bytes) : Prop :=
  ([13, 10] <:+ before ∧ [32] <+: piece) ∨ (asked ≠ 2 ∧ [13] <:+ before ∧ [10, 32] <+: piece)

/-- One of the calls of a history cut a marker. -/
def MarkerSplit (R : Reader) (hist : List Nat) : Prop :=
  ∃ k h, (k :: h) <:+ hist ∧ Splits (delivered R h) k (R (k :: h)).1

end Ics.Spec
